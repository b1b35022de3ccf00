import Verif.Lemmas.Gasket
import Verif.Props.Steiner

/-! The starting configuration of the Apollonian gasket: products of circles, the symmetric configuration, and its images by an inversion that fixes
the outer circle. -/

open Spec Real Classical

/-- The product of two circles: zero for orthogonal circles, `2 r s` for circles tangent externally, `- 2 r s` for circles tangent internally. -/
noncomputable def lprod (a b : Circle) : ℝ := sqDist a.center b.center - a.radius ^ 2 - b.radius ^ 2

theorem lprod_comm (a b : Circle) : lprod a b = lprod b a := by unfold lprod; rw [sqDist_comm]; ring

theorem lprod_img {I : Pt} {k : ℝ} {a b : Circle} (ha : 0 < sqDist a.center I - a.radius ^ 2) (hb : 0 < sqDist b.center I - b.radius ^ 2) :
    lprod (img I k a) (img I k b) = (k / (sqDist a.center I - a.radius ^ 2)) * (k / (sqDist b.center I - b.radius ^ 2)) * lprod a b := by
  have h1 : k / (sqDist a.center I - a.radius ^ 2) * (sqDist a.center I - a.radius ^ 2) = k := div_mul_cancel₀ _ ha.ne'
  have h2 : k / (sqDist b.center I - b.radius ^ 2) * (sqDist b.center I - b.radius ^ 2) = k := div_mul_cancel₀ _ hb.ne'
  unfold lprod img
  dsimp only
  obtain ⟨α, hα⟩ : ∃ α, α = k / (sqDist a.center I - a.radius ^ 2) := ⟨_, rfl⟩
  obtain ⟨β, hβ⟩ : ∃ β, β = k / (sqDist b.center I - b.radius ^ 2) := ⟨_, rfl⟩
  rw [← hα] at h1 ⊢
  rw [← hβ] at h2 ⊢
  clear hα hβ ha hb
  unfold sqDist at *
  simp only [Pt.add_x, Pt.add_y, Pt.smul_x, Pt.smul_y, Pt.sub_x, Pt.sub_y]
  linear_combination (α - β) * (h1 - h2)

/-- What the proof needs of the outer circle `c0`, the inner circle, the circles `r i` of the chain and the circles `m i` of the mirrors. -/
structure ApSeed (n : ℕ) (c0 inner : Circle) (r m : ℕ → Circle) : Prop where
  pos0 : 0 < c0.radius
  posi : 0 < inner.radius
  posr : ∀ i, 0 < (r i).radius
  posm : ∀ i, 0 < (m i).radius
  mm : ∀ i j, i < n → j < n → i ≠ j → 2 * ((m i).radius * (m j).radius) ≤ lprod (m i) (m j)
  mr0 : ∀ i j, i < n → j < n → (j = i ∨ j = (i + 1) % n) → lprod (m i) (r j) = 0
  mr : ∀ i j, i < n → j < n → j ≠ i → j ≠ (i + 1) % n → 2 * ((m i).radius * (r j).radius) ≤ lprod (m i) (r j)
  mi : ∀ i < n, 2 * ((m i).radius * inner.radius) ≤ lprod (m i) inner
  m0 : ∀ i < n, lprod (m i) c0 = 0
  rr : ∀ i j, i < n → j < n → i ≠ j → 2 * ((r i).radius * (r j).radius) ≤ lprod (r i) (r j)
  next : ∀ i < n, lprod (r i) (r ((i + 1) % n)) = 2 * ((r i).radius * (r ((i + 1) % n)).radius)
  ri : ∀ i < n, lprod (r i) inner = 2 * ((r i).radius * inner.radius)
  r0 : ∀ i, lprod (r i) c0 = -(2 * ((r i).radius * c0.radius))
  i0 : lprod inner c0 ≤ -(2 * (inner.radius * c0.radius))
  rlt : ∀ i, (r i).radius < c0.radius
  ilt : inner.radius < c0.radius
  key : ∀ i < n, 4 * inner.radius * (2 * (c0.radius * inner.radius) - lprod inner c0) * (m i).radius ^ 2 ≤ c0.radius * lprod (m i) inner ^ 2

/-- A circle inside the outer one stays inside. -/
theorem img_lt {I : Pt} {d : ℝ} {c0 c : Circle} (h0 : 0 < c0.radius) (hc : 0 < c.radius) (hlt : c.radius < c0.radius)
    (hin : lprod c c0 ≤ -(2 * (c.radius * c0.radius))) (hd : c0.radius < d) (hI : sqDist I c0.center = d ^ 2)
    (hD : 0 < sqDist c.center I - c.radius ^ 2) : (img I (d ^ 2 - c0.radius ^ 2) c).radius < c0.radius := by
  unfold img
  dsimp only
  rw [div_mul_eq_mul_div, div_lt_iff₀ hD]
  obtain ⟨e, he⟩ : ∃ e, e = √(sqDist c0.center c.center) := ⟨_, rfl⟩
  have he0 : 0 ≤ e := by rw [he]; exact Real.sqrt_nonneg _
  have he2 : sqDist c0.center c.center = e ^ 2 := by rw [he, Real.sq_sqrt (sqDist_nonneg _ _)]
  have hf := far_from_pole (O := c0.center) (I := I) (C := c.center) (d := d) (m := e) (by linarith) he0 hI he2
  unfold lprod at hin
  rw [sqDist_comm, he2] at hin
  have hle : e ≤ c0.radius - c.radius := by
    refine le_of_sq_le_sq ?_ (by linarith)
    nlinarith
  obtain ⟨R, hR⟩ : ∃ R, R = c0.radius := ⟨_, rfl⟩
  obtain ⟨ρ, hρ⟩ : ∃ ρ, ρ = c.radius := ⟨_, rfl⟩
  rw [← hR] at h0 hlt hd hle ⊢
  rw [← hρ] at hc hlt hle hD ⊢
  have h1 : (d - R + ρ) ^ 2 ≤ (d - e) ^ 2 := by
    apply pow_le_pow_left₀ <;> linarith
  have h2 : (d - R) * (d - R + 2 * ρ) ≤ sqDist c.center I - ρ ^ 2 := by nlinarith
  have h3 : R * ((d - R) * (d - R + 2 * ρ)) ≤ R * (sqDist c.center I - ρ ^ 2) := mul_le_mul_of_nonneg_left h2 h0.le
  have h4 : 0 < (d - R) * ((R - ρ) * (d - R)) := mul_pos (by linarith) (mul_pos (by linarith) (by linarith))
  nlinarith

theorem ApSeed.transport {n : ℕ} {c0 inner : Circle} {r m : ℕ → Circle} (h : ApSeed n c0 inner r m) {I : Pt} {d : ℝ} (hd : c0.radius < d)
    (hI : sqDist I c0.center = d ^ 2) (hDr : ∀ i, 0 < sqDist (r i).center I - (r i).radius ^ 2)
    (hDm : ∀ i, 0 < sqDist (m i).center I - (m i).radius ^ 2) (hDi : 0 < sqDist inner.center I - inner.radius ^ 2) :
    ApSeed n c0 (img I (d ^ 2 - c0.radius ^ 2) inner) (fun i => img I (d ^ 2 - c0.radius ^ 2) (r i))
      (fun i => img I (d ^ 2 - c0.radius ^ 2) (m i)) := by
  have p0 := h.pos0
  obtain ⟨k, hk⟩ : ∃ k, k = d ^ 2 - c0.radius ^ 2 := ⟨_, rfl⟩
  have hk0 : 0 < k := by rw [hk]; nlinarith
  have hD0 : sqDist c0.center I - c0.radius ^ 2 = k := by rw [sqDist_comm, hI, hk]
  have hc0 : img I k c0 = c0 := by
    unfold img
    rw [hD0, div_self hk0.ne']
    cases c0
    simp only [one_mul, Circle.mk.injEq, and_true]
    ext <;> simp
  have w : ∀ c : Circle, 0 < sqDist c.center I - c.radius ^ 2 → 0 < k / (sqDist c.center I - c.radius ^ 2) := fun c hc => div_pos hk0 hc
  have rad : ∀ c : Circle, (img I k c).radius = k / (sqDist c.center I - c.radius ^ 2) * c.radius := fun c => rfl
  have le2 : ∀ a b : Circle, 0 < sqDist a.center I - a.radius ^ 2 → 0 < sqDist b.center I - b.radius ^ 2 →
      2 * (a.radius * b.radius) ≤ lprod a b → 2 * ((img I k a).radius * (img I k b).radius) ≤ lprod (img I k a) (img I k b) := by
    intro a b ha hb hab
    rw [lprod_img ha hb, rad, rad]
    have := mul_le_mul_of_nonneg_left hab (mul_pos (w a ha) (w b hb)).le
    linarith
  have eq2 : ∀ (a b : Circle) (t : ℝ), 0 < sqDist a.center I - a.radius ^ 2 → 0 < sqDist b.center I - b.radius ^ 2 →
      lprod a b = t * (a.radius * b.radius) → lprod (img I k a) (img I k b) = t * ((img I k a).radius * (img I k b).radius) := by
    intro a b t ha hb hab
    rw [lprod_img ha hb, rad, rad, hab]
    ring
  have D0 : 0 < sqDist c0.center I - c0.radius ^ 2 := by rw [hD0]; exact hk0
  have w0 : k / (sqDist c0.center I - c0.radius ^ 2) = 1 := by rw [hD0, div_self hk0.ne']
  rw [← hk]
  have rr0 : ∀ i, lprod (r i) c0 ≤ -(2 * ((r i).radius * c0.radius)) := fun i => (h.r0 i).le
  refine ⟨p0, mul_pos (w _ hDi) h.posi, fun i => mul_pos (w _ (hDr i)) (h.posr i), fun i => mul_pos (w _ (hDm i)) (h.posm i), ?_, ?_, ?_, ?_, ?_, ?_, ?_, ?_, ?_, ?_, ?_, ?_, ?_⟩
  · exact fun i j hi hj hij => le2 _ _ (hDm i) (hDm j) (h.mm i j hi hj hij)
  · intro i j hi hj hij
    have := eq2 (m i) (r j) 0 (hDm i) (hDr j) (by rw [h.mr0 i j hi hj hij]; ring)
    simpa using this
  · exact fun i j hi hj h1 h2 => le2 _ _ (hDm i) (hDr j) (h.mr i j hi hj h1 h2)
  · exact fun i hi => le2 _ _ (hDm i) hDi (h.mi i hi)
  · intro i hi
    have := eq2 (m i) c0 0 (hDm i) D0 (by rw [h.m0 i hi]; ring)
    rw [hc0] at this
    simpa using this
  · exact fun i j hi hj hij => le2 _ _ (hDr i) (hDr j) (h.rr i j hi hj hij)
  · exact fun i hi => eq2 _ _ 2 (hDr i) (hDr _) (h.next i hi)
  · exact fun i hi => eq2 _ _ 2 (hDr i) hDi (h.ri i hi)
  · intro i
    have := eq2 (r i) c0 (-2) (hDr i) D0 (by rw [h.r0 i]; ring)
    rw [hc0] at this
    rw [this]; ring
  · have e := lprod_img (k := k) hDi D0
    rw [hc0, w0, mul_one] at e
    rw [e, rad]
    have := mul_le_mul_of_nonneg_left h.i0 (w _ hDi).le
    linarith
  · intro i
    rw [hk]
    exact img_lt p0 (h.posr i) (h.rlt i) (rr0 i) hd hI (hDr i)
  · rw [hk]
    exact img_lt p0 h.posi h.ilt h.i0 hd hI hDi
  · intro i hi
    have e := lprod_img (k := k) hDi D0
    rw [hc0, w0, mul_one] at e
    rw [e, lprod_img (hDm i) hDi, rad, rad]
    obtain ⟨a, ha⟩ : ∃ a, a = k / (sqDist inner.center I - inner.radius ^ 2) := ⟨_, rfl⟩
    obtain ⟨b, hb⟩ : ∃ b, b = k / (sqDist (m i).center I - (m i).radius ^ 2) := ⟨_, rfl⟩
    rw [← ha, ← hb]
    have := mul_le_mul_of_nonneg_left (h.key i hi) (show 0 ≤ a ^ 2 * b ^ 2 by positivity)
    linarith

/-! ### The symmetric configuration -/

theorem cos_le_of_between {a b : ℝ} (hb : 0 ≤ b) (h1 : b ≤ a) (h2 : a ≤ 2 * π - b) : cos a ≤ cos b := by
  rcases le_or_gt a π with h | h
  · exact cos_le_cos_of_nonneg_of_le_pi hb h h1
  · rw [← cos_two_pi_sub]
    exact cos_le_cos_of_nonneg_of_le_pi hb (by linarith) (by linarith)

/-- The mirror that fixes the outer circle and the circles `i` and `i + 1` of the chain for `phi = 0`. -/
noncomputable def mirror0 (c0 : Circle) (n : ℕ) (shift : ℝ) (i : ℕ) : Circle :=
  ⟨(c0.radius / cos (π / n)) • unit_vector_ (((i : ℝ) + shift) * 2 * (π / n) + π / n) + c0.center,
    c0.radius / cos (π / n) * sin (π / n)⟩

theorem cosine_bounds {n : ℕ} (hn : 3 ≤ n) : 1 / 2 ≤ cos (π / n) := by
  have hn' : (3 : ℝ) ≤ n := by exact_mod_cast hn
  rw [← cos_pi_div_three]
  apply cos_le_cos_of_nonneg_of_le_pi (by positivity) (by linarith [pi_pos])
  exact div_le_div_of_nonneg_left pi_pos.le (by norm_num) hn'

theorem sqDist_polar (O : Pt) (a b α β : ℝ) :
    sqDist (a • unit_vector_ α + O) (b • unit_vector_ β + O) = a ^ 2 + b ^ 2 - 2 * a * b * cos (α - β) := by
  unfold sqDist unit_vector_
  simp only [Pt.add_x, Pt.add_y, Pt.smul_x, Pt.smul_y]
  rw [cos_sub]
  linear_combination a ^ 2 * sin_sq_add_cos_sq α + b ^ 2 * sin_sq_add_cos_sq β

theorem sqDist_polar_center (O : Pt) (a α : ℝ) : sqDist (a • unit_vector_ α + O) O = a ^ 2 := by
  unfold sqDist unit_vector_
  simp only [Pt.add_x, Pt.add_y, Pt.smul_x, Pt.smul_y]
  linear_combination a ^ 2 * sin_sq_add_cos_sq α

/-- The angle between two different circles of the chain. -/
theorem cos_even {n i j : ℕ} (hn : 3 ≤ n) (hi : i < n) (hj : j < n) (hij : i ≠ j) (t : ℝ) :
    cos ((((i : ℝ) + t) * 2 * (π / n)) - (((j : ℝ) + t) * 2 * (π / n))) ≤ cos (2 * (π / n)) := by
  have hn' : (3 : ℝ) ≤ n := by exact_mod_cast hn
  have hx : 0 < π / n := by positivity
  have hpx : π = n * (π / n) := by field_simp
  have key : ∀ i j : ℕ, i < j → j < n → cos ((((j : ℝ) + t) * 2 * (π / n)) - (((i : ℝ) + t) * 2 * (π / n))) ≤ cos (2 * (π / n)) := by
    intro i j hlt hj
    have h1 : (i : ℝ) + 1 ≤ j := by exact_mod_cast hlt
    have h2 : (j : ℝ) + 1 ≤ n := by exact_mod_cast hj
    have h3 : (0 : ℝ) ≤ i := by positivity
    apply cos_le_of_between (by linarith)
    · nlinarith
    · nlinarith
  rcases Nat.lt_or_ge i j with h | h
  · rw [← cos_neg, neg_sub]; exact key i j h hj
  · exact key j i (by omega) hi

/-- The angle between a mirror and a circle of the chain that it does not fix. -/
theorem cos_odd {n i j : ℕ} (hn : 3 ≤ n) (hi : i < n) (hj : j < n) (h1 : j ≠ i) (h2 : j ≠ (i + 1) % n) (t : ℝ) :
    cos ((((i : ℝ) + t) * 2 * (π / n) + π / n) - (((j : ℝ) + t) * 2 * (π / n))) ≤ cos (3 * (π / n)) := by
  have hn' : (3 : ℝ) ≤ n := by exact_mod_cast hn
  have hx : 0 < π / n := by positivity
  have hpx : π = n * (π / n) := by field_simp
  have hi0 : (0 : ℝ) ≤ i := by positivity
  have hj0 : (0 : ℝ) ≤ j := by positivity
  rcases Nat.lt_or_ge i j with h | h
  · have h3 : i + 2 ≤ j := by
      have : (i + 1) % n = i + 1 := Nat.mod_eq_of_lt (by omega)
      omega
    have h3' : (i : ℝ) + 2 ≤ j := by exact_mod_cast h3
    have h4 : (j : ℝ) + 1 ≤ n := by exact_mod_cast hj
    rw [← cos_neg, neg_sub]
    apply cos_le_of_between (by linarith)
    · nlinarith
    · nlinarith
  · have h3 : (j : ℝ) + 1 ≤ i := by exact_mod_cast (by omega : j + 1 ≤ i)
    have h4 : i ≤ j + n - 2 := by
      by_contra hc
      have hj0 : j = 0 := by omega
      have hin : i + 1 = n := by omega
      rw [hin, Nat.mod_self] at h2
      exact h2 hj0
    have h4' : (i : ℝ) + 2 ≤ j + n := by exact_mod_cast (by omega : i + 2 ≤ j + n)
    apply cos_le_of_between (by linarith)
    · nlinarith
    · nlinarith

/-- A mirror and the two circles that it fixes. -/
theorem cos_one {n i j : ℕ} (hn : 3 ≤ n) (hi : i < n) (h : j = i ∨ j = (i + 1) % n) (t : ℝ) :
    cos ((((i : ℝ) + t) * 2 * (π / n) + π / n) - (((j : ℝ) + t) * 2 * (π / n))) = cos (π / n) := by
  have hn' : (3 : ℝ) ≤ n := by exact_mod_cast hn
  rcases h with rfl | rfl
  · congr 1; ring
  · rcases Nat.lt_or_ge (i + 1) n with h | h
    · rw [Nat.mod_eq_of_lt h, ← cos_neg]
      congr 1; push_cast; ring
    · have : i + 1 = n := by omega
      rw [this, Nat.mod_self]
      have hi' : (i : ℝ) = n - 1 := by rw [← this]; push_cast; ring
      have e : ((i : ℝ) + t) * 2 * (π / n) + π / n - (((0 : ℕ) : ℝ) + t) * 2 * (π / n) = 2 * π - π / n := by
        rw [hi']; push_cast; field_simp; ring
      rw [e, cos_two_pi_sub]

theorem seed0 {c0 : Circle} (hc : c0.Valid) {n : ℕ} (hn : 3 ≤ n) (shift : ℝ) :
    ApSeed n c0 (inner0 c0 n) (chain0 c0 n shift) (mirror0 c0 n shift) := by
  have hch := chain0_ok hc hn shift
  obtain ⟨hs0, hs1⟩ := sine_bounds hn
  have hch2 := cosine_bounds hn
  have hR : 0 < c0.radius := hc
  obtain ⟨x, hx⟩ : ∃ x, x = π / n := ⟨_, rfl⟩
  rw [← hx] at hs0 hs1 hch2
  have hcp : 0 < cos x := by linarith
  obtain ⟨C, hC⟩ : ∃ C, C = c0.radius / (1 + sin x) := ⟨_, rfl⟩
  obtain ⟨P, hP⟩ : ∃ P, P = c0.radius / cos x := ⟨_, rfl⟩
  have hC0 : 0 < C := by rw [hC]; positivity
  have hP0 : 0 < P := by rw [hP]; positivity
  have hCR : c0.radius = C * (1 + sin x) := by rw [hC]; field_simp
  have hPR : P * cos x = C * (1 + sin x) := by rw [← hCR, hP]; field_simp
  have hir : (inner0 c0 n).radius = C * (1 - sin x) := by
    unfold inner0; dsimp only; rw [← hx, ← hC, hCR]; ring
  have hic : (inner0 c0 n).center = c0.center := rfl
  have hcr : ∀ i, (chain0 c0 n shift i).radius = C * sin x := by
    intro i; unfold chain0; dsimp only; rw [← hx, ← hC]
  have hcc : ∀ i, (chain0 c0 n shift i).center = C • unit_vector_ (((i : ℝ) + shift) * 2 * x) + c0.center := by
    intro i; unfold chain0; dsimp only; rw [← hx, ← hC]
  have hmr : ∀ i, (mirror0 c0 n shift i).radius = P * sin x := by
    intro i; unfold mirror0; dsimp only; rw [← hx, ← hP]
  have hmc : ∀ i, (mirror0 c0 n shift i).center = P • unit_vector_ (((i : ℝ) + shift) * 2 * x + x) + c0.center := by
    intro i; unfold mirror0; dsimp only; rw [← hx, ← hP]
  have even := fun i j hi hj hij => cos_even (n := n) (i := i) (j := j) hn hi hj hij shift
  have odd := fun i j hi hj h1 h2 => cos_odd (n := n) (i := i) (j := j) hn hi hj h1 h2 shift
  have one := fun i j hi h => cos_one (n := n) (i := i) (j := j) hn hi h shift
  rw [← hx] at even odd one
  have c2 : cos (2 * x) = 1 - 2 * sin x ^ 2 := by rw [cos_two_mul]; linarith [sin_sq_add_cos_sq x]
  have c3 : cos (3 * x) = 4 * cos x ^ 3 - 3 * cos x := cos_three_mul x
  rw [c2] at even
  rw [c3] at odd
  have hsc : sin x ^ 2 + cos x ^ 2 = 1 := sin_sq_add_cos_sq x
  obtain ⟨s, hs⟩ : ∃ s, s = sin x := ⟨_, rfl⟩
  obtain ⟨c, hcc'⟩ : ∃ c, c = cos x := ⟨_, rfl⟩
  rw [← hs] at hs0 hs1 hCR hPR hir hcr hmr even hsc
  rw [← hcc'] at hch2 hcp hPR odd one hsc
  have hP2 : P ^ 2 * c ^ 2 = C ^ 2 * (1 + s) ^ 2 := by rw [← mul_pow, hPR, mul_pow]
  have hP3 : P ^ 2 * (1 - s) = C ^ 2 * (1 + s) := by
    have : (1 + s) * (P ^ 2 * (1 - s)) = (1 + s) * (C ^ 2 * (1 + s)) := by linear_combination hP2 - P ^ 2 * hsc
    exact mul_left_cancel₀ (by linarith) this
  have hP4 : P * (1 - s) = C * c := by
    have : (1 + s) * (P * (1 - s)) = (1 + s) * (C * c) := by linear_combination c * hPR - P * hsc
    exact mul_left_cancel₀ (by linarith) this
  have hCs : 0 < C * (1 - s) := mul_pos hC0 (by linarith)
  refine ⟨hR, hch.ipos, hch.pos, fun i => by rw [hmr]; positivity, ?_, ?_, ?_, ?_, ?_, ?_, ?_, ?_, ?_, ?_, ?_, ?_, ?_⟩
  · intro i j hi hj hij
    unfold lprod
    rw [hmr, hmr, hmc, hmc, sqDist_polar]
    have e : ((i : ℝ) + shift) * 2 * x + x - (((j : ℝ) + shift) * 2 * x + x) = ((i : ℝ) + shift) * 2 * x - ((j : ℝ) + shift) * 2 * x := by ring
    rw [e]
    have := mul_le_mul_of_nonneg_left (even i j hi hj hij) (sq_nonneg P)
    nlinarith
  · intro i j hi hj hij
    unfold lprod
    rw [hmr, hcr, hmc, hcc, sqDist_polar, one i j hi hij]
    linear_combination hP2 - P ^ 2 * hsc - 2 * C * hPR
  · intro i j hi hj h1 h2
    unfold lprod
    rw [hmr, hcr, hmc, hcc, sqDist_polar]
    have h3 := odd i j hi hj h1 h2
    obtain ⟨κ, hκ⟩ : ∃ κ, κ = cos (((i : ℝ) + shift) * 2 * x + x - ((j : ℝ) + shift) * 2 * x) := ⟨_, rfl⟩
    rw [← hκ] at h3 ⊢
    have e : P ^ 2 + C ^ 2 - 2 * P * C * κ - (P * s) ^ 2 - (C * s) ^ 2 = 2 * (P * C) * (c - κ) := by
      linear_combination hP2 - P ^ 2 * hsc - 2 * C * hPR
    rw [e]
    have h4 : s ^ 2 ≤ c - κ := by
      have : 4 * c ^ 3 - 3 * c = c - 4 * c * s ^ 2 := by linear_combination 4 * c * hsc
      nlinarith [sq_nonneg s]
    have := mul_le_mul_of_nonneg_left h4 (mul_pos hP0 hC0).le
    linarith
  · intro i hi
    unfold lprod
    rw [hmr, hir, hmc, hic, sqDist_polar_center]
    have e : P ^ 2 - (P * s) ^ 2 - (C * (1 - s)) ^ 2 = 4 * C ^ 2 * s := by linear_combination hP2 - P ^ 2 * hsc
    have e2 : P * s * (C * (1 - s)) = C ^ 2 * s * c := by linear_combination C * s * hP4
    rw [e, e2]
    have : c ≤ 1 := by nlinarith
    have := mul_le_mul_of_nonneg_left this (show 0 ≤ C ^ 2 * s by positivity)
    have : 0 ≤ C ^ 2 * s := by positivity
    linarith
  · intro i hi
    unfold lprod
    rw [hmr, hmc, sqDist_polar_center, hCR]
    linear_combination hP2 - P ^ 2 * hsc
  · intro i j hi hj hij
    unfold lprod
    rw [hcr, hcr, hcc, hcc, sqDist_polar]
    have := mul_le_mul_of_nonneg_left (even i j hi hj hij) (sq_nonneg C)
    nlinarith
  · intro i hi
    have := (dist_eq_iff (by have := hch.pos i; have := hch.pos ((i + 1) % n); linarith)).1 (hch.next i hi)
    unfold lprod
    rw [this]; ring
  · intro i hi
    have := (dist_eq_iff (by have := hch.pos i; have := hch.ipos; linarith)).1 (hch.touch i)
    unfold lprod
    rw [sqDist_comm, this]; ring
  · intro i
    unfold lprod
    rw [hcr, hcc, sqDist_polar_center, hCR]; ring
  · unfold lprod
    rw [hic, hir, hCR]
    unfold sqDist
    nlinarith [sq_nonneg (C * s)]
  · intro i
    rw [hcr, hCR]; linarith
  · rw [hir, hCR]
    have := mul_pos hC0 hs0
    linarith
  · intro i hi
    unfold lprod
    rw [hmr, hir, hmc, hic, sqDist_polar_center, hCR]
    have e : P ^ 2 - (P * s) ^ 2 - (C * (1 - s)) ^ 2 = 4 * C ^ 2 * s := by linear_combination hP2 - P ^ 2 * hsc
    have z : sqDist c0.center c0.center = 0 := by simp [sqDist]
    rw [e, z]
    apply le_of_eq
    linear_combination 16 * C ^ 3 * s ^ 2 * hP3
