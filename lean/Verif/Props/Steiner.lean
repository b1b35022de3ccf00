import Verif.Props.Inversion
import Verif.Lemmas.Ellipse

/-!
# C31, C32: Steiner chains
-/

open Spec Real Classical

/-! ### Lists -/

theorem mapM_ok {α β : Type} (f : α → Res β) (g : α → β) (l : List α) (h : ∀ a ∈ l, f a = .ok (g a)) :
    l.mapM f = .ok (l.map g) := by
  induction l with
  | nil => rfl
  | cons a l ih =>
    rw [List.mapM_cons, h a (by simp), Res.ok_bind, ih (fun b hb => h b (by simp [hb])), Res.ok_bind]
    rfl

/-! ### Tangent circles under an inversion of positive power whose pole is outside -/

/-- Images of two circles under an inversion; signed radii make this cover both kinds of tangency. -/
theorem inv_tangent {I C₁ C₂ : Pt} {r₁ r₂ k s₁ s₂ : ℝ} (h1 : s₁ * (sqDist C₁ I - r₁ ^ 2) = k)
    (h2 : s₂ * (sqDist C₂ I - r₂ ^ 2) = k) (h : sqDist C₁ C₂ = (r₁ + r₂) ^ 2) :
    sqDist (I + s₁ • (C₁ - I)) (I + s₂ • (C₂ - I)) = (s₁ * r₁ + s₂ * r₂) ^ 2 := by
  have e : sqDist (I + s₁ • (C₁ - I)) (I + s₂ • (C₂ - I)) = s₁ ^ 2 * sqDist C₁ I + s₂ ^ 2 * sqDist C₂ I -
      s₁ * s₂ * (sqDist C₁ I + sqDist C₂ I - sqDist C₁ C₂) := by
    simp only [sqDist, Pt.add_x, Pt.add_y, Pt.smul_x, Pt.smul_y, Pt.sub_x, Pt.sub_y]; ring
  rw [e, h]
  linear_combination (s₁ - s₂) * h1 + (s₂ - s₁) * h2

/-- A point whose distances to the foci `O`, `O₂` sum to `2a` is on the ellipse. -/
theorem onEllipse_foci {O O₂ P : Pt} {a b u v : ℝ} (hy : O₂.y = O.y) (ha : 0 < a) (hb : 0 < b)
    (hb2 : b ^ 2 = a ^ 2 - ((O₂.x - O.x) / 2) ^ 2) (hu : sqDist P O = u ^ 2) (hv : sqDist P O₂ = v ^ 2)
    (huv : u + v = 2 * a) : OnEllipse ((O + O₂) / (2 : ℝ)) a b 0 P := by
  obtain ⟨c, hc⟩ : ∃ c, c = (O₂.x - O.x) / 2 := ⟨_, rfl⟩
  rw [← hc] at hb2
  have hx : O₂.x = O.x + 2 * c := by rw [hc]; ring
  obtain ⟨X, hX⟩ : ∃ X, X = P.x - O.x - c := ⟨_, rfl⟩
  obtain ⟨Y, hY⟩ : ∃ Y, Y = P.y - O.y := ⟨_, rfl⟩
  have e1 : (X + c) ^ 2 + Y ^ 2 = u ^ 2 := by rw [← hu, hX, hY]; unfold sqDist; ring
  have e2 : (X - c) ^ 2 + Y ^ 2 = v ^ 2 := by rw [← hv, hX, hY]; unfold sqDist; rw [hx, hy]; ring
  obtain ⟨e, he⟩ : ∃ e, e = (u - v) / 2 := ⟨_, rfl⟩
  have hu' : u = a + e := by rw [he]; linarith
  have hv' : v = a - e := by rw [he]; linarith
  rw [hu'] at e1
  rw [hv'] at e2
  have e3 : c * X = a * e := by linarith
  have e4 : X ^ 2 + c ^ 2 + Y ^ 2 = a ^ 2 + e ^ 2 := by linarith
  have e5 : (X / a) ^ 2 + (Y / b) ^ 2 = 1 := by
    have : X ^ 2 * b ^ 2 + Y ^ 2 * a ^ 2 = a ^ 2 * b ^ 2 := by
      rw [hb2]
      linear_combination a ^ 2 * e4 - (c * X + a * e) * e3
    field_simp
    linear_combination this
  obtain ⟨t, h1, h2⟩ := exists_angle e5
  refine ⟨t, ?_⟩
  have k1 : a * cos t = X := by rw [← h1]; field_simp
  have k2 : b * sin t = Y := by rw [← h2]; field_simp
  unfold ellipsePoint
  ext
  · simp only [Pt.div_x, Pt.add_x, cos_zero, sin_zero]; rw [k1, hX, hx]; ring
  · simp only [Pt.div_y, Pt.add_y, cos_zero, sin_zero]; rw [k2, hY, hy]; ring

/-! ### The chain for `phi = 0` -/

/-- The circles of the chain for `phi = 0`. -/
noncomputable def chain0 (c0 : Circle) (n : ℕ) (shift : ℝ) (i : ℕ) : Circle :=
  ⟨(c0.radius / (1 + sin (π / n))) • unit_vector_ (((i : ℝ) + shift) * 2 * (π / n)) + c0.center,
    c0.radius / (1 + sin (π / n)) * sin (π / n)⟩

/-- The inner circle for `phi = 0`. -/
noncomputable def inner0 (c0 : Circle) (n : ℕ) : Circle :=
  ⟨c0.center, c0.radius - 2 * (c0.radius / (1 + sin (π / n)) * sin (π / n))⟩

theorem sine_bounds {n : ℕ} (hn : 3 ≤ n) : 0 < sin (π / n) ∧ sin (π / n) < 1 := by
  have hn' : (3 : ℝ) ≤ n := by exact_mod_cast hn
  have h1 : 0 < π / n := by positivity
  have h2 : π / n < π / 2 := by
    apply div_lt_div_of_pos_left pi_pos (by norm_num) (by linarith)
  refine ⟨sin_pos_of_pos_of_lt_pi h1 (by linarith [pi_pos]), ?_⟩
  rw [← sin_pi_div_two]
  exact sin_lt_sin_of_lt_of_le_pi_div_two (by linarith) le_rfl h2

/-- The defining properties of a Steiner chain inside the circle `(O, R)`. -/
structure Chain (O : Pt) (R : ℝ) (n : ℕ) (chain : ℕ → Circle) (inner : Circle) : Prop where
  pos : ∀ i, 0 < (chain i).radius
  ipos : 0 < inner.radius
  next : ∀ i < n, ExtTangent (chain i).center (chain i).radius (chain ((i + 1) % n)).center (chain ((i + 1) % n)).radius
  outer : ∀ i, IntTangent O R (chain i).center (chain i).radius
  touch : ∀ i, ExtTangent inner.center inner.radius (chain i).center (chain i).radius
  axis : inner.center.y = O.y
  foci : |inner.center.x - O.x| < R + inner.radius

theorem chain0_ok {c0 : Circle} (hc : c0.Valid) {n : ℕ} (hn : 3 ≤ n) (shift : ℝ) :
    Chain c0.center c0.radius n (chain0 c0 n shift) (inner0 c0 n) := by
  obtain ⟨hs0, hs1⟩ := sine_bounds hn
  have hR : 0 < c0.radius := hc
  obtain ⟨s, hs⟩ : ∃ s, s = sin (π / n) := ⟨_, rfl⟩
  obtain ⟨C, hC⟩ : ∃ C, C = c0.radius / (1 + sin (π / n)) := ⟨_, rfl⟩
  have hC0 : 0 < C := by rw [hC]; positivity
  have hCR : c0.radius = C * (1 + s) := by rw [hC, hs]; field_simp
  rw [← hs] at hs0 hs1
  have hcen : ∀ i, sqDist c0.center (chain0 c0 n shift i).center = C ^ 2 := by
    intro i
    unfold chain0 unit_vector_ sqDist
    rw [← hC]
    simp only [Pt.add_x, Pt.add_y, Pt.smul_x, Pt.smul_y]
    linear_combination C ^ 2 * sin_sq_add_cos_sq (((i : ℝ) + shift) * 2 * (π / n))
  have hir : (inner0 c0 n).radius = C * (1 - s) := by
    unfold inner0; dsimp only; rw [← hC, ← hs, hCR]; ring
  have hcr : ∀ i, (chain0 c0 n shift i).radius = C * s := by
    intro i; unfold chain0; dsimp only; rw [← hC, ← hs]
  refine ⟨?_, ?_, ?_, ?_, ?_, rfl, ?_⟩
  · intro i; rw [hcr]; positivity
  · rw [hir]; exact mul_pos hC0 (by linarith)
  · intro i hi
    have hmod : unit_vector_ ((((i + 1) % n : ℕ) + shift) * 2 * (π / n)) =
        unit_vector_ (((i : ℝ) + shift) * 2 * (π / n) + 2 * (π / n)) := by
      have hn0 : (n : ℝ) ≠ 0 := by have : (3 : ℝ) ≤ n := by exact_mod_cast hn
                                   linarith
      rcases Nat.lt_or_ge (i + 1) n with h | h
      · rw [Nat.mod_eq_of_lt h]; push_cast; congr 1; ring
      · have : i + 1 = n := by omega
        rw [this, Nat.mod_self]
        have hi' : (i : ℝ) = n - 1 := by rw [← this]; push_cast; ring
        have : ((i : ℝ) + shift) * 2 * (π / n) + 2 * (π / n) = (((0 : ℕ) : ℝ) + shift) * 2 * (π / n) + 2 * π := by
          rw [hi']; push_cast; field_simp; ring
        rw [this]; unfold unit_vector_; rw [cos_add_two_pi, sin_add_two_pi]
    unfold ExtTangent
    rw [dist_eq_iff (by rw [hcr, hcr]; positivity), hcr, hcr]
    unfold chain0
    rw [hmod]
    dsimp only
    rw [← hC]
    obtain ⟨β, hβ⟩ : ∃ β, β = ((i : ℝ) + shift) * 2 * (π / n) := ⟨_, rfl⟩
    rw [← hβ]
    have hcos : cos (2 * (π / n)) = 1 - 2 * s ^ 2 := by rw [cos_two_mul, hs]; linarith [sin_sq_add_cos_sq (π / n)]
    have e : cos β * cos (β + 2 * (π / n)) + sin β * sin (β + 2 * (π / n)) = 1 - 2 * s ^ 2 := by
      rw [← hcos, ← cos_sub, ← cos_neg]; congr 1; ring
    unfold unit_vector_ sqDist
    simp only [Pt.add_x, Pt.add_y, Pt.smul_x, Pt.smul_y]
    linear_combination C ^ 2 * sin_sq_add_cos_sq β + C ^ 2 * sin_sq_add_cos_sq (β + 2 * (π / n)) - 2 * C ^ 2 * e
  · intro i
    unfold IntTangent
    rw [dist_eq_iff (by rw [hcr, hCR]; ring_nf; positivity), hcen, hcr, hCR]; ring
  · intro i
    unfold ExtTangent
    rw [dist_eq_iff (by rw [hcr, hir]; ring_nf; positivity), hcr, hir]
    have := hcen i
    unfold inner0; rw [this]; ring
  · rw [hir, hCR]
    have : (inner0 c0 n).center.x - c0.center.x = 0 := by unfold inner0; simp
    rw [this, abs_zero]
    have := mul_pos hC0 (show 0 < 1 - s by linarith)
    positivity

/-! ### Inversion of a chain -/

/-- The image of a circle, for a pole outside of it and a positive power. -/
noncomputable def img (I : Pt) (k : ℝ) (c : Circle) : Circle :=
  ⟨I + (k / (sqDist c.center I - c.radius ^ 2)) • (c.center - I), k / (sqDist c.center I - c.radius ^ 2) * c.radius⟩

theorem invert_circle_img {I : Pt} {k : ℝ} {c : Circle} (hk : 0 < k) (hc : 0 < c.radius)
    (h : sepsilon_ < sqDist c.center I - c.radius ^ 2) :
    (⟨I, k⟩ : Inversion).invert_circle c = .ok (.circle (img I k c)) := by
  have hD : 0 < sqDist c.center I - c.radius ^ 2 := lt_trans sepsilon_pos h
  have e : (c.center.x - I.x) ^ 2 + (c.center.y - I.y) ^ 2 - c.radius * c.radius = sqDist c.center I - c.radius ^ 2 := by
    unfold sqDist; ring
  unfold Inversion.invert_circle
  dsimp only
  rw [e, if_pos (by rw [abs_of_pos hD]; exact h), abs_of_pos (div_pos hk hD), mkCircle_pos (by positivity)]
  rfl

/-- Distance from the pole to a point at distance `m` of the center. -/
theorem far_from_pole {O I C : Pt} {d m : ℝ} (hd : 0 ≤ d) (hm : 0 ≤ m) (hI : sqDist I O = d ^ 2) (hC : sqDist O C = m ^ 2) :
    (d - m) ^ 2 ≤ sqDist C I := by
  have cs : (C.x - O.x) * (I.x - O.x) + (C.y - O.y) * (I.y - O.y) ≤ m * d := by
    refine le_of_sq_le_sq ?_ (by positivity)
    rw [mul_pow, ← hI, ← hC]
    unfold sqDist
    nlinarith [sq_nonneg ((C.x - O.x) * (I.y - O.y) - (C.y - O.y) * (I.x - O.x))]
  have : sqDist C I = sqDist O C + sqDist I O - 2 * ((C.x - O.x) * (I.x - O.x) + (C.y - O.y) * (I.y - O.y)) := by
    unfold sqDist; ring
  rw [this, hI, hC]; nlinarith

/-- A chain around a concentric inner circle is mapped to a chain by an inversion fixing the outer circle. -/
theorem chain_img {O I : Pt} {R d : ℝ} {n : ℕ} {chain : ℕ → Circle} {inner : Circle} (h : Chain O R n chain inner)
    (hR : 0 < R) (hd : R < d) (hI : sqDist I O = d ^ 2) (hIy : I.y = O.y) (hin : inner.center = O) (hq : inner.radius < R) :
    Chain O R n (fun i => img I (d ^ 2 - R ^ 2) (chain i)) (img I (d ^ 2 - R ^ 2) inner) ∧
    (∀ i, (d - R) ^ 2 ≤ sqDist (chain i).center I - (chain i).radius ^ 2) ∧
    (d - R) ^ 2 ≤ sqDist inner.center I - inner.radius ^ 2 := by
  have hk : 0 < d ^ 2 - R ^ 2 := by nlinarith
  have hdR : 0 < (d - R) ^ 2 := by have : 0 < d - R := by linarith
                                   positivity
  have hle : ∀ i, (chain i).radius ≤ R := by
    intro i
    have := h.outer i
    unfold IntTangent at this
    have h0 := dist_nonneg O (chain i).center
    linarith
  have hm : ∀ i, sqDist O (chain i).center = (R - (chain i).radius) ^ 2 := by
    intro i
    exact (dist_eq_iff (by linarith [hle i])).1 (h.outer i)
  have hD : ∀ i, (d - R) * (d - R + 2 * (chain i).radius) ≤ sqDist (chain i).center I - (chain i).radius ^ 2 := by
    intro i
    have := far_from_pole (by linarith) (by linarith [hle i]) hI (hm i)
    nlinarith
  have hD1 : ∀ i, (d - R) ^ 2 ≤ sqDist (chain i).center I - (chain i).radius ^ 2 := by
    intro i
    have := hD i
    have := mul_pos (show 0 < d - R by linarith) (h.pos i)
    nlinarith
  have hDi : sqDist inner.center I - inner.radius ^ 2 = d ^ 2 - inner.radius ^ 2 := by
    rw [hin, sqDist_comm, hI]
  have hDi' : (d - R) ^ 2 ≤ sqDist inner.center I - inner.radius ^ 2 := by
    rw [hDi]; nlinarith [h.ipos]
  have hDi0 : 0 < d ^ 2 - inner.radius ^ 2 := by nlinarith [h.ipos]
  refine ⟨⟨?_, ?_, ?_, ?_, ?_, ?_, ?_⟩, hD1, hDi'⟩
  · intro i
    exact mul_pos (div_pos hk (lt_of_lt_of_le hdR (hD1 i))) (h.pos i)
  · exact mul_pos (div_pos hk (lt_of_lt_of_le hdR hDi')) h.ipos
  · intro i hi
    have p1 := lt_of_lt_of_le hdR (hD1 i)
    have p2 := lt_of_lt_of_le hdR (hD1 ((i + 1) % n))
    have r1 := h.pos i
    have r2 := h.pos ((i + 1) % n)
    have := h.next i hi
    unfold ExtTangent img at *
    dsimp only
    rw [dist_eq_iff (by positivity)] at *
    exact inv_tangent (k := d ^ 2 - R ^ 2) (div_mul_cancel₀ _ p1.ne') (div_mul_cancel₀ _ p2.ne') this
  · intro i
    have p1 := lt_of_lt_of_le hdR (hD1 i)
    have r1 := h.pos i
    have hO : I + (1 : ℝ) • (O - I) = O := by ext <;> simp
    have e := inv_tangent (I := I) (C₁ := O) (C₂ := (chain i).center) (r₁ := R) (r₂ := -(chain i).radius)
      (k := d ^ 2 - R ^ 2) (s₁ := 1) (s₂ := (d ^ 2 - R ^ 2) / (sqDist (chain i).center I - (chain i).radius ^ 2))
      (by rw [sqDist_comm, hI]; ring) (by rw [neg_sq]; field_simp) (by rw [hm i]; ring)
    rw [hO] at e
    have hle2 : (d ^ 2 - R ^ 2) / (sqDist (chain i).center I - (chain i).radius ^ 2) * (chain i).radius ≤ R := by
      rw [div_mul_eq_mul_div, div_le_iff₀ p1]
      have h3 := mul_le_mul_of_nonneg_left (hD i) hR.le
      have h4 : 0 ≤ (d - R) * ((R - (chain i).radius) * (d - R)) :=
        mul_nonneg (by linarith) (mul_nonneg (by linarith [hle i]) (by linarith))
      nlinarith
    unfold IntTangent img
    dsimp only
    rw [dist_eq_iff (by linarith), e]; ring
  · intro i
    have p1 := lt_of_lt_of_le hdR (hD1 i)
    have p2 := lt_of_lt_of_le hdR hDi'
    have r1 := h.pos i
    have r2 := h.ipos
    have := h.touch i
    unfold ExtTangent img at *
    dsimp only
    rw [dist_eq_iff (by positivity)] at *
    exact inv_tangent (k := d ^ 2 - R ^ 2) (div_mul_cancel₀ _ p2.ne') (div_mul_cancel₀ _ p1.ne') this
  · unfold img
    dsimp only
    rw [hin]
    simp [hIy]
  · unfold img
    dsimp only
    rw [hDi, hin]
    obtain ⟨q, hq'⟩ : ∃ q, q = inner.radius := ⟨_, rfl⟩
    have hq0 : 0 < q := by rw [hq']; exact h.ipos
    rw [← hq'] at hDi0 hq ⊢
    have hx : (I + ((d ^ 2 - R ^ 2) / (d ^ 2 - q ^ 2)) • (O - I)).x - O.x = (R ^ 2 - q ^ 2) / (d ^ 2 - q ^ 2) * (I.x - O.x) := by
      simp only [Pt.add_x, Pt.smul_x, Pt.sub_x]; field_simp; ring
    have hIx : |I.x - O.x| = d := by
      have : (I.x - O.x) ^ 2 = d ^ 2 := by rw [← hI]; unfold sqDist; rw [hIy]; ring
      rw [← Real.sqrt_sq_eq_abs, this, Real.sqrt_sq (by linarith)]
    have hRq : 0 < R ^ 2 - q ^ 2 := by nlinarith
    rw [hx, abs_mul, abs_of_pos (div_pos hRq hDi0), hIx, div_mul_eq_mul_div, div_mul_eq_mul_div, ← sub_pos]
    have : R + (d ^ 2 - R ^ 2) * q / (d ^ 2 - q ^ 2) - (R ^ 2 - q ^ 2) * d / (d ^ 2 - q ^ 2) =
        (R + q) * (d - R) * (d + q) / (d ^ 2 - q ^ 2) := by field_simp; ring
    rw [this]
    have h1 : 0 < d - R := by linarith
    have h2 : 0 < d := by linarith
    exact div_pos (by positivity) hDi0

/-! ### The results -/

/-- The pole of the inversion used by `SteinerChain`. -/
noncomputable def pole0 (c0 : Circle) (phi : ℝ) : Pt := (⟨c0.radius * (1 / phi), 0⟩ : Pt) + c0.center

/-- The powers of the pole with respect to the circles of the chain for `phi = 0`. -/
theorem pole0_power {c0 : Circle} (hc : c0.Valid) {n : ℕ} (hn : 3 ≤ n) {phi : ℝ} (shift : ℝ) (hphi : |phi| < 1) (hp : phi ≠ 0) :
    (∀ i, (c0.radius / |phi| - c0.radius) ^ 2 ≤
      sqDist (chain0 c0 n shift i).center (pole0 c0 phi) - (chain0 c0 n shift i).radius ^ 2) ∧
    (c0.radius / |phi| - c0.radius) ^ 2 ≤ sqDist (inner0 c0 n).center (pole0 c0 phi) - (inner0 c0 n).radius ^ 2 := by
  have hR : 0 < c0.radius := hc
  obtain ⟨hs0, hs1⟩ := sine_bounds hn
  have habs : 0 < |phi| := abs_pos.2 hp
  have hd : c0.radius < c0.radius / |phi| := by rw [lt_div_iff₀ habs]; nlinarith
  obtain ⟨-, hD, hDi⟩ := chain_img (I := pole0 c0 phi) (d := c0.radius / |phi|)
    (chain0_ok hc hn shift) hR hd (by rw [div_pow, sq_abs]; simp [sqDist, pole0]; field_simp) (by simp [pole0]) rfl (by
      unfold inner0; dsimp only
      have : 0 < c0.radius / (1 + sin (π / n)) * sin (π / n) := by positivity
      linarith)
  exact ⟨hD, hDi⟩

/-- The list of circles returned by `SteinerChain` and the ellipse of centers. -/
theorem steiner_main' {c0 : Circle} (hc : c0.Valid) {n : ℕ} (hn : 3 ≤ n) {phi : ℝ} (shift : ℝ) (hphi : |phi| < 1)
    (htol : phi ≠ 0 → (∀ i < n, sepsilon_ <
        sqDist (chain0 c0 n shift i).center (pole0 c0 phi) - (chain0 c0 n shift i).radius ^ 2) ∧
      sepsilon_ < sqDist (inner0 c0 n).center (pole0 c0 phi) - (inner0 c0 n).radius ^ 2) :
    ∃ (chain : ℕ → Circle) (inner : Circle) (b : ℝ),
      SteinerChain c0 n phi shift = .ok ⟨(List.range n).map (fun i => .circle (chain i)) ++ [.circle inner],
        ⟨(c0.center + inner.center) / (2 : ℝ), (inner.radius + c0.radius) / 2, b, 0, true⟩⟩ ∧
      Chain c0.center c0.radius n chain inner ∧ 0 < b ∧
      b ^ 2 = ((inner.radius + c0.radius) / 2) ^ 2 - ((inner.center.x - c0.center.x) / 2) ^ 2 := by
  have hR : 0 < c0.radius := hc
  have h0 := chain0_ok hc hn shift
  obtain ⟨hs0, hs1⟩ := sine_bounds hn
  have hphi0 : SteinerChain_phi0_ c0 n shift = .ok ((List.range n).map (chain0 c0 n shift) ++ [inner0 c0 n]) := by
    unfold SteinerChain_phi0_
    dsimp only
    rw [mapM_ok _ (chain0 c0 n shift), Res.ok_bind, mkCircle_pos (show 0 < c0.radius - 2 * (c0.radius / (1 + sin (π / n)) * sin (π / n)) from h0.ipos)]
    · rfl
    · intro i _
      exact mkCircle_pos (h0.pos i)
  -- the circles after the optional inversion
  have hstep : ∃ (chain : ℕ → Circle) (inner : Circle),
      (if phi ≠ 0 then
        ((List.range n).map (chain0 c0 n shift) ++ [inner0 c0 n]).mapM
          (⟨(⟨c0.radius * (1 / phi), 0⟩ : Pt) + c0.center, c0.radius * c0.radius * (1 / phi * (1 / phi) - 1)⟩ : Inversion).invert_circle
        else .ok (((List.range n).map (chain0 c0 n shift) ++ [inner0 c0 n]).map GCircle.circle)) =
        (.ok ((List.range n).map (fun i => GCircle.circle (chain i)) ++ [.circle inner]) : Res (List GCircle)) ∧
      Chain c0.center c0.radius n chain inner := by
    by_cases hp : phi = 0
    · refine ⟨_, _, ?_, h0⟩
      rw [if_neg (by simpa using hp), List.map_append, List.map_map]
      rfl
    · have habs : 0 < |phi| := abs_pos.2 hp
      have hd : c0.radius < c0.radius / |phi| := by rw [lt_div_iff₀ habs]; nlinarith
      have hk : c0.radius * c0.radius * (1 / phi * (1 / phi) - 1) = (c0.radius / |phi|) ^ 2 - c0.radius ^ 2 := by
        rw [div_pow, sq_abs]; field_simp
      obtain ⟨hch, hD, hDi⟩ := chain_img (I := (⟨c0.radius * (1 / phi), 0⟩ : Pt) + c0.center) (d := c0.radius / |phi|)
        h0 hR hd (by rw [div_pow, sq_abs]; simp [sqDist]; field_simp) (by simp) rfl (by
          unfold inner0; dsimp only
          have : 0 < c0.radius / (1 + sin (π / n)) * sin (π / n) := by positivity
          linarith)
      refine ⟨_, _, ?_, hch⟩
      rw [if_pos hp, hk, mapM_ok _ (fun c => .circle (img ((⟨c0.radius * (1 / phi), 0⟩ : Pt) + c0.center)
        ((c0.radius / |phi|) ^ 2 - c0.radius ^ 2) c)), List.map_append, List.map_map]
      · rfl
      · have hkpos : 0 < (c0.radius / |phi|) ^ 2 - c0.radius ^ 2 := by nlinarith
        intro c hmem
        rw [List.mem_append, List.mem_map] at hmem
        rcases hmem with ⟨i, hi, rfl⟩ | hmem
        · exact invert_circle_img hkpos (h0.pos i) ((htol hp).1 i (List.mem_range.1 hi))
        · rw [List.mem_singleton] at hmem
          rw [hmem]
          exact invert_circle_img hkpos h0.ipos (htol hp).2
  obtain ⟨chain, inner, hlist, hch⟩ := hstep
  have hfoc := hch.foci
  have hip := hch.ipos
  have hbpos : 0 < ((inner.radius + c0.radius) / 2) ^ 2 - ((inner.center.x - c0.center.x) / 2) ^ 2 := by
    rw [abs_lt] at hfoc
    nlinarith [hfoc.1, hfoc.2]
  refine ⟨chain, inner, Real.sqrt (((inner.radius + c0.radius) / 2) ^ 2 - ((inner.center.x - c0.center.x) / 2) ^ 2), ?_, hch,
    Real.sqrt_pos.2 hbpos, Real.sq_sqrt hbpos.le⟩
  have e : (inner.radius + c0.radius) / 2 * ((inner.radius + c0.radius) / 2) -
    (inner.center.x - c0.center.x) / 2 * ((inner.center.x - c0.center.x) / 2) =
    ((inner.radius + c0.radius) / 2) ^ 2 - ((inner.center.x - c0.center.x) / 2) ^ 2 := by ring
  have ha : 0 < (inner.radius + c0.radius) / 2 := by positivity
  unfold SteinerChain
  rw [if_neg (by omega), hphi0, Res.ok_bind]
  dsimp only
  by_cases hp : phi ≠ 0
  · rw [if_pos hp] at hlist ⊢
    rw [hlist, Res.ok_bind, List.getLast?_append, List.getLast?_singleton]
    dsimp only [Option.some_or]
    unfold pySqrt mkEllipse
    rw [e, if_neg (by linarith), Res.ok_bind, if_neg (not_le.2 ha), if_neg (not_le.2 (Real.sqrt_pos.2 hbpos)), Res.ok_bind]
    rfl
  · rw [if_neg hp] at hlist ⊢
    rw [hlist, Res.ok_bind, List.getLast?_append, List.getLast?_singleton]
    dsimp only [Option.some_or]
    unfold pySqrt mkEllipse
    rw [e, if_neg (by linarith), Res.ok_bind, if_neg (not_le.2 ha), if_neg (not_le.2 (Real.sqrt_pos.2 hbpos)), Res.ok_bind]
    rfl

theorem steiner_main {c0 : Circle} (hc : c0.Valid) {n : ℕ} (hn : 3 ≤ n) {phi : ℝ} (shift : ℝ) (hphi : |phi| < 1)
    (htol : phi ≠ 0 → sepsilon_ < (c0.radius / |phi| - c0.radius) ^ 2) :
    ∃ (chain : ℕ → Circle) (inner : Circle) (b : ℝ),
      SteinerChain c0 n phi shift = .ok ⟨(List.range n).map (fun i => .circle (chain i)) ++ [.circle inner],
        ⟨(c0.center + inner.center) / (2 : ℝ), (inner.radius + c0.radius) / 2, b, 0, true⟩⟩ ∧
      Chain c0.center c0.radius n chain inner ∧ 0 < b ∧
      b ^ 2 = ((inner.radius + c0.radius) / 2) ^ 2 - ((inner.center.x - c0.center.x) / 2) ^ 2 :=
  steiner_main' hc hn shift hphi fun hp =>
    ⟨fun i _ => lt_of_lt_of_le (htol hp) ((pole0_power hc hn shift hphi hp).1 i),
      lt_of_lt_of_le (htol hp) (pole0_power hc hn shift hphi hp).2⟩

/-- C31, partial: for `n ≥ 3`, `|phi| < 1` and every shift, when the pole of the inversion is farther than the
tolerance from the outer circle, `SteinerChain` returns `n + 1` circles forming a closed chain of tangent circles.
Missing from the full claim: tiny circles or `phi` near `±1`, for which the claim is false
(`C31_small_circle_counterexample`). -/
theorem C31_steiner_chain_partial (c0 : Circle) (hc : c0.Valid) (n : ℕ) (hn : 3 ≤ n) (phi shift : ℝ) (hphi : |phi| < 1)
    (htol : phi ≠ 0 → sepsilon_ < (c0.radius / |phi| - c0.radius) ^ 2) :
    ∃ (chain : ℕ → Circle) (inner : Circle) (ell : Ellipse),
      SteinerChain c0 n phi shift = .ok ⟨(List.range n).map (fun i => .circle (chain i)) ++ [.circle inner], ell⟩ ∧
      (∀ i < n, 0 < (chain i).radius ∧
        ExtTangent (chain i).center (chain i).radius (chain ((i + 1) % n)).center (chain ((i + 1) % n)).radius ∧
        IntTangent c0.center c0.radius (chain i).center (chain i).radius ∧
        ExtTangent inner.center inner.radius (chain i).center (chain i).radius) ∧ 0 < inner.radius := by
  obtain ⟨chain, inner, b, h1, h2, -, -⟩ := steiner_main hc hn shift hphi htol
  exact ⟨chain, inner, _, h1, fun i hi => ⟨h2.pos i, h2.next i hi, h2.outer i, h2.touch i⟩, h2.ipos⟩

/-- The ellipse with foci the centers of the outer and inner circles passes through the centers of the chain. -/
theorem chain_ellipse {c0 : Circle} (hc : c0.Valid) {n : ℕ} {chain : ℕ → Circle} {inner : Circle} {b : ℝ}
    (h2 : Chain c0.center c0.radius n chain inner) (hb : 0 < b)
    (hb2 : b ^ 2 = ((inner.radius + c0.radius) / 2) ^ 2 - ((inner.center.x - c0.center.x) / 2) ^ 2) :
    let ell : Ellipse := ⟨(c0.center + inner.center) / (2 : ℝ), (inner.radius + c0.radius) / 2, b, 0, true⟩
    ell.Valid ∧ ell.rminor ≤ ell.rmajor ∧ ∀ i, OnEllipse ell.center ell.rmajor ell.rminor ell.rad (chain i).center := by
  have hR : 0 < c0.radius := hc
  have hip := h2.ipos
  have ha : 0 < (inner.radius + c0.radius) / 2 := by positivity
  intro ell
  refine ⟨⟨ha, hb⟩, ?_, ?_⟩
  · change b ≤ (inner.radius + c0.radius) / 2
    apply le_of_sq_le_sq _ ha.le
    rw [hb2]; nlinarith [sq_nonneg ((inner.center.x - c0.center.x) / 2)]
  · intro i
    have e : (⟨(c0.center + inner.center) / (2 : ℝ), (inner.radius + c0.radius) / 2, b, 0, true⟩ : Ellipse).rad = 0 := by
      unfold Ellipse.rad; simp
    change OnEllipse _ _ _ (Ellipse.rad ⟨_, _, _, _, _⟩) _
    rw [e]
    have t1 := h2.outer i
    have t2 := h2.touch i
    unfold IntTangent at t1
    unfold ExtTangent at t2
    have n1 := dist_nonneg c0.center (chain i).center
    have p := h2.pos i
    rw [t1] at n1
    refine onEllipse_foci (u := c0.radius - (chain i).radius) (v := inner.radius + (chain i).radius) h2.axis ha hb hb2 ?_ ?_ ?_
    · rw [sqDist_comm]; exact (dist_eq_iff n1).1 t1
    · rw [sqDist_comm]; exact (dist_eq_iff (by positivity)).1 t2
    · ring

/-- C32, partial (same restriction as `C31_steiner_chain_partial`): the returned ellipse passes through the centers of
the chain circles. -/
theorem C32_ellipse_of_centers_partial (c0 : Circle) (hc : c0.Valid) (n : ℕ) (hn : 3 ≤ n) (phi shift : ℝ) (hphi : |phi| < 1)
    (htol : phi ≠ 0 → sepsilon_ < (c0.radius / |phi| - c0.radius) ^ 2) :
    ∃ (chain : ℕ → Circle) (inner : Circle) (ell : Ellipse),
      SteinerChain c0 n phi shift = .ok ⟨(List.range n).map (fun i => .circle (chain i)) ++ [.circle inner], ell⟩ ∧
      ell.Valid ∧ ell.rminor ≤ ell.rmajor ∧
      ∀ i < n, OnEllipse ell.center ell.rmajor ell.rminor ell.rad (chain i).center := by
  obtain ⟨chain, inner, b, h1, h2, hb, hb2⟩ := steiner_main hc hn shift hphi htol
  obtain ⟨h3, h4, h5⟩ := chain_ellipse hc h2 hb hb2
  exact ⟨chain, inner, _, h1, h3, h4, fun i _ => h5 i⟩

/-! ### Instances and counterexamples -/

/-- The hypotheses are satisfied by the unit circle, five circles and `phi = 1/2`. -/
example : ∃ (chain : ℕ → Circle) (inner : Circle) (ell : Ellipse),
    SteinerChain ⟨⟨0, 0⟩, 1⟩ 5 (1 / 2) 0 = .ok ⟨(List.range 5).map (fun i => .circle (chain i)) ++ [.circle inner], ell⟩ ∧
    ell.Valid ∧ ell.rminor ≤ ell.rmajor ∧
    ∀ i < 5, OnEllipse ell.center ell.rmajor ell.rminor ell.rad (chain i).center :=
  C32_ellipse_of_centers_partial ⟨⟨0, 0⟩, 1⟩ (by unfold Circle.Valid; norm_num) 5 (by norm_num) (1 / 2) 0
    (by rw [abs_of_pos] <;> norm_num) (by intro; rw [abs_of_pos (by norm_num)]; unfold sepsilon_; norm_num)

/-- The last element of a mapped list is the image of the last element. -/
theorem mapM_getLast {α β : Type} (f : α → Res β) (l : List α) (a : α) {r : List β} (h : (l ++ [a]).mapM f = .ok r) :
    ∃ b, f a = .ok b ∧ r.getLast? = some b := by
  rw [List.mapM_append] at h
  simp only [Res.bind_ok, Res.pure_ok, List.mapM_cons, List.mapM_nil] at h
  obtain ⟨l1, -, l2, ⟨b, hb, l3, rfl, rfl⟩, rfl⟩ := h
  exact ⟨b, hb, by simp⟩

theorem phi0_last {c0 : Circle} {n : ℕ} {shift : ℝ} {l : List Circle} (h : SteinerChain_phi0_ c0 n shift = .ok l) :
    ∃ l', l = l' ++ [inner0 c0 n] := by
  unfold SteinerChain_phi0_ at h
  simp only [Res.bind_ok, Res.pure_ok] at h
  obtain ⟨l', -, c, hc, rfl⟩ := h
  obtain ⟨-, rfl⟩ := mkCircle_ok.1 hc
  exact ⟨l', rfl⟩

/-- C31: the full claim is false.  For a circle of radius `10⁻⁵` and `phi = 1/2` the inner circle is taken by
`Inversion.invert_circle` for a circle through the pole, a `Line` comes back (or the construction of a line fails) and
`SteinerChain` raises, whatever `n ≥ 3` and the shift are. -/
theorem C31_small_circle_counterexample (n : ℕ) (hn : 3 ≤ n) (shift : ℝ) :
    (⟨⟨0, 0⟩, 1 / 100000⟩ : Circle).Valid ∧
    ∀ res, SteinerChain ⟨⟨0, 0⟩, 1 / 100000⟩ n (1 / 2) shift ≠ .ok res := by
  refine ⟨by unfold Circle.Valid; norm_num, ?_⟩
  intro res h
  unfold SteinerChain at h
  rw [if_neg (by omega)] at h
  obtain ⟨l, hl, h2⟩ := Res.bind_ok.1 h
  clear h
  obtain ⟨l', rfl⟩ := phi0_last hl
  dsimp only at h2
  rw [if_pos (by norm_num)] at h2
  obtain ⟨r, hr, h⟩ := Res.bind_ok.1 h2
  clear h2
  obtain ⟨g, hg, hlast⟩ := mapM_getLast _ _ _ hr
  rw [hlast] at h
  have hbd := sine_bounds hn
  have h0 := (chain0_ok (c0 := ⟨⟨0, 0⟩, 1 / 100000⟩) (by unfold Circle.Valid; norm_num) hn 0)
  have hq0 := h0.ipos
  have hq1 : (inner0 ⟨⟨0, 0⟩, 1 / 100000⟩ n).radius ≤ 1 / 100000 := by
    unfold inner0
    dsimp only
    have := hbd.1
    have : 0 < 1 / 100000 / (1 + sin (π / n)) * sin (π / n) := by positivity
    linarith
  cases g with
  | line l => exact absurd h (by simp)
  | circle c =>
    unfold Inversion.invert_circle at hg
    dsimp only at hg
    rw [if_neg] at hg
    · simp only [Res.bind_ok, Res.pure_ok] at hg
      obtain ⟨a, -, h⟩ := hg
      exact absurd h (by simp)
    · obtain ⟨q, hq⟩ : ∃ q, q = (inner0 ⟨⟨0, 0⟩, 1 / 100000⟩ n).radius := ⟨_, rfl⟩
      rw [← hq] at hq0 hq1 ⊢
      have e : (inner0 ⟨⟨0, 0⟩, 1 / 100000⟩ n).center = ⟨0, 0⟩ := rfl
      rw [e, not_lt, abs_le]
      unfold sepsilon_
      simp only [Pt.add_x, Pt.add_y]
      constructor <;> norm_num <;> nlinarith

/-- For one or two circles there is no Steiner chain: `ValueError`. -/
theorem C31_too_few (c0 : Circle) (n : ℕ) (hn : n ≤ 2) (phi shift : ℝ) : ∃ m, SteinerChain c0 n phi shift = .error (.valueError m) := by
  unfold SteinerChain SteinerChain_phi0_
  have hn' : n = 0 ∨ n = 1 ∨ n = 2 := by omega
  rcases hn' with rfl | rfl | rfl
  · exact ⟨_, if_pos rfl⟩
  · simp [mkCircle, Res.error_bind]
  · by_cases hR : c0.radius ≤ 0
    · have : c0.radius / (1 + 1) ≤ 0 := by linarith
      simp [mkCircle, List.range_succ, this]
      exact ⟨_, rfl⟩
    · have h1 : ¬ c0.radius / (1 + 1) ≤ 0 := by linarith
      have h2 : c0.radius - 2 * (c0.radius / (1 + 1)) ≤ 0 := by linarith
      simp [mkCircle, List.range_succ, h1, h2]
      exact ⟨_, rfl⟩

/-- The chain of the script `SteinerChainWithEllipse.py`: the circle of center `(3, 0)` and radius 3, three circles,
`phi = 0.6` and `shift = 0.85`.  Two circles do not make a chain. -/
example : (∃ (chain : ℕ → Circle) (inner : Circle) (ell : Ellipse),
      SteinerChain ⟨⟨3, 0⟩, 3⟩ 3 0.6 0.85 = .ok ⟨(List.range 3).map (fun i => .circle (chain i)) ++ [.circle inner], ell⟩ ∧
      ExtTangent (chain 0).center (chain 0).radius (chain 1).center (chain 1).radius ∧
      ExtTangent (chain 2).center (chain 2).radius (chain 0).center (chain 0).radius ∧
      IntTangent ⟨3, 0⟩ 3 (chain 1).center (chain 1).radius ∧
      ExtTangent inner.center inner.radius (chain 1).center (chain 1).radius) ∧
    ∃ m, SteinerChain ⟨⟨3, 0⟩, 3⟩ 2 0.6 0.85 = .error (.valueError m) := by
  constructor
  · obtain ⟨chain, inner, ell, h, hc, -⟩ := C31_steiner_chain_partial ⟨⟨3, 0⟩, 3⟩ (by unfold Circle.Valid; norm_num) 3 le_rfl
      0.6 0.85 (by rw [abs_of_pos] <;> norm_num) (by intro; rw [abs_of_pos (by norm_num)]; unfold sepsilon_; norm_num)
    exact ⟨chain, inner, ell, h, (hc 0 (by norm_num)).2.1, (hc 2 (by norm_num)).2.1, (hc 1 (by norm_num)).2.2⟩
  · exact C31_too_few _ 2 le_rfl _ _
