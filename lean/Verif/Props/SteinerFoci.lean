import Verif.Props.EllipticalChains
import Verif.Props.Drawing

/-!
# The ellipse of the centers of a Steiner chain

`SteinerChain` returns, with the circles, "the ellipse of the centers".  It is the set of the centers of all the circles tangent to
the outer and to the inner circle; it depends neither on the number of the circle nor on the shift.
-/

open Spec Real Classical

namespace SFoci

/-- The sum of the distances to the foci, for a point of the ellipse. -/
theorem on_foci {O O₂ P : Pt} {a b : ℝ} (hy : O₂.y = O.y) (ha : 0 < a) (hb : 0 < b)
    (hb2 : b ^ 2 = a ^ 2 - ((O₂.x - O.x) / 2) ^ 2) :
    OnEllipse ((O + O₂) / (2 : ℝ)) a b 0 P ↔ Spec.dist P O + Spec.dist P O₂ = 2 * a := by
  constructor
  · rintro ⟨t, rfl⟩
    obtain ⟨c, hc⟩ : ∃ c, c = (O₂.x - O.x) / 2 := ⟨_, rfl⟩
    rw [← hc] at hb2
    have hx : O₂.x = O.x + 2 * c := by rw [hc]; ring
    have hca : |c| < a := by
      apply abs_lt_of_sq_lt_sq _ ha.le
      nlinarith [pow_pos hb 2]
    have hcos : |c * cos t| ≤ |c| := by
      rw [abs_mul]
      exact mul_le_of_le_one_right (abs_nonneg c) (abs_cos_le_one t)
    have hcs := sin_sq_add_cos_sq t
    obtain ⟨h1, h2⟩ := abs_le.1 hcos
    have e1 : Spec.dist (ellipsePoint ((O + O₂) / (2 : ℝ)) a b 0 t) O = a + c * cos t := by
      rw [dist_eq_iff (by linarith)]
      unfold sqDist ellipsePoint
      simp only [Pt.div_x, Pt.add_x, Pt.div_y, Pt.add_y, cos_zero, sin_zero, hx, hy]
      linear_combination (sin t) ^ 2 * hb2 + (a ^ 2 - c ^ 2) * hcs
    have e2 : Spec.dist (ellipsePoint ((O + O₂) / (2 : ℝ)) a b 0 t) O₂ = a - c * cos t := by
      rw [dist_eq_iff (by linarith)]
      unfold sqDist ellipsePoint
      simp only [Pt.div_x, Pt.add_x, Pt.div_y, Pt.add_y, cos_zero, sin_zero, hx, hy]
      linear_combination (sin t) ^ 2 * hb2 + (a ^ 2 - c ^ 2) * hcs
    rw [e1, e2]; ring
  · intro h
    exact onEllipse_foci hy ha hb hb2 ((dist_eq_iff (dist_nonneg _ _)).1 rfl) ((dist_eq_iff (dist_nonneg _ _)).1 rfl) h

/-- The ratio of the radii of the inner and the outer circle of the symmetric chain. -/
noncomputable def ratio (n : ℕ) : ℝ := (1 - sin (π / n)) / (1 + sin (π / n))

theorem ratio_bounds {n : ℕ} (hn : 3 ≤ n) : 0 < ratio n ∧ ratio n < 1 := by
  obtain ⟨h0, h1⟩ := sine_bounds hn
  exact ⟨div_pos (by linarith) (by linarith), by unfold ratio; rw [div_lt_one (by linarith)]; linarith⟩

/-- The inner circle. -/
noncomputable def inner (c0 : Circle) (n : ℕ) (phi : ℝ) : Circle :=
  ⟨⟨c0.center.x + c0.radius * (phi * (1 - ratio n ^ 2) / (1 - ratio n ^ 2 * phi ^ 2)), c0.center.y⟩,
    c0.radius * (ratio n * (1 - phi ^ 2) / (1 - ratio n ^ 2 * phi ^ 2))⟩

theorem denom_pos {n : ℕ} (hn : 3 ≤ n) {phi : ℝ} (hphi : |phi| < 1) : 0 < 1 - ratio n ^ 2 * phi ^ 2 := by
  obtain ⟨h0, h1⟩ := ratio_bounds hn
  have : phi ^ 2 < 1 := (sq_lt_one_iff_abs_lt_one phi).2 hphi
  nlinarith [sq_nonneg phi, pow_lt_one₀ h0.le h1 (n := 2) (by norm_num)]

theorem apC_inner {c0 : Circle} (hc : c0.Valid) {n : ℕ} (hn : 3 ≤ n) {phi shift : ℝ} (hphi : |phi| < 1) :
    apC c0 n phi shift n = inner c0 n phi := by
  have hR : 0 < c0.radius := hc
  obtain ⟨hs0, hs1⟩ := sine_bounds hn
  have hD := denom_pos hn hphi
  have hrad : c0.radius - 2 * (c0.radius / (1 + sin (π / n)) * sin (π / n)) = c0.radius * ratio n := by
    unfold ratio
    have : 1 + sin (π / n) ≠ 0 := by linarith
    field_simp
    ring
  have e0 : inner0 c0 n = ⟨c0.center, c0.radius * ratio n⟩ := by unfold inner0; rw [hrad]
  unfold apC apCircle
  rw [if_neg (by omega), e0]
  unfold apMap inner
  by_cases hp : phi = 0
  · rw [if_pos hp, hp]
    ext <;> simp
  · rw [if_neg hp]
    unfold img
    dsimp only
    rw [sqDist_comm, pole0_dist hp, div_pow, sq_abs]
    generalize ratio n = q at *
    have hR' := hR.ne'
    have hD' := hD.ne'
    have k : (c0.radius ^ 2 / phi ^ 2 - c0.radius ^ 2) / (c0.radius ^ 2 / phi ^ 2 - (c0.radius * q) ^ 2) =
        (1 - phi ^ 2) / (1 - q ^ 2 * phi ^ 2) := by
      have : c0.radius ^ 2 / phi ^ 2 - (c0.radius * q) ^ 2 = c0.radius ^ 2 / phi ^ 2 * (1 - q ^ 2 * phi ^ 2) := by
        field_simp
      rw [this]
      field_simp
    rw [k]
    unfold pole0
    ext
    · simp only [Pt.add_x, Pt.smul_x, Pt.sub_x]
      obtain ⟨D, hDe⟩ : ∃ D, D = 1 - q ^ 2 * phi ^ 2 := ⟨_, rfl⟩
      rw [← hDe] at hD' ⊢
      field_simp
      rw [hDe]
      ring
    · simp
    · dsimp only
      ring

/-- The inner circle is strictly inside the outer one. -/
theorem inner_inside {c0 : Circle} (hc : c0.Valid) {n : ℕ} (hn : 3 ≤ n) {phi : ℝ} (hphi : |phi| < 1) :
    0 < (inner c0 n phi).radius ∧ |(inner c0 n phi).center.x - c0.center.x| + (inner c0 n phi).radius < c0.radius := by
  have hR : 0 < c0.radius := hc
  obtain ⟨h0, h1⟩ := ratio_bounds hn
  have hD := denom_pos hn hphi
  have hp2 : phi ^ 2 < 1 := (sq_lt_one_iff_abs_lt_one phi).2 hphi
  unfold inner
  dsimp only
  generalize ratio n = q at *
  have e : |c0.center.x + c0.radius * (phi * (1 - q ^ 2) / (1 - q ^ 2 * phi ^ 2)) - c0.center.x| =
      c0.radius * (|phi| * (1 - q ^ 2) / (1 - q ^ 2 * phi ^ 2)) := by
    rw [add_sub_cancel_left, abs_mul, abs_of_pos hR, abs_div, abs_mul, abs_of_pos hD, abs_of_pos (by nlinarith : (0 : ℝ) < 1 - q ^ 2)]
  rw [e, ← sq_abs phi]
  rw [← sq_abs phi] at hD hp2
  have hp := abs_nonneg phi
  generalize |phi| = p at *
  refine ⟨by have : 0 < 1 - p ^ 2 := by linarith
             positivity, ?_⟩
  rw [← mul_add]
  have : p * (1 - q ^ 2) / (1 - q ^ 2 * p ^ 2) + q * (1 - p ^ 2) / (1 - q ^ 2 * p ^ 2) < 1 := by
    rw [← add_div, div_lt_one hD]
    have : 1 - q ^ 2 * p ^ 2 - (p * (1 - q ^ 2) + q * (1 - p ^ 2)) = (1 - q * p) * ((1 - p) * (1 - q)) := by ring
    have : 0 < (1 - q * p) * ((1 - p) * (1 - q)) := by
      have : q * p < 1 := by nlinarith
      exact mul_pos (by linarith) (mul_pos (by linarith) (by linarith))
    linarith
  nlinarith

/-- The ellipse. -/
noncomputable def ell (c0 : Circle) (n : ℕ) (phi : ℝ) : Ellipse :=
  ⟨(c0.center + (inner c0 n phi).center) / (2 : ℝ), ((inner c0 n phi).radius + c0.radius) / 2,
    √((((inner c0 n phi).radius + c0.radius) / 2) ^ 2 - (((inner c0 n phi).center.x - c0.center.x) / 2) ^ 2), 0, true⟩

/-- What `SteinerChain` returns. -/
theorem explicit {c0 : Circle} (hc : c0.Valid) {n : ℕ} (hn : 3 ≤ n) {phi shift : ℝ} (hphi : |phi| < 1)
    (h : phi ≠ 0 → PoleFar c0.radius n phi shift) :
    SteinerChain c0 n phi shift = .ok ⟨(List.range n).map (fun i => .circle (apC c0 n phi shift i)) ++ [.circle (inner c0 n phi)], ell c0 n phi⟩ ∧
    IsSteiner c0.center c0.radius n (apC c0 n phi shift) (inner c0 n phi) ∧ 0 < (ell c0 n phi).rminor ∧
    (ell c0 n phi).rminor ^ 2 = (((inner c0 n phi).radius + c0.radius) / 2) ^ 2 - (((inner c0 n phi).center.x - c0.center.x) / 2) ^ 2 := by
  obtain ⟨chain, inn, b, h1, h2, hb, hb2⟩ := steiner_main' hc hn shift hphi (steiner_htol hn h)
  obtain ⟨-, hget⟩ := steiner_get hc hn hphi h1
  have e1 : ∀ i < n, chain i = apC c0 n phi shift i := fun i hi => hget i hi.le _ (by
    rw [List.getElem?_append_left (by simpa using hi), List.getElem?_map, List.getElem?_range hi]; rfl)
  have e2 : inn = inner c0 n phi := by
    rw [← apC_inner hc hn (shift := shift) hphi]
    exact hget n le_rfl _ (by rw [List.getElem?_append_right (by simp)]; simp)
  subst e2
  have e3 : b = (ell c0 n phi).rminor := by
    unfold ell
    dsimp only
    rw [← hb2, sqrt_sq hb.le]
  subst e3
  refine ⟨?_, ⟨fun i hi => ?_, h2.ipos⟩, hb, hb2⟩
  · rw [h1]
    have : (List.range n).map (fun i => GCircle.circle (chain i)) = (List.range n).map (fun i => GCircle.circle (apC c0 n phi shift i)) :=
      List.map_congr_left fun i hi => by rw [e1 i (List.mem_range.1 hi)]
    rw [this]
    rfl
  · have hi' : (i + 1) % n < n := Nat.mod_lt _ (by omega)
    rw [← e1 i hi, ← e1 _ hi']
    exact ⟨h2.pos i, h2.next i hi, h2.outer i, h2.touch i⟩

theorem dist_self (P : Pt) : Spec.dist P P = 0 := (dist_eq_iff le_rfl).2 (by unfold sqDist; ring)

/-- A disc is convex. -/
theorem segment_in {O P Q X : Pt} {r : ℝ} (hr : 0 ≤ r) (hP : Spec.dist P O ≤ r) (hQ : Spec.dist Q O ≤ r) (h : OnSegment P Q X) : Spec.dist X O ≤ r := by
  obtain ⟨t, h0, h1, rfl⟩ := h
  rw [dist_le_iff hr] at hP hQ ⊢
  have e : sqDist (P + t • (Q - P)) O = (1 - t) * sqDist P O + t * sqDist Q O - t * (1 - t) * ((Q.x - P.x) ^ 2 + (Q.y - P.y) ^ 2) := by
    simp only [sqDist, Pt.add_x, Pt.add_y, Pt.smul_x, Pt.smul_y, Pt.sub_x, Pt.sub_y]; ring
  have h2 : 0 ≤ t * (1 - t) * ((Q.x - P.x) ^ 2 + (Q.y - P.y) ^ 2) := mul_nonneg (mul_nonneg h0 (by linarith)) (by positivity)
  have h3 := mul_le_mul_of_nonneg_left hP (by linarith : 0 ≤ 1 - t)
  have h4 := mul_le_mul_of_nonneg_left hQ h0
  rw [e]
  linarith

theorem dist_axis {O : Pt} {x : ℝ} : Spec.dist O ⟨x, O.y⟩ = |x - O.x| := by
  rw [dist_eq_iff (abs_nonneg _), sq_abs]
  unfold sqDist
  dsimp only
  ring

/-- The regular chain after one more step. -/
theorem chain0_step {c0 : Circle} {n : ℕ} (hn : 3 ≤ n) (shift : ℝ) {i : ℕ} (hi : i < n) :
    chain0 c0 n (shift + 1) i = chain0 c0 n shift ((i + 1) % n) := by
  have hn0 : (n : ℝ) ≠ 0 := by
    have : 0 < n := by omega
    positivity
  unfold chain0
  have : unit_vector_ (((i : ℝ) + (shift + 1)) * 2 * (π / n)) = unit_vector_ (((((i + 1) % n : ℕ) : ℝ) + shift) * 2 * (π / n)) := by
    rcases Nat.lt_or_ge (i + 1) n with h | h
    · rw [Nat.mod_eq_of_lt h]
      push_cast
      congr 1
      ring
    · have e : i + 1 = n := by omega
      rw [e, Nat.mod_self]
      have : ((i : ℝ) + (shift + 1)) * 2 * (π / n) = (((0 : ℕ) : ℝ) + shift) * 2 * (π / n) + 2 * π := by
        have : (i : ℝ) = n - 1 := by
          have : ((i + 1 : ℕ) : ℝ) = n := by rw [e]
          push_cast at this
          linarith
        rw [this]
        push_cast
        field_simp
        ring
      rw [this]
      unfold unit_vector_
      rw [cos_add_two_pi, sin_add_two_pi]
  rw [this]

theorem poleFar_step {R : ℝ} {n : ℕ} (hn : 3 ≤ n) {phi shift : ℝ} (hp : phi ≠ 0) (h : PoleFar R n phi shift) : PoleFar R n phi (shift + 1) := by
  refine ⟨fun i hi => ?_, h.2⟩
  have hi' : (i + 1) % n < n := Nat.mod_lt _ (by omega)
  have e1 := chain0_power (c0 := ⟨⟨0, 0⟩, R⟩) hn (shift + 1) hp i
  have e2 := chain0_power (c0 := ⟨⟨0, 0⟩, R⟩) hn shift hp ((i + 1) % n)
  rw [chain0_step hn shift hi] at e1
  rw [← e1, e2]
  exact h.1 _ hi'

end SFoci

/-- C129: the ellipse of `SteinerChain` is the set of the points whose distances to the centers of the outer and of the inner circle
have for sum the sum of the two radii; it is also the set of the centers of all the circles tangent to both.  The inner circle, of
which the center and the radius are given, is strictly inside the outer one, and the ellipse does not pass through its
center: of the circles in the list, it passes through the centers of the first `n` ones only. -/
theorem C129_foci (c0 : Circle) (hc : c0.Valid) (n : ℕ) (hn : 3 ≤ n) (phi shift : ℝ) (hphi : |phi| < 1)
    (hfar : phi ≠ 0 → PoleFar c0.radius n phi shift) :
    ∃ (chain : ℕ → Circle) (inner : Circle) (ell : Ellipse) (q : ℝ),
      SteinerChain c0 n phi shift = .ok ⟨(List.range n).map (fun i => .circle (chain i)) ++ [.circle inner], ell⟩ ∧
      IsSteiner c0.center c0.radius n chain inner ∧
      q = (1 - sin (π / n)) / (1 + sin (π / n)) ∧
      inner = ⟨⟨c0.center.x + c0.radius * (phi * (1 - q ^ 2) / (1 - q ^ 2 * phi ^ 2)), c0.center.y⟩,
        c0.radius * (q * (1 - phi ^ 2) / (1 - q ^ 2 * phi ^ 2))⟩ ∧
      Spec.dist c0.center inner.center + inner.radius < c0.radius ∧
      ell.Valid ∧ ell.rmajor = (c0.radius + inner.radius) / 2 ∧ ell.rminor ≤ ell.rmajor ∧
      (∀ P, OnE ell P ↔ Spec.dist P c0.center + Spec.dist P inner.center = c0.radius + inner.radius) ∧
      (∀ P, OnE ell P ↔ ∃ r, 0 < r ∧ IntTangent c0.center c0.radius P r ∧ ExtTangent inner.center inner.radius P r) ∧
      (∀ i < n, OnE ell (chain i).center) ∧ ¬ OnE ell inner.center ∧ ¬ OnE ell c0.center := by
  have hR : 0 < c0.radius := hc
  obtain ⟨h1, h2, hb, hb2⟩ := SFoci.explicit hc hn hphi hfar
  obtain ⟨hr, hin⟩ := SFoci.inner_inside hc hn hphi
  have hd : Spec.dist c0.center (SFoci.inner c0 n phi).center = |(SFoci.inner c0 n phi).center.x - c0.center.x| := SFoci.dist_axis
  have ha : 0 < ((SFoci.inner c0 n phi).radius + c0.radius) / 2 := by positivity
  have hfoc : ∀ P, OnE (SFoci.ell c0 n phi) P ↔
      Spec.dist P c0.center + Spec.dist P (SFoci.inner c0 n phi).center = c0.radius + (SFoci.inner c0 n phi).radius := by
    intro P
    have e : (SFoci.ell c0 n phi).rad = 0 := by unfold Ellipse.rad SFoci.ell; simp
    unfold OnE
    rw [e]
    refine Iff.trans (SFoci.on_foci (O := c0.center) (O₂ := (SFoci.inner c0 n phi).center) rfl ha hb hb2) ?_
    have ea : 2 * (SFoci.ell c0 n phi).rmajor = c0.radius + (SFoci.inner c0 n phi).radius := by unfold SFoci.ell; dsimp only; ring
    rw [ea]
  have htan : ∀ P, OnE (SFoci.ell c0 n phi) P ↔
      ∃ r, 0 < r ∧ IntTangent c0.center c0.radius P r ∧ ExtTangent (SFoci.inner c0 n phi).center (SFoci.inner c0 n phi).radius P r := by
    intro P
    rw [hfoc]
    unfold IntTangent ExtTangent
    constructor
    · intro h
      have tri := specDist_triangle c0.center (SFoci.inner c0 n phi).center P
      rw [specDist_comm _ P, specDist_comm _ P] at tri
      refine ⟨c0.radius - Spec.dist P c0.center, ?_, ?_, ?_⟩
      · linarith
      · rw [specDist_comm]; ring
      · rw [specDist_comm]; linarith
    · rintro ⟨r, -, e1, e2⟩
      rw [specDist_comm, e1, specDist_comm, e2]
      ring
  refine ⟨_, _, _, SFoci.ratio n, h1, h2, rfl, rfl, by rw [hd]; exact hin, ⟨ha, hb⟩, by unfold SFoci.ell; dsimp only; ring, ?_, hfoc, htan, ?_, ?_, ?_⟩
  · apply le_of_sq_le_sq _ ha.le
    rw [hb2]
    linarith [sq_nonneg (((SFoci.inner c0 n phi).center.x - c0.center.x) / 2)]
  · intro i hi
    obtain ⟨h3, -, h4, h5⟩ := h2.1 i hi
    exact (htan _).2 ⟨_, h3, h4, h5⟩
  · rw [hfoc, SFoci.dist_self, specDist_comm, hd]
    intro h
    linarith
  · rw [hfoc, SFoci.dist_self, hd]
    intro h
    linarith

/-- Six circles in a circle of radius 35, for `phi = 1/2`: the inner circle has center `(16, 0)` and radius 9, the ellipse is the set of the points
whose distances to `(0, 0)` and `(16, 0)` have the sum 44, for every shift. -/
example (shift : ℝ) : ∃ (chain : ℕ → Circle) (ell : Ellipse),
    SteinerChain ⟨⟨0, 0⟩, 35⟩ 6 (1 / 2) shift = .ok ⟨(List.range 6).map (fun i => .circle (chain i)) ++ [.circle ⟨⟨16, 0⟩, 9⟩], ell⟩ ∧
    (∀ P, OnE ell P ↔ Spec.dist P ⟨0, 0⟩ + Spec.dist P ⟨16, 0⟩ = 44) ∧ OnE ell ⟨-14, 0⟩ ∧ ∀ i < 6, OnE ell (chain i).center := by
  have hp : |(1 / 2 : ℝ)| < 1 := by rw [abs_of_pos (by norm_num)]; norm_num
  have hfar : (1 / 2 : ℝ) ≠ 0 → PoleFar (⟨⟨0, 0⟩, 35⟩ : Circle).radius 6 (1 / 2) shift :=
    (C108_condition 35 (by norm_num) 6 (by norm_num) (1 / 2) hp).1 shift fun _ => by rw [abs_of_pos (by norm_num)]; norm_num
  obtain ⟨chain, inner, ell, q, h1, -, hq, hi, -, -, -, -, hfoc, -, hon, -, -⟩ :=
    C129_foci ⟨⟨0, 0⟩, 35⟩ (show (0 : ℝ) < 35 by norm_num) 6 (by norm_num) (1 / 2) shift hp hfar
  have hq' : q = 1 / 3 := by
    rw [hq]
    push_cast
    rw [sin_pi_div_six]
    norm_num
  rw [hq'] at hi
  norm_num at hi
  subst hi
  dsimp only at hfoc
  norm_num at hfoc
  refine ⟨chain, ell, h1, hfoc, ?_, hon⟩
  rw [hfoc, (dist_eq_iff (r := 14) (by norm_num)).2 (by norm_num [sqDist]), (dist_eq_iff (r := 30) (by norm_num)).2 (by norm_num [sqDist])]
  norm_num

/-- C129, the shift: the inner circle and the ellipse are the same for all shifts, and increasing the shift by one moves every circle of
the chain to the place of the next one; the pictures of an animation where the shift runs over an interval of integer length fit
together. -/
theorem C129_shift (c0 : Circle) (hc : c0.Valid) (n : ℕ) (hn : 3 ≤ n) (phi : ℝ) (hphi : |phi| < 1) :
    ∃ (chain : ℝ → ℕ → Circle) (inner : Circle) (ell : Ellipse),
      (∀ shift, (phi ≠ 0 → PoleFar c0.radius n phi shift) →
        SteinerChain c0 n phi shift = .ok ⟨(List.range n).map (fun i => .circle (chain shift i)) ++ [.circle inner], ell⟩ ∧
        IsSteiner c0.center c0.radius n (chain shift) inner ∧
        (phi ≠ 0 → PoleFar c0.radius n phi (shift + 1))) ∧
      ∀ shift, ∀ i < n, chain (shift + 1) i = chain shift ((i + 1) % n) := by
  refine ⟨fun shift i => apC c0 n phi shift i, SFoci.inner c0 n phi, SFoci.ell c0 n phi, ?_, ?_⟩
  · intro shift h
    obtain ⟨h1, h2, -, -⟩ := SFoci.explicit hc hn hphi h
    exact ⟨h1, h2, fun hp => SFoci.poleFar_step hn hp (h hp)⟩
  · intro shift i hi
    have hi' : (i + 1) % n < n := Nat.mod_lt _ (by omega)
    dsimp only
    rw [EllipticalChains.apC_lt hi, EllipticalChains.apC_lt hi', SFoci.chain0_step hn shift hi]

/-- Three circles and `phi = 0.6`: the result for the shift 3 is the result for the shift 0, as the animations that stop one step before 3 need. -/
example : SteinerChain ⟨⟨3, 0⟩, 3⟩ 3 (3 / 5) (0 + 1 + 1 + 1) = SteinerChain ⟨⟨3, 0⟩, 3⟩ 3 (3 / 5) 0 ∧
    ∃ st, SteinerChain ⟨⟨3, 0⟩, 3⟩ 3 (3 / 5) 0 = .ok st := by
  have hp : |(3 / 5 : ℝ)| < 1 := by rw [abs_of_pos (by norm_num)]; norm_num
  obtain ⟨chain, inner, ell, h1, h2⟩ := C129_shift ⟨⟨3, 0⟩, 3⟩ (show (0 : ℝ) < 3 by norm_num) 3 (by norm_num) (3 / 5) hp
  have hfar : (3 / 5 : ℝ) ≠ 0 → PoleFar (⟨⟨3, 0⟩, 3⟩ : Circle).radius 3 (3 / 5) 0 :=
    (C108_condition 3 (by norm_num) 3 (by norm_num) (3 / 5) hp).1 _ fun _ => by rw [abs_of_pos (by norm_num)]; norm_num
  obtain ⟨e0, -, f1⟩ := h1 0 hfar
  obtain ⟨-, -, f2⟩ := h1 (0 + 1) f1
  obtain ⟨-, -, f3⟩ := h1 (0 + 1 + 1) f2
  obtain ⟨e3, -, -⟩ := h1 (0 + 1 + 1 + 1) f3
  refine ⟨?_, _, e0⟩
  rw [e3, e0]
  have : (List.range 3).map (fun i => GCircle.circle (chain (0 + 1 + 1 + 1) i)) = (List.range 3).map (fun i => GCircle.circle (chain 0 i)) := by
    apply List.map_congr_left
    intro i hi
    have hi : i < 3 := List.mem_range.1 hi
    rw [h2 _ i hi, h2 _ _ (Nat.mod_lt _ (by norm_num)), h2 _ _ (Nat.mod_lt _ (by norm_num))]
    congr 2
    omega
  rw [this]

/-- C129, the drawing: the polygon through the points of `ellipse.path(m)` is inside the outer circle, and it is, up to
`R (1 - cos(π/m))`, the set of the centers of the circles tangent to the outer and to the inner circle. -/
theorem C129_drawing (c0 : Circle) (hc : c0.Valid) (n : ℕ) (hn : 3 ≤ n) (phi shift : ℝ) (hphi : |phi| < 1)
    (hfar : phi ≠ 0 → PoleFar c0.radius n phi shift) (m : ℤ) (hm : 3 ≤ m) :
    ∃ (chain : ℕ → Circle) (inner : Circle) (ell : Ellipse) (L : List Pt),
      SteinerChain c0 n phi shift = .ok ⟨(List.range n).map (fun i => .circle (chain i)) ++ [.circle inner], ell⟩ ∧
      ell.path m = .ok L ∧
      (∀ X ∈ polygon L, Spec.dist X c0.center ≤ c0.radius) ∧
      (∀ i < n, ∀ X, OnCircle (chain i).center (chain i).radius X → Spec.dist X c0.center ≤ c0.radius) ∧
      (∀ X, OnCircle inner.center inner.radius X → Spec.dist X c0.center ≤ c0.radius) ∧
      Within (c0.radius * (1 - cos (π / m))) (polygon L)
        {P | ∃ r, 0 < r ∧ IntTangent c0.center c0.radius P r ∧ ExtTangent inner.center inner.radius P r} ∧
      ∀ i < n, ∃ X ∈ polygon L, Spec.dist X (chain i).center ≤ c0.radius * (1 - cos (π / m)) := by
  have hR : 0 < c0.radius := hc
  obtain ⟨chain, inner, ell, q, h1, hst, -, -, hin, hval, hmaj, hmin, hfoc, htan, hon, -, -⟩ := C129_foci c0 hc n hn phi shift hphi hfar
  obtain ⟨L, hL, -, hw, -⟩ := C128_ellipse_polygon ell hval m hm
  obtain ⟨L', hL', hlen, -, hget⟩ := (C64_path ell m).2 (by omega)
  have : L' = L := by rw [hL] at hL'; exact (Except.ok.inj hL').symm
  subst this
  have hmax : max ell.rmajor ell.rminor * (1 - cos (π / m)) ≤ c0.radius * (1 - cos (π / m)) := by
    apply mul_le_mul_of_nonneg_right _ (by linarith [cos_le_one (π / m)])
    have := dist_nonneg c0.center inner.center
    exact max_le (by linarith) (by linarith)
  have hset : {P | OnE ell P} = {P | ∃ r, 0 < r ∧ IntTangent c0.center c0.radius P r ∧ ExtTangent inner.center inner.radius P r} := by
    ext P; exact htan P
  have hw' : Within (c0.radius * (1 - cos (π / m))) (polygon L')
        {P | ∃ r, 0 < r ∧ IntTangent c0.center c0.radius P r ∧ ExtTangent inner.center inner.radius P r} := by
    rw [← hset]
    exact ⟨fun X hX => let ⟨Y, hY, h⟩ := hw.1 X hX; ⟨Y, hY, h.trans hmax⟩, fun Y hY => let ⟨X, hX, h⟩ := hw.2 Y hY; ⟨X, hX, h.trans hmax⟩⟩
  have hvert : ∀ (i : ℕ) (P : Pt), L'[i]? = some P → Spec.dist P c0.center ≤ c0.radius := by
    intro i P h
    have hi : i < L'.length := by
      rw [List.getElem?_eq_some_iff] at h
      exact h.1
    have h2 := hget i (by omega)
    rw [h] at h2
    have hP : OnE ell P := ⟨_, Option.some.inj h2⟩
    obtain ⟨r, h3, h4, -⟩ := (htan P).1 hP
    unfold IntTangent at h4
    rw [specDist_comm, h4]
    linarith
  refine ⟨chain, inner, ell, L', h1, hL, ?_, ?_, ?_, hw', ?_⟩
  · rintro X ⟨i, P, Q, hP, hQ, hX⟩
    exact SFoci.segment_in hR.le (hvert _ _ hP) (hvert _ _ hQ) hX
  · intro i hi X hX
    obtain ⟨h3, -, h4, -⟩ := hst.1 i hi
    unfold IntTangent at h4
    have tri := specDist_triangle X (chain i).center c0.center
    rw [specDist_comm (chain i).center, h4] at tri
    have hX' : Spec.dist X (chain i).center = (chain i).radius := (dist_eq_iff h3.le).2 hX
    linarith
  · intro X hX
    have tri := specDist_triangle X inner.center c0.center
    rw [specDist_comm inner.center] at tri
    have hX' : Spec.dist X inner.center = inner.radius := (dist_eq_iff hst.2.le).2 hX
    linarith
  · intro i hi
    exact hw'.2 _ ((htan _).1 (hon i hi))

/-- The script `SteinerChainWithEllipse.py`: the outer circle has center `(3, 0)` and radius 3, there are three circles, `phi = 0.6`, the shift is 0.85.
All that is drawn is in the window `[0, 6] × [-4, 4]`, and the red path with its 100 points passes, up to 0.0015, through the centers of the circles of
the chain. -/
example : ∃ (chain : ℕ → Circle) (inner : Circle) (ell : Ellipse) (L : List Pt),
    SteinerChain ⟨⟨3, 0⟩, 3⟩ 3 (3 / 5) (17 / 20) = .ok ⟨(List.range 3).map (fun i => .circle (chain i)) ++ [.circle inner], ell⟩ ∧
    ell.path 100 = .ok L ∧
    (∀ X, X ∈ polygon L ∨ OnCircle inner.center inner.radius X ∨ (∃ i < 3, OnCircle (chain i).center (chain i).radius X) ∨ OnCircle ⟨3, 0⟩ 3 X →
      (0 ≤ X.x ∧ X.x ≤ 6) ∧ -4 ≤ X.y ∧ X.y ≤ 4) ∧
    ∀ i < 3, ∃ X ∈ polygon L, Spec.dist X (chain i).center ≤ 15 / 10000 := by
  have hp : |(3 / 5 : ℝ)| < 1 := by rw [abs_of_pos (by norm_num)]; norm_num
  have hfar : (3 / 5 : ℝ) ≠ 0 → PoleFar (⟨⟨3, 0⟩, 3⟩ : Circle).radius 3 (3 / 5) (17 / 20) :=
    (C108_condition 3 (by norm_num) 3 (by norm_num) (3 / 5) hp).1 _ fun _ => by rw [abs_of_pos (by norm_num)]; norm_num
  obtain ⟨chain, inner, ell, L, h1, h2, h3, h4, h5, -, h6⟩ :=
    C129_drawing ⟨⟨3, 0⟩, 3⟩ (show (0 : ℝ) < 3 by norm_num) 3 (by norm_num) (3 / 5) (17 / 20) hp hfar 100 (by norm_num)
  refine ⟨chain, inner, ell, L, h1, h2, ?_, ?_⟩
  · intro X hX
    have hd : Spec.dist X ⟨3, 0⟩ ≤ 3 := by
      rcases hX with h | h | ⟨i, hi, h⟩ | h
      · exact h3 X h
      · exact h5 X h
      · exact h4 i hi X h
      · exact ((dist_eq_iff (by norm_num)).2 h).le
    rw [dist_le_iff (by norm_num)] at hd
    unfold sqDist at hd
    dsimp only at hd
    have hx : |X.x - 3| ≤ 3 := abs_le_of_sq_le_sq (by nlinarith [sq_nonneg (X.y - 0)]) (by norm_num)
    have hy : |X.y - 0| ≤ 3 := abs_le_of_sq_le_sq (by nlinarith [sq_nonneg (X.x - 3)]) (by norm_num)
    rw [abs_le] at hx hy
    refine ⟨⟨?_, ?_⟩, ?_, ?_⟩ <;> linarith
  · intro i hi
    obtain ⟨X, hX, h⟩ := h6 i hi
    refine ⟨X, hX, h.trans ?_⟩
    push_cast
    have h7 := one_sub_sq_div_two_le_cos (x := π / 100)
    have h8 : (π / 100) ^ 2 ≤ (3.15 / 100 : ℝ) ^ 2 := by
      apply pow_le_pow_left₀ (by positivity)
      linarith [pi_lt_d2]
    norm_num at h8 ⊢
    linarith
