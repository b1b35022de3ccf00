import Verif.Model.HyperbolicTesselation
import Verif.Props.Circle
import Verif.Props.Circle2
import Verif.Props.Inversion
import Verif.Props.Steiner
import Mathlib.Analysis.Real.Pi.Bounds
import Mathlib.Analysis.Complex.Trigonometric

/-!
# C104: the vertices of examples/HyperbolicTesselation.py and HyperbolicTesselation2.py
-/

open Spec Real Classical HypTess

namespace HypTess

/-- The inversion of the script: its circle is orthogonal to the reference circle. -/
theorem inversion_eq {R : ℝ} (hR : 0 < R) (thetas : Fin 3 → ℝ) (i : Fin 3) (h : ∀ n : ℤ, thetas i - thetas (i + 1) ≠ n * π) :
    inversion ⟨⟨0, 0⟩, R⟩ thetas i = .ok ⟨(R / cos ((thetas i - thetas (i + 1)) / 2)) • unit_vector_ ((thetas i + thetas (i + 1)) / 2),
      (R / cos ((thetas i - thetas (i + 1)) / 2)) ^ 2 - R ^ 2⟩ := by
  have hm : pyMod (thetas i - thetas (i + 1)) π ≠ 0 := by
    rw [Ne, pyMod_eq_zero_iff pi_ne_zero]; push Not; exact h
  obtain ⟨hcos, hsin⟩ := cos_half_ne_zero hm
  obtain ⟨o, a, -, ha, -⟩ := C17_orthogonal_on_circle_arc ⟨⟨0, 0⟩, R⟩ hR _ _ h
  unfold inversion
  have ha' := ha
  unfold Circle.orthogonal_through_two_points_on_circle at ha'
  dsimp only at ha'
  rw [if_neg hm, if_pos rfl] at ha'
  obtain ⟨a', hmk, e⟩ := Res.bind_ok.1 ha'
  rw [ha, Res.ok_bind]
  dsimp only
  obtain rfl : a' = a := by simpa [Res.pure_ok] using e
  have hc : a'.center = (⟨0, 0⟩ : Pt) + (R / cos ((thetas i - thetas (i + 1)) / 2)) • unit_vector_ ((thetas i + thetas (i + 1)) / 2) ∧
      a'.radius = R * |tan ((thetas i - thetas (i + 1)) / 2)| := by
    unfold mkArc at hmk
    split_ifs at hmk <;> first | (obtain rfl := Except.ok.inj hmk; exact ⟨rfl, rfl⟩) | cases hmk
  rw [hc.1, hc.2]
  show Except.ok _ = _
  congr 2
  · ext <;> simp
  · rw [mul_pow, sq_abs, tan_eq_sin_div_cos]
    have := sin_sq_add_cos_sq ((thetas i - thetas (i + 1)) / 2)
    field_simp
    linear_combination this

/-- The direction of the image of a point `rho • e` by an inversion which keeps the circle of radius `R`. -/
theorem image_cross {R q rho t s : ℝ} {X Y : Pt} (hX : IsInverse (q • unit_vector_ t) (q ^ 2 - R ^ 2) (rho • unit_vector_ s) X)
    (hY : IsInverse (q • unit_vector_ t) (q ^ 2 - R ^ 2) (R • unit_vector_ s) Y) :
    ∃ N > 0, N * cross X Y = q * (q ^ 2 - R ^ 2) * R * (R - rho) ^ 2 * sin (s - t) := by
  obtain ⟨n1, e1⟩ := isInverse_iff.1 hX
  obtain ⟨n2, e2⟩ := isInverse_iff.1 hY
  have p1 := dot_self_pos n1
  have p2 := dot_self_pos n2
  refine ⟨_, mul_pos p1 p2, ?_⟩
  have ht := sin_sq_add_cos_sq t
  have hs := sin_sq_add_cos_sq s
  rw [sin_sub]
  have f1 : dot (rho • unit_vector_ s - q • unit_vector_ t) (rho • unit_vector_ s - q • unit_vector_ t) =
      rho ^ 2 + q ^ 2 - 2 * rho * q * (cos s * cos t + sin s * sin t) := by
    simp only [dot, unit_vector_, Pt.sub_x, Pt.sub_y, Pt.smul_x, Pt.smul_y]; linear_combination rho ^ 2 * hs + q ^ 2 * ht
  have f2 : dot (R • unit_vector_ s - q • unit_vector_ t) (R • unit_vector_ s - q • unit_vector_ t) =
      R ^ 2 + q ^ 2 - 2 * R * q * (cos s * cos t + sin s * sin t) := by
    simp only [dot, unit_vector_, Pt.sub_x, Pt.sub_y, Pt.smul_x, Pt.smul_y]; linear_combination R ^ 2 * hs + q ^ 2 * ht
  rw [f1] at p1 e1 ⊢
  rw [f2] at p2 e2 ⊢
  obtain ⟨m1, hm1⟩ : ∃ m, m = (q ^ 2 - R ^ 2) / (rho ^ 2 + q ^ 2 - 2 * rho * q * (cos s * cos t + sin s * sin t)) := ⟨_, rfl⟩
  obtain ⟨m2, hm2⟩ : ∃ m, m = (q ^ 2 - R ^ 2) / (R ^ 2 + q ^ 2 - 2 * R * q * (cos s * cos t + sin s * sin t)) := ⟨_, rfl⟩
  rw [← hm1] at e1
  rw [← hm2] at e2
  rw [eq_div_iff p1.ne'] at hm1
  rw [eq_div_iff p2.ne'] at hm2
  have hcr : cross X Y = ((1 - m1) * (m2 * R) - m1 * rho * (1 - m2)) * q * (sin s * cos t - cos s * sin t) := by
    rw [e1, e2]
    simp only [cross, unit_vector_, Pt.sub_x, Pt.sub_y, Pt.smul_x, Pt.smul_y, Pt.add_x, Pt.add_y]
    ring
  rw [hcr]
  clear hcr e1 e2 f1 f2 n1 n2 hX hY
  obtain ⟨c, hc⟩ : ∃ c, c = cos s * cos t + sin s * sin t := ⟨_, rfl⟩
  obtain ⟨w, hw⟩ : ∃ w, w = sin s * cos t - cos s * sin t := ⟨_, rfl⟩
  rw [← hc] at hm1 hm2 p1 p2 ⊢
  rw [← hw]
  linear_combination ((rho ^ 2 + q ^ 2 - 2 * rho * q * c) * R * q * w + rho * q * w * (q ^ 2 - R ^ 2) - R * q * w * (q ^ 2 - R ^ 2)) * hm2 -
    ((R ^ 2 + q ^ 2 - 2 * R * q * c) * rho * q * w + R * q * w * (m2 * (R ^ 2 + q ^ 2 - 2 * R * q * c)) - rho * q * w * (m2 * (R ^ 2 + q ^ 2 - 2 * R * q * c))) * hm1

/-- Two points of the same angle are in the same direction. -/
theorem cross_of_atan2 {X Y : Pt} (h : atan2 X.y X.x = atan2 Y.y Y.x) : cross X Y = 0 := by
  have a1 := atan2_cos_mul X.x X.y
  have a2 := atan2_sin_mul X.x X.y
  have b1 := atan2_cos_mul Y.x Y.y
  have b2 := atan2_sin_mul Y.x Y.y
  rw [← h] at b1 b2
  unfold cross
  linear_combination -Y.y * a1 - (√(X.x * X.x + X.y * X.y) * cos (atan2 X.y X.x)) * b2 + Y.x * a2 +
    (√(X.x * X.x + X.y * X.y) * sin (atan2 X.y X.x)) * b1

theorem level_length (inv : Fin 3 → Inversion) (P : Fin 3 → Pt) (d : ℕ) : (level inv P d).length = 3 * 2 ^ d := by
  induction d with
  | zero => simp [level, first]
  | succ d ih =>
    have key : ∀ l : List (XPt × Fin 3), (next inv l).length = 2 * l.length := by
      intro l
      unfold next
      induction l with
      | nil => simp
      | cons p l ih2 =>
        rw [List.flatMap_cons, List.length_append, ih2, List.length_map, List.length_cons]
        have : ((List.finRange 3).filter fun i => decide (i ≠ p.2)).length = 2 := by
          obtain ⟨x, i⟩ := p
          fin_cases i <;> rfl
        rw [this]; ring
    rw [level, key, ih]; ring

theorem mem_next {inv : Fin 3 → Inversion} {l : List (XPt × Fin 3)} {x : XPt} {i : Fin 3} :
    (x, i) ∈ next inv l ↔ ∃ y j, (y, j) ∈ l ∧ i ≠ j ∧ x = (inv i).invert y := by
  unfold next
  simp only [List.mem_flatMap, List.mem_map, List.mem_filter, List.mem_finRange, true_and, decide_eq_true_eq, Prod.mk.injEq, Prod.exists]
  constructor
  · rintro ⟨y, j, hy, i', hi, rfl, rfl⟩; exact ⟨y, j, hy, hi, rfl⟩
  · rintro ⟨y, j, hy, hi, rfl⟩; exact ⟨y, j, hy, i, hi, rfl, rfl⟩

theorem mem_first {inv : Fin 3 → Inversion} {P : Fin 3 → Pt} {x : XPt} {i : Fin 3} :
    (x, i) ∈ first inv P ↔ x = (inv i).invert (.fin (P (i - 1))) := by
  unfold first
  simp only [List.mem_map, List.mem_finRange, true_and, Prod.mk.injEq]
  constructor
  · rintro ⟨j, rfl, rfl⟩; rfl
  · rintro rfl; exact ⟨i, rfl, rfl⟩

/-- A pole far from the circle is not taken for one of its points. -/
theorem not_allclose_far {R : ℝ} (hR : 0 < R) {i : Inversion}
    (hfar : R * (1 + 1 / 10 ^ 4) + 1 / 10 ^ 7 ≤ Spec.dist i.pole ⟨0, 0⟩) {M : Pt} (hM : OnCircle ⟨0, 0⟩ R M) : ¬ allclose i.pole M := by
  rintro ⟨ha, hb⟩
  unfold npClose at ha hb
  have hM' : M.x ^ 2 + M.y ^ 2 = R ^ 2 := by have := hM; simp only [OnCircle, sqDist, sub_zero] at this; exact this
  have mx : |M.x| ≤ R := abs_le_of_sq_le_sq (by nlinarith [sq_nonneg M.y]) hR.le
  have my : |M.y| ≤ R := abs_le_of_sq_le_sq (by nlinarith [sq_nonneg M.x]) hR.le
  obtain ⟨D, hD⟩ : ∃ D, D = R / 10 ^ 5 + 1 / 10 ^ 8 := ⟨_, rfl⟩
  have hx : |i.pole.x - M.x| ≤ D := by rw [hD]; refine ha.trans ?_; linarith
  have hy : |i.pole.y - M.y| ≤ D := by rw [hD]; refine hb.trans ?_; linarith
  have hD0 : 0 < D := by rw [hD]; positivity
  have h2 : sqDist i.pole ⟨0, 0⟩ ≤ (R + 2 * D) ^ 2 := by
    rw [abs_le] at hx hy mx my
    simp only [sqDist, sub_zero]
    obtain ⟨u, hu⟩ : ∃ u, u = i.pole.x - M.x := ⟨_, rfl⟩
    obtain ⟨v, hv⟩ : ∃ v, v = i.pole.y - M.y := ⟨_, rfl⟩
    rw [← hu] at hx
    rw [← hv] at hy
    have e1 : i.pole.x = M.x + u := by rw [hu]; ring
    have e2 : i.pole.y = M.y + v := by rw [hv]; ring
    rw [e1, e2]
    have c : (M.x * u + M.y * v) ^ 2 ≤ (R * (2 * D)) ^ 2 := by
      have : (M.x * u + M.y * v) ^ 2 ≤ (M.x ^ 2 + M.y ^ 2) * (u ^ 2 + v ^ 2) := by nlinarith [sq_nonneg (M.x * v - M.y * u)]
      rw [hM'] at this
      have huv : u ^ 2 + v ^ 2 ≤ (2 * D) ^ 2 := by nlinarith
      nlinarith [mul_le_mul_of_nonneg_left huv (sq_nonneg R)]
    have c' : M.x * u + M.y * v ≤ R * (2 * D) := by
      have := abs_le_of_sq_le_sq c (by positivity)
      exact (abs_le.1 this).2
    nlinarith
  have h3 : Spec.dist i.pole ⟨0, 0⟩ ≤ R + 2 * D := by rw [dist_le_iff (by positivity)]; exact h2
  rw [hD] at h3
  linarith

/-- An inversion orthogonal to a circle, with pole far enough, keeps its points. -/
theorem invert_on {R : ℝ} (hR : 0 < R) {i : Inversion} (hk : i.power = sqDist i.pole ⟨0, 0⟩ - R ^ 2)
    (hfar : R * (1 + 1 / 10 ^ 4) + 1 / 10 ^ 7 ≤ Spec.dist i.pole ⟨0, 0⟩) {M : Pt} (hM : OnCircle ⟨0, 0⟩ R M) :
    ∃ N, i.invert (.fin M) = .fin N ∧ OnCircle ⟨0, 0⟩ R N := by
  have hall := not_allclose_far hR hfar hM
  obtain ⟨N, hN, -, -, hi⟩ := C24_invert i M hall
  refine ⟨N, hN, ?_⟩
  obtain ⟨n0, e⟩ := isInverse_iff.1 hi
  have hp := dot_self_pos n0
  have hM' : M.x ^ 2 + M.y ^ 2 = R ^ 2 := by have := hM; simp only [OnCircle, sqDist, sub_zero] at this; exact this
  rw [e]
  obtain ⟨m, hm⟩ : ∃ m, m = i.power / dot (M - i.pole) (M - i.pole) := ⟨_, rfl⟩
  have hm1 : m * dot (M - i.pole) (M - i.pole) = i.power := by rw [hm]; field_simp
  rw [← hm]
  unfold OnCircle
  simp only [sqDist, sub_zero, dot, Pt.add_x, Pt.add_y, Pt.smul_x, Pt.smul_y, Pt.sub_x, Pt.sub_y] at *
  linear_combination (m - 1) * hm1 + (m - 1) * hk + m * hM'

theorem level_on {R : ℝ} (hR : 0 < R) (inv : Fin 3 → Inversion) (hk : ∀ i, (inv i).power = sqDist (inv i).pole ⟨0, 0⟩ - R ^ 2)
    (hfar : ∀ i, R * (1 + 1 / 10 ^ 4) + 1 / 10 ^ 7 ≤ Spec.dist (inv i).pole ⟨0, 0⟩) (P : Fin 3 → Pt) (hP : ∀ i, OnCircle ⟨0, 0⟩ R (P i)) (d : ℕ) :
    ∀ p ∈ level inv P d, ∃ N, p.1 = .fin N ∧ OnCircle ⟨0, 0⟩ R N := by
  induction d with
  | zero =>
    rintro ⟨x, i⟩ h
    rw [level, mem_first] at h
    obtain ⟨N, hN, hc⟩ := invert_on hR (hk i) (hfar i) (hP (i - 1))
    exact ⟨N, h.trans hN, hc⟩
  | succ d ih =>
    rintro ⟨x, i⟩ h
    rw [level, mem_next] at h
    obtain ⟨y, j, hy, -, e⟩ := h
    obtain ⟨M, hM, hc⟩ := ih _ hy
    dsimp only at hM
    obtain ⟨N, hN, hcN⟩ := invert_on hR (hk i) (hfar i) hc
    exact ⟨N, by rw [e, hM]; exact hN, hcN⟩

/-- The distance of the pole of the inversion. -/
theorem pole_dist (q t : ℝ) : Spec.dist (q • unit_vector_ t) ⟨0, 0⟩ = |q| := by
  rw [dist_eq_iff (abs_nonneg q), sq_abs]
  simp only [sqDist, unit_vector_, Pt.smul_x, Pt.smul_y, sub_zero]
  linear_combination q ^ 2 * sin_sq_add_cos_sq t

theorem start_on (rho : ℝ) (thetas : Fin 3 → ℝ) (i : Fin 3) : OnCircle ⟨0, 0⟩ rho (start rho thetas i) := by
  simp only [OnCircle, start, sqDist, unit_vector_, Pt.smul_x, Pt.smul_y, sub_zero]
  linear_combination rho ^ 2 * sin_sq_add_cos_sq (thetas i)

theorem half_far {R x : ℝ} (hR : 0 < R) (hc : cos x ≠ 0) (h : |cos x| * (R * (1 + 1 / 10 ^ 4) + 1 / 10 ^ 7) ≤ R) :
    R * (1 + 1 / 10 ^ 4) + 1 / 10 ^ 7 ≤ |R / cos x| := by
  have := abs_pos.2 hc
  rw [abs_div, abs_of_pos hR, le_div_iff₀ this]
  linarith

theorem cos_small {x : ℝ} (h1 : 1 / 2 ≤ x) (h2 : x ≤ 5 / 2) : |cos x| ≤ 97 / 100 := by
  have hs : 3 / 10 ≤ sin x := by
    have hp := pi_gt_d2
    have hp' := pi_lt_d2
    have key : ∀ y : ℝ, 1 / 2 ≤ y → y ≤ π / 2 → 3 / 10 ≤ sin y := by
      intro y a b
      refine le_trans ?_ (mul_le_sin (by linarith) b)
      rw [div_mul_eq_mul_div, le_div_iff₀ pi_pos]
      linarith
    rcases le_total x (π / 2) with h | h
    · exact key x h1 h
    · rw [← sin_pi_sub]; exact key _ (by linarith) (by linarith)
  refine abs_le_of_sq_le_sq ?_ (by norm_num)
  nlinarith [sin_sq_add_cos_sq x]

end HypTess

/-- **C104.** Each depth has twice as many points as the one before. -/
theorem C104_count (inv : Fin 3 → Inversion) (P : Fin 3 → Pt) (d : ℕ) : (level inv P d).length = 3 * 2 ^ d := level_length inv P d

/-- The fifth list has 48 points. -/
example (inv : Fin 3 → Inversion) (P : Fin 3 → Pt) : (HypTess.level inv P 4).length = 48 := by
  rw [C104_count]; norm_num

/-- **C104.** The image of the point of angle `theta` of the circle of radius `rho` has the angle of the image of the point of the circle `circ` only if the
two circles are the same, or the point is in line with the centre of the circle and the pole. -/
theorem C104_same_angle {R rho : ℝ} (hR : 0 < R) (thetas : Fin 3 → ℝ) (i : Fin 3)
    (h : ∀ n : ℤ, thetas i - thetas (i + 1) ≠ n * π) {inv : Inversion} (hinv : inversion ⟨⟨0, 0⟩, R⟩ thetas i = .ok inv) {a : ℝ}
    (h1 : angleOf (inv.invert (.fin (start rho thetas (i - 1)))) = .ok a)
    (h2 : angleOf (inv.invert (.fin (start R thetas (i - 1)))) = .ok a) :
    rho = R ∨ ∃ n : ℤ, thetas (i - 1) - (thetas i + thetas (i + 1)) / 2 = n * π := by
  have hm : pyMod (thetas i - thetas (i + 1)) π ≠ 0 := by
    rw [Ne, pyMod_eq_zero_iff pi_ne_zero]; push Not; exact h
  obtain ⟨hcos, hsin⟩ := cos_half_ne_zero hm
  rw [inversion_eq hR thetas i h] at hinv
  obtain rfl := Except.ok.inj hinv
  have fin_of : ∀ M : Pt, ∀ j : Inversion, angleOf (j.invert (.fin M)) = .ok a → ∃ N : Pt, IsInverse j.pole j.power M N ∧ atan2 N.y N.x = a := by
    intro M j hj
    by_cases hall : allclose j.pole M
    · rw [show j.invert (.fin M) = .inf from by unfold Inversion.invert; dsimp only; rw [if_pos hall]] at hj
      cases hj
    · obtain ⟨N, hN, -, -, hi⟩ := C24_invert j M hall
      rw [hN] at hj
      exact ⟨N, hi, Except.ok.inj hj⟩
  obtain ⟨X, hX, aX⟩ := fin_of _ _ h1
  obtain ⟨Y, hY, aY⟩ := fin_of _ _ h2
  dsimp only at hX hY
  unfold start at hX hY
  obtain ⟨N, hN, e⟩ := image_cross hX hY
  rw [cross_of_atan2 (aX.trans aY.symm), mul_zero] at e
  obtain ⟨q, hq⟩ : ∃ q, q = R / cos ((thetas i - thetas (i + 1)) / 2) := ⟨_, rfl⟩
  have hq0 : q ≠ 0 := by rw [hq]; exact div_ne_zero hR.ne' hcos
  have hk : q ^ 2 - R ^ 2 ≠ 0 := by
    rw [hq, div_pow]
    have := sin_sq_add_cos_sq ((thetas i - thetas (i + 1)) / 2)
    have e2 : R ^ 2 / cos ((thetas i - thetas (i + 1)) / 2) ^ 2 - R ^ 2 =
        R ^ 2 * sin ((thetas i - thetas (i + 1)) / 2) ^ 2 / cos ((thetas i - thetas (i + 1)) / 2) ^ 2 := by
      field_simp; linear_combination -this
    rw [e2]
    positivity
  rw [← hq] at e
  have e' := e.symm
  simp only [mul_eq_zero, hq0, hk, hR.ne', false_or, pow_eq_zero_iff, Ne, OfNat.ofNat_ne_zero, not_false_eq_true] at e'
  rcases e' with e' | e'
  · exact .inl (by linarith)
  · obtain ⟨n, hn⟩ := sin_eq_zero_iff.1 e'
    exact .inr ⟨n, hn.symm⟩

/-- **C104.** With the starting points on the circle, and the poles not too near to it, every point of every depth is on the circle, and the list of the
angles is the list of the angles of these points. -/
theorem C104_corrected {R : ℝ} (hR : 0 < R) (thetas : Fin 3 → ℝ) (h : ∀ i, ∀ n : ℤ, thetas i - thetas (i + 1) ≠ n * π)
    (hfar : ∀ i, |cos ((thetas i - thetas (i + 1)) / 2)| * (R * (1 + 1 / 10 ^ 4) + 1 / 10 ^ 7) ≤ R) (d : ℕ) :
    ∃ inv : Fin 3 → Inversion, (∀ i, inversion ⟨⟨0, 0⟩, R⟩ thetas i = .ok (inv i)) ∧
      ∃ l, angles ⟨⟨0, 0⟩, R⟩ R thetas d = .ok l ∧ l.length = 3 * 2 ^ d ∧
        (level inv (start R thetas) d).map Prod.fst = l.map (fun a => XPt.fin (R • unit_vector_ a)) := by
  have hc : ∀ i, cos ((thetas i - thetas (i + 1)) / 2) ≠ 0 := by
    intro i
    have hm : pyMod (thetas i - thetas (i + 1)) π ≠ 0 := by
      rw [Ne, pyMod_eq_zero_iff pi_ne_zero]; push Not; exact h i
    exact (cos_half_ne_zero hm).1
  obtain ⟨inv, hinv⟩ : ∃ inv : Fin 3 → Inversion, inv = fun i => ⟨(R / cos ((thetas i - thetas (i + 1)) / 2)) • unit_vector_ ((thetas i + thetas (i + 1)) / 2),
      (R / cos ((thetas i - thetas (i + 1)) / 2)) ^ 2 - R ^ 2⟩ := ⟨_, rfl⟩
  have hi : ∀ i, inversion ⟨⟨0, 0⟩, R⟩ thetas i = .ok (inv i) := by
    intro i; rw [hinv]; exact inversion_eq hR thetas i (h i)
  refine ⟨inv, hi, ?_⟩
  have hon := level_on hR inv (by
      intro i
      rw [hinv]
      dsimp only
      rw [← dist_sq, pole_dist, sq_abs]) (by
      intro i
      rw [hinv]
      dsimp only
      rw [pole_dist]
      exact half_far hR (hc i) (hfar i)) (start R thetas) (start_on R thetas) d
  refine ⟨(level inv (start R thetas) d).map fun p => match p.1 with | .fin P => atan2 P.y P.x | .inf => 0, ?_, ?_, ?_⟩
  · have hv : (![inv 0, inv 1, inv 2] : Fin 3 → Inversion) = inv := by
      funext i; fin_cases i <;> rfl
    unfold angles
    rw [hi 0, Res.ok_bind, hi 1, Res.ok_bind, hi 2, Res.ok_bind, hv]
    refine mapM_ok _ _ _ ?_
    intro p hp
    obtain ⟨N, hN, -⟩ := hon p hp
    rw [hN]; rfl
  · rw [List.length_map, level_length]
  · rw [List.map_map]
    refine List.map_congr_left ?_
    intro p hp
    obtain ⟨N, hN, hN2⟩ := hon p hp
    simp only [Function.comp, hN]
    congr 1
    have hs : √(N.x * N.x + N.y * N.y) = R := by
      simp only [OnCircle, sqDist, sub_zero] at hN2
      rw [show N.x * N.x + N.y * N.y = R ^ 2 by linarith, sqrt_sq hR.le]
    have e1 := atan2_cos_mul N.x N.y
    have e2 := atan2_sin_mul N.x N.y
    rw [hs] at e1 e2
    ext
    · simp only [unit_vector_, Pt.smul_x]; exact e1.symm
    · simp only [unit_vector_, Pt.smul_y]; exact e2.symm

namespace HypTess

/-- The angles of the scripts. -/
noncomputable def scriptThetas : Fin 3 → ℝ := ![0, 2, 3.8]

theorem script_ne (i : Fin 3) (n : ℤ) : scriptThetas i - scriptThetas (i + 1) ≠ n * π := by
  have hp := pi_gt_d2
  have hp' := pi_lt_d2
  have key : ∀ x : ℝ, (∃ m : ℤ, m * 3.15 < x ∧ x < (m + 1) * 3.14 ∧ 0 ≤ m) → ∀ n : ℤ, x ≠ n * π := by
    rintro x ⟨m, h1, h2, hm⟩ n rfl
    have hm' : (0 : ℝ) ≤ m := by exact_mod_cast hm
    have a : (m : ℝ) < n := by
      by_contra hcon
      have : (n : ℝ) * π ≤ m * π := mul_le_mul_of_nonneg_right (not_lt.1 hcon) pi_pos.le
      nlinarith
    have b : (n : ℝ) < m + 1 := by
      by_contra hcon
      have : (m + 1 : ℝ) * π ≤ n * π := mul_le_mul_of_nonneg_right (not_lt.1 hcon) pi_pos.le
      nlinarith
    have a' : m < n := by exact_mod_cast a
    have b' : n < m + 1 := by exact_mod_cast b
    omega
  intro e
  fin_cases i
  · have e' : (0 : ℝ) - 2 = n * π := e
    exact key 2 ⟨0, by norm_num, by norm_num, le_rfl⟩ (-n) (by push_cast; linarith)
  · have e' : (2 : ℝ) - 3.8 = n * π := e
    exact key 1.8 ⟨0, by norm_num, by norm_num, le_rfl⟩ (-n) (by push_cast; linarith)
  · have e' : (3.8 : ℝ) - 0 = n * π := e
    exact key 3.8 ⟨1, by norm_num, by norm_num, by norm_num⟩ n (by linarith)

end HypTess

namespace HypTess

theorem script_cos (i : Fin 3) : |cos ((scriptThetas i - scriptThetas (i + 1)) / 2)| ≤ 97 / 100 := by
  fin_cases i
  · show |cos (((0 : ℝ) - 2) / 2)| ≤ _
    rw [show ((0 : ℝ) - 2) / 2 = -1 by norm_num, cos_neg]
    exact cos_small (by norm_num) (by norm_num)
  · show |cos (((2 : ℝ) - 3.8) / 2)| ≤ _
    rw [show ((2 : ℝ) - 3.8) / 2 = -0.9 by norm_num, cos_neg]
    exact cos_small (by norm_num) (by norm_num)
  · show |cos (((3.8 : ℝ) - 0) / 2)| ≤ _
    exact cos_small (by norm_num) (by norm_num)

theorem script_off (i : Fin 3) (n : ℤ) : scriptThetas (i - 1) - (scriptThetas i + scriptThetas (i + 1)) / 2 ≠ n * π := by
  have hp := pi_gt_d2
  have key : ∀ x : ℝ, 0 < x → x < 3 → ∀ n : ℤ, x ≠ n * π := by
    rintro x h1 h2 n rfl
    have a : (0 : ℝ) < n := by
      by_contra hcon
      have : (n : ℝ) * π ≤ 0 := mul_nonpos_of_nonpos_of_nonneg (not_lt.1 hcon) pi_pos.le
      linarith
    have b : (n : ℝ) < 1 := by
      by_contra hcon
      have : 1 * π ≤ n * π := mul_le_mul_of_nonneg_right (not_lt.1 hcon) pi_pos.le
      linarith
    have a' : 0 < n := by exact_mod_cast a
    have b' : n < 1 := by exact_mod_cast b
    omega
  intro e
  fin_cases i
  · have e' : (3.8 : ℝ) - (0 + 2) / 2 = n * π := e
    exact key 2.8 (by norm_num) (by norm_num) n (by linarith)
  · have e' : (0 : ℝ) - (2 + 3.8) / 2 = n * π := e
    exact key 2.9 (by norm_num) (by norm_num) (-n) (by push_cast; linarith)
  · have e' : (2 : ℝ) - (3.8 + 0) / 2 = n * π := e
    exact key 0.1 (by norm_num) (by norm_num) n (by linarith)

/-- The first list of angles, for starting points on a circle of radius at most 3. -/
theorem script_angles {rho : ℝ} (h0 : 0 < rho) (h3 : rho ≤ 3) (inv : Fin 3 → Inversion)
    (hi : ∀ i, inversion ⟨⟨0, 0⟩, 3⟩ scriptThetas i = .ok (inv i)) :
    ∃ f : Fin 3 → ℝ, (∀ i, angleOf ((inv i).invert (.fin (start rho scriptThetas (i - 1)))) = .ok (f i)) ∧
      angles ⟨⟨0, 0⟩, 3⟩ rho scriptThetas 0 = .ok [f 0, f 1, f 2] := by
  have hf : ∀ i, ∃ a, angleOf ((inv i).invert (.fin (start rho scriptThetas (i - 1)))) = .ok a := by
    intro i
    have hall : ¬ allclose (inv i).pole (start rho scriptThetas (i - 1)) := by
      refine not_allclose_far h0 ?_ (start_on rho scriptThetas (i - 1))
      have e := hi i
      rw [inversion_eq (by norm_num) scriptThetas i (script_ne i)] at e
      rw [← Except.ok.inj e]
      dsimp only
      rw [pole_dist]
      have hm : pyMod (scriptThetas i - scriptThetas (i + 1)) π ≠ 0 := by
        rw [Ne, pyMod_eq_zero_iff pi_ne_zero]; push Not; exact script_ne i
      refine le_trans ?_ (half_far (by norm_num) (cos_half_ne_zero hm).1 ?_)
      · nlinarith
      · have := script_cos i
        nlinarith
    obtain ⟨N, hN, -⟩ := C24_invert (inv i) _ hall
    exact ⟨_, by rw [hN]; rfl⟩
  choose f hf using hf
  refine ⟨f, hf, ?_⟩
  have hv : (![inv 0, inv 1, inv 2] : Fin 3 → Inversion) = inv := by
    funext i; fin_cases i <;> rfl
  unfold angles
  rw [hi 0, Res.ok_bind, hi 1, Res.ok_bind, hi 2, Res.ok_bind, hv]
  show List.mapM _ [((inv 0).invert (.fin (start rho scriptThetas (0 - 1))), 0), ((inv 1).invert (.fin (start rho scriptThetas (1 - 1))), 1),
    ((inv 2).invert (.fin (start rho scriptThetas (2 - 1))), 2)] = _
  rw [List.mapM_cons, hf 0, Res.ok_bind, List.mapM_cons, hf 1, Res.ok_bind, List.mapM_cons, hf 2, Res.ok_bind]
  rfl

end HypTess

/-- **C104.** The data of the scripts (circle of radius 3, starting points on the unit circle): all three angles of the first depth are wrong, they differ
from the ones of the reflected vertices of the triangle of the figure. -/
theorem C104_script_counterexample :
    ∃ a0 a1 a2 b0 b1 b2 : ℝ, angles ⟨⟨0, 0⟩, 3⟩ 1 ![0, 2, 3.8] 0 = .ok [a0, a1, a2] ∧ angles ⟨⟨0, 0⟩, 3⟩ 3 ![0, 2, 3.8] 0 = .ok [b0, b1, b2] ∧
      a0 ≠ b0 ∧ a1 ≠ b1 ∧ a2 ≠ b2 := by
  have hR : (0 : ℝ) < 3 := by norm_num
  have hi := fun i => inversion_eq hR scriptThetas i (script_ne i)
  obtain ⟨f, hf, ef⟩ := script_angles one_pos (by norm_num) _ hi
  obtain ⟨g, hg, eg⟩ := script_angles hR le_rfl _ hi
  have hne : ∀ i, f i ≠ g i := by
    intro i e
    have h2 := hg i
    rw [← e] at h2
    rcases C104_same_angle hR scriptThetas i (script_ne i) (hi i) (hf i) h2 with h | ⟨n, h⟩
    · norm_num at h
    · exact script_off i n h
  exact ⟨_, _, _, _, _, _, ef, eg, hne 0, hne 1, hne 2⟩

/-- The corrected script: 24 points at the last depth `Ms[4]`. -/
example : ∃ l, angles ⟨⟨0, 0⟩, 3⟩ 3 ![0, 2, 3.8] 3 = .ok l ∧ l.length = 24 := by
  obtain ⟨-, -, l, hl, hlen, -⟩ := C104_corrected (R := 3) (by norm_num) scriptThetas script_ne (by
    intro i
    have := script_cos i
    nlinarith) 3
  exact ⟨l, hl, by rw [hlen]; norm_num⟩
