import Verif.Props.Exact
import Verif.Props.EllipseAngle
import Verif.Props.Ellipse2
import Verif.Props.MobiusFixed
import Verif.Props.Transforms2
import Verif.Props.Circle2

/-!
# Exact conditions, continued: C18, C36, C52, C60, C66, C69, C78

For claims that are false in general, the exact inputs for which they hold.
-/

open Spec Real Classical

/-! ## C52 -/

/-- C52, exactly when the claim holds: `fixed_points` returns exactly the fixed points iff `c = 0` and `a = d`, or `c ≠ 0`
and the discriminant is a nonnegative real number. -/
theorem C52_exact (f : Mobius) (h : Matrix.det f.M ≠ 0) :
    (∃ r, f.fixed_points = .ok r ∧ ∀ P, f.transform P = .ok P ↔ r.mem P) ↔
      (f.M 1 0 = 0 ∧ f.M 0 0 = f.M 1 1) ∨
      (f.M 1 0 ≠ 0 ∧ ∃ s : ℝ, 0 ≤ s ∧ (f.M 0 0 - f.M 1 1) ^ 2 + 4 * f.M 0 1 * f.M 1 0 = (s : ℂ)) := by
  refine ⟨fun ⟨r, hr, hm⟩ => ?_, C52_fixed_points_partial f h⟩
  by_cases hc : f.M 1 0 = 0
  · left
    refine ⟨hc, ?_⟩
    by_contra had
    obtain ⟨Q, e, hQ⟩ := C52_inf_missing_counterexample f h hc had
    rw [hr, Except.ok.injEq] at e
    subst e
    have := (hm .inf).1 ((hQ .inf).2 (Or.inr rfl))
    simp [Mobius.Fixed.mem] at this
  · right
    refine ⟨hc, ?_⟩
    by_cases hre : ((f.M 0 0 - f.M 1 1) ^ 2 + 4 * f.M 0 1 * f.M 1 0).re < 0
    · rw [C52_negative_counterexample f hc hre] at hr; simp at hr
    push Not at hre
    by_cases him : ((f.M 0 0 - f.M 1 1) ^ 2 + 4 * f.M 0 1 * f.M 1 0).im = 0
    · exact ⟨_, hre, (Complex.ext (by simp) (by simp [him]))⟩
    · obtain ⟨A, B, e, hA, -⟩ := C52_complex_counterexample f h hc him hre
      rw [hr, Except.ok.injEq] at e
      subst e
      exact absurd ((hm (.fin A)).2 (by simp [Mobius.Fixed.mem])) hA

/-! ## C69 and C78 -/

theorem ellipsePoint_opposite (O : Pt) (a b α t : ℝ) :
    ellipsePoint O a b α (t + π) + ellipsePoint O a b α t = O + O := by
  unfold ellipsePoint
  rw [cos_add_pi, sin_add_pi]
  ext <;> simp <;> ring

/-- Two points opposite with respect to `O` are not both on the same open ray from `O`. -/
theorem not_both_on_ray {O P Q : Pt} {φ l m : ℝ} (hs : P + Q = O + O) (hl : 0 < l) (hm : 0 < m)
    (hP : P = O + l • (⟨cos φ, sin φ⟩ : Pt)) (hQ : Q = O + m • (⟨cos φ, sin φ⟩ : Pt)) : False := by
  subst hP; subst hQ
  have hx := congrArg Pt.x hs
  have hy := congrArg Pt.y hs
  simp at hx hy
  have hcs := sin_sq_add_cos_sq φ
  have h1 : (l + m) * cos φ = 0 := by linarith
  have h2 : (l + m) * sin φ = 0 := by linarith
  have h3 : l + m ≠ 0 := by linarith
  have h4 := (mul_eq_zero.1 h1).resolve_left h3
  have h5 := (mul_eq_zero.1 h2).resolve_left h3
  rw [h4, h5] at hcs
  norm_num at hcs

/-- Between `π` and `π + sepsilon_` the number of half turns added by the code has the wrong parity. -/
theorem wrong_half_turns {θ u s : ℝ} (n : ℤ) (hn : θ = u + n * (2 * π)) (h1 : π < u) (h2 : u < π + sepsilon_)
    (hs : s = -sepsilon_) :
    0 < (-1 : ℝ) ^ (2 * n + 1) * sin u ∧ (θ + s) - pyMod (θ + s) π = ((2 * n : ℤ) : ℝ) * π := by
  have hε := sepsilon_pos
  have hε2 : sepsilon_ < 1 := by unfold sepsilon_; norm_num
  have hπ := pi_gt_three
  have hodd : ((-1 : ℝ) ^ (2 * n + 1)) = -1 := by
    rw [zpow_add₀ (by norm_num), zpow_mul]; norm_num
  constructor
  · rw [hodd]
    have := sin_neg_of_neg_of_neg_pi_lt (x := u - 2 * π) (by linarith) (by linarith)
    rw [sin_sub_two_pi] at this
    linarith
  · apply floor_pi
    · rw [hn, hs]; push_cast; linarith
    · rw [hn, hs]; push_cast; linarith

/-- C69, exactly when the claim holds: `theta2t` returns the eccentric angle of the point in the direction `theta` iff the
representative of `theta` in `[0, 2π)` is neither `0` nor in `(π, π + sepsilon_)`.  The angle `π`, for which the exact tangent is
`0` and the tangent of the nearest double is not, is left out. -/
theorem C69_exact (e : Ellipse) (he : e.Valid) (theta : ℝ) (degrees : Bool) (θ : ℝ)
    (hθ : θ = if degrees = true then theta * (π / 180) else theta) (hπ' : pyMod θ (2 * π) ≠ π) :
    (∃ t l : ℝ, e.theta2t theta degrees = .ok t ∧ 0 < l ∧
      ellipsePoint e.center e.rmajor e.rminor e.rad t = e.center + l • (⟨cos (e.rad + θ), sin (e.rad + θ)⟩ : Pt)) ↔
    pyMod θ (2 * π) ≠ 0 ∧ ¬ (π < pyMod θ (2 * π) ∧ pyMod θ (2 * π) < π + sepsilon_) := by
  have hε := sepsilon_pos
  have hε2 : sepsilon_ < 1 := by unfold sepsilon_; norm_num
  have hπ := pi_gt_three
  constructor
  · rintro ⟨t, l, ht, hl, hp⟩
    constructor
    · intro h0
      unfold Ellipse.theta2t at ht
      dsimp only at ht
      rw [← hθ, h0, if_pos sin_zero] at ht
      simp at ht
    · rintro ⟨a, b⟩
      obtain ⟨u, hu⟩ : ∃ u, u = pyMod θ (2 * π) := ⟨_, rfl⟩
      obtain ⟨n, hn⟩ : ∃ n : ℤ, θ = u + n * (2 * π) := ⟨⌊θ / (2 * π)⌋, by rw [hu]; unfold pyMod; ring⟩
      rw [← hu] at a b
      obtain ⟨k1, k2⟩ := wrong_half_turns (s := -1 * sepsilon_) n hn a b (by ring)
      obtain ⟨m, hm, hq⟩ := ecc_direction he.1 he.2 (2 * n + 1) k1 e.center e.rad
      have hsin : sin u ≠ 0 := by intro h; rw [h, mul_zero] at k1; exact lt_irrefl _ k1
      unfold Ellipse.theta2t at ht
      dsimp only at ht
      rw [← hθ, ← hu, if_neg hsin, if_neg (by linarith), add_sub_assoc, k2, Except.ok.injEq] at ht
      have hdir : cos (e.rad + θ) = cos (e.rad + u) ∧ sin (e.rad + θ) = sin (e.rad + u) := by
        rw [hn, ← add_assoc]
        exact ⟨cos_add_int_mul_two_pi _ _, sin_add_int_mul_two_pi _ _⟩
      rw [hdir.1, hdir.2] at hp
      refine not_both_on_ray ?_ hm hl hq hp
      rw [← ht, ← ellipsePoint_opposite e.center e.rmajor e.rminor e.rad]
      congr 2
      push_cast
      ring
  · rintro ⟨h0, h1⟩
    refine C69_theta2t_partial e he theta degrees θ hθ h0 ?_
    by_contra hc
    push Not at hc
    exact h1 ⟨lt_of_le_of_ne hc.1 (Ne.symm hπ'), hc.2⟩

/-- C78, exactly when the claim holds: `point_from_angle` returns a point in the direction `theta` iff the representative of
`theta` in `[0, 2π)` is not in `(π, π + sepsilon_)`; the angle `π` is left out as in `C69_exact`. -/
theorem C78_exact (e : Ellipse) (he : e.Valid) (theta : ℝ) (degrees : Bool) (θ : ℝ)
    (hθ : θ = if degrees = true then theta * (π / 180) else theta) (hπ' : pyMod θ (2 * π) ≠ π) :
    (∃ l : ℝ, 0 < l ∧ e.point_from_angle theta degrees = e.center + l • (⟨cos (e.rad + θ), sin (e.rad + θ)⟩ : Pt)) ↔
    ¬ (π < pyMod θ (2 * π) ∧ pyMod θ (2 * π) < π + sepsilon_) := by
  have hε := sepsilon_pos
  have hε2 : sepsilon_ < 1 := by unfold sepsilon_; norm_num
  have hπ := pi_gt_three
  constructor
  · rintro ⟨l, hl, hp⟩ ⟨a, b⟩
    obtain ⟨u, hu⟩ : ∃ u, u = pyMod θ (2 * π) := ⟨_, rfl⟩
    obtain ⟨n, hn⟩ : ∃ n : ℤ, θ = u + n * (2 * π) := ⟨⌊θ / (2 * π)⌋, by rw [hu]; unfold pyMod; ring⟩
    rw [← hu] at a b
    obtain ⟨k1, k2⟩ := wrong_half_turns (s := sepsilon_ * (2 * 0 - 1)) n hn a b (by ring)
    obtain ⟨m, hm, hq⟩ := ecc_direction he.1 he.2 (2 * n + 1) k1 e.center e.rad
    have hsin : sin u ≠ 0 := by intro h; rw [h, mul_zero] at k1; exact lt_irrefl _ k1
    have hdir : cos (e.rad + θ) = cos (e.rad + u) ∧ sin (e.rad + θ) = sin (e.rad + u) := by
      rw [hn, ← add_assoc]
      exact ⟨cos_add_int_mul_two_pi _ _, sin_add_int_mul_two_pi _ _⟩
    rw [hdir.1, hdir.2] at hp
    refine not_both_on_ray ?_ hm hl hq hp
    unfold Ellipse.point_from_angle Ellipse.np_arctan2_cot
    dsimp only
    rw [← hθ, ← hu, if_neg hsin, if_neg (by linarith), add_sub_assoc, k2, ellipse_point_eq,
      show (if e.degrees = true then e.alpha * (π / 180) else e.alpha) = e.rad from rfl,
      ← ellipsePoint_opposite e.center e.rmajor e.rminor e.rad]
    congr 2
    push_cast
    ring
  · intro h1
    refine C78_point_from_angle_partial e he theta degrees θ hθ ?_
    by_contra hc
    push Not at hc
    exact h1 ⟨lt_of_le_of_ne hc.1 (Ne.symm hπ'), hc.2⟩

/-- The hypothesis of `C69_exact` and `C78_exact` holds for the angle `π + sepsilon_ / 2`, which is in the excluded interval. -/
example : pyMod (π + sepsilon_ / 2) (2 * π) ≠ π ∧ π < pyMod (π + sepsilon_ / 2) (2 * π) ∧
    pyMod (π + sepsilon_ / 2) (2 * π) < π + sepsilon_ := by
  have hε := sepsilon_pos
  have hε2 : sepsilon_ < 1 := by unfold sepsilon_; norm_num
  have hπ := pi_gt_three
  rw [pyMod_eq_self (by linarith) (by linarith)]
  refine ⟨?_, by linarith, by linarith⟩
  intro h; linarith

/-! ## C66 -/

/-- C66, exactly when a returned ellipse is right: iff `A ≠ C` or `B = 0`. -/
theorem C66_exact (A B C D E F : ℝ) (ev : ℝ × ℝ) (hev : Ellipse.IsEigvals (Ellipse.eqMatrix A B C) ev)
    (e : Ellipse) (h : Ellipse.from_equation A B C D E F ev = .ok e) :
    (∀ P, OnE e P ↔ (Coeffs.mk A B C D E F).eval P = 0) ↔ A ≠ C ∨ B = 0 := by
  refine ⟨fun hP => ?_, fun hAC => (C66_from_equation_partial A B C D E F ev hev hAC e h).2.2⟩
  by_contra hn
  push Not at hn
  obtain ⟨hAC, hB⟩ := hn
  obtain ⟨g1, g2, N, a, b, hN, hNe, ha, hb, e1, e2, he⟩ := from_equation_ok h
  have hp : pyMod ((0 : ℝ) * 180 / π) 180 = 0 := by
    rw [zero_mul, zero_div]; exact pyMod_eq_self le_rfl (by norm_num)
  rw [if_pos hAC, hp] at he
  have hrad : e.rad = 0 := by rw [he]; simp [Ellipse.rad]
  have hcen : ∀ t, OnE e (e.center + (⟨e.rmajor * cos t, e.rminor * sin t⟩ : Pt)) := by
    intro t
    refine ⟨t, ?_⟩
    unfold ellipsePoint
    rw [hrad]
    ext <;> simp
  have hMa : e.rmajor ≠ 0 := by rw [he]; exact (lt_max_of_lt_left ha).ne'
  have hMi : e.rminor ≠ 0 := by rw [he]; exact (lt_min ha hb).ne'
  have q1 := (hP _).1 (hcen (π / 4))
  have q2 := (hP _).1 (hcen (π - π / 4))
  have q3 := (hP _).1 (hcen (π / 4 + π))
  have q4 := (hP _).1 (hcen (-(π / 4)))
  rw [cos_pi_sub, sin_pi_sub] at q2
  rw [cos_add_pi, sin_add_pi] at q3
  rw [cos_neg, sin_neg] at q4
  rw [cos_pi_div_four, sin_pi_div_four] at q1 q2 q3 q4
  obtain ⟨r, hr⟩ : ∃ r : ℝ, r = √2 / 2 := ⟨_, rfl⟩
  have hr0 : r ≠ 0 := by rw [hr]; positivity
  rw [← hr] at q1 q2 q3 q4
  unfold Coeffs.eval at q1 q2 q3 q4
  simp only [Pt.add_x, Pt.add_y] at q1 q2 q3 q4
  have : B * (e.rmajor * r) * (e.rminor * r) = 0 := by linarith
  simp [hB, hr0, hMa, hMi] at this

/-- An equation with negative discriminant, in terms of the value at the center. -/
theorem eval_center {A B C D E F : ℝ} (hΔ : 0 < 4 * A * C - B * B) (P : Pt) :
    4 * A * (Coeffs.mk A B C D E F).eval P =
      (2 * A * (P.x - (B * E - 2 * C * D) / (4 * A * C - B * B)) + B * (P.y - (B * D - 2 * A * E) / (4 * A * C - B * B))) ^ 2
      + (4 * A * C - B * B) * (P.y - (B * D - 2 * A * E) / (4 * A * C - B * B)) ^ 2
      - 4 * A * (Coeffs.mk A B C D E F).k / (4 * A * C - B * B) := by
  obtain ⟨Δ, hD⟩ : ∃ Δ, Δ = 4 * A * C - B * B := ⟨_, rfl⟩
  rw [← hD] at hΔ ⊢
  have := hΔ.ne'
  unfold Coeffs.eval Coeffs.k
  dsimp only
  field_simp
  rw [hD]
  ring

/-- C66, exactly when an ellipse is returned: for every result of `np.linalg.eigvals`, iff the equation is the equation of an
ellipse (negative discriminant and at least two points) and the third guard `D² + E² > 4(A+C)F` lets it through. -/
theorem C66_accepts_exact (A B C D E F : ℝ) (ev : ℝ × ℝ) (hev : Ellipse.IsEigvals (Ellipse.eqMatrix A B C) ev) :
    (∃ e, Ellipse.from_equation A B C D E F ev = .ok e) ↔
      B * B - 4 * A * C < 0 ∧ (∃ P Q, P ≠ Q ∧ (Coeffs.mk A B C D E F).eval P = 0 ∧ (Coeffs.mk A B C D E F).eval Q = 0) ∧
      4 * (A + C) * F < D * D + E * E := by
  obtain ⟨hs, hp⟩ := id hev
  have hs' : ev.1 + ev.2 = A + C := by rw [hs]; simp [Ellipse.eqMatrix]
  have hp' : ev.1 * ev.2 = A * C - B * B / 4 := by rw [hp]; simp [Ellipse.eqMatrix]; ring
  have real_iff : 0 < 4 * A * C - B * B →
      ((∃ P Q, P ≠ Q ∧ (Coeffs.mk A B C D E F).eval P = 0 ∧ (Coeffs.mk A B C D E F).eval Q = 0) ↔
        0 < A * (Coeffs.mk A B C D E F).k) := by
    intro hΔ
    have hA : A ≠ 0 := by rintro rfl; nlinarith [mul_self_nonneg B]
    obtain ⟨O, hO⟩ : ∃ O : Pt, O = ⟨(B * E - 2 * C * D) / (4 * A * C - B * B), (B * D - 2 * A * E) / (4 * A * C - B * B)⟩ := ⟨_, rfl⟩
    have ec : ∀ P, 4 * A * (Coeffs.mk A B C D E F).eval P = (2 * A * (P.x - O.x) + B * (P.y - O.y)) ^ 2
        + (4 * A * C - B * B) * (P.y - O.y) ^ 2 - 4 * (A * (Coeffs.mk A B C D E F).k) / (4 * A * C - B * B) := by
      intro P; rw [eval_center hΔ, hO]; ring
    generalize A * (Coeffs.mk A B C D E F).k = w at *
    constructor
    · rintro ⟨P, Q, hPQ, h1, h2⟩
      by_contra hw
      push Not at hw
      have hz : ∀ X : Pt, (Coeffs.mk A B C D E F).eval X = 0 → X = O := by
        intro X hX
        have e := ec X
        rw [hX, mul_zero] at e
        have hw' : 4 * w / (4 * A * C - B * B) ≤ 0 := div_nonpos_of_nonpos_of_nonneg (by linarith) hΔ.le
        have s1 := sq_nonneg (2 * A * (X.x - O.x) + B * (X.y - O.y))
        have s2 : 0 ≤ (4 * A * C - B * B) * (X.y - O.y) ^ 2 := by positivity
        have z2 : (4 * A * C - B * B) * (X.y - O.y) ^ 2 = 0 := by linarith
        have z1 : (2 * A * (X.x - O.x) + B * (X.y - O.y)) ^ 2 = 0 := by linarith
        have y0 : X.y - O.y = 0 := by
          have := (mul_eq_zero.1 z2).resolve_left hΔ.ne'
          exact pow_eq_zero_iff (by norm_num) |>.1 this
        have x0 := pow_eq_zero_iff (by norm_num) |>.1 z1
        rw [y0, mul_zero, add_zero] at x0
        have x1 : X.x - O.x = 0 := by
          rcases mul_eq_zero.1 x0 with h | h
          · exfalso; apply hA; linarith
          · exact h
        ext <;> linarith
      exact hPQ ((hz P h1).trans (hz Q h2).symm)
    · intro hw
      have hq : 0 < 4 * w / (4 * A * C - B * B) := by positivity
      have hs2 := Real.sq_sqrt hq.le
      have hs0 := Real.sqrt_pos.2 hq
      obtain ⟨s, hsd⟩ : ∃ s, s = √(4 * w / (4 * A * C - B * B)) := ⟨_, rfl⟩
      rw [← hsd] at hs2 hs0
      have hz : ∀ σ : ℝ, σ ^ 2 = 1 → (Coeffs.mk A B C D E F).eval ⟨O.x + σ * s / (2 * A), O.y⟩ = 0 := by
        intro σ hσ
        have e := ec ⟨O.x + σ * s / (2 * A), O.y⟩
        have : (2 * A * (O.x + σ * s / (2 * A) - O.x) + B * (O.y - O.y)) ^ 2 = s ^ 2 := by
          have : 2 * A * (O.x + σ * s / (2 * A) - O.x) + B * (O.y - O.y) = σ * s := by field_simp; ring
          rw [this, mul_pow, hσ, one_mul]
        dsimp only at e
        rw [this, hs2, sub_self O.y] at e
        have e' : 4 * A * (Coeffs.mk A B C D E F).eval ⟨O.x + σ * s / (2 * A), O.y⟩ = 0 := by rw [e]; ring
        rcases mul_eq_zero.1 e' with h | h
        · exfalso; apply hA; linarith
        · exact h
      refine ⟨_, _, ?_, hz 1 (by norm_num), hz (-1) (by norm_num)⟩
      intro heq
      have := congrArg Pt.x heq
      dsimp only at this
      have h3 : s / A = 0 := by
        have : s / A = 1 * s / (2 * A) - (-1) * s / (2 * A) := by field_simp; ring
        rw [this]; linarith
      rcases div_eq_zero_iff.1 h3 with h | h
      · linarith
      · exact hA h
  have hdM : Matrix.det !![A, B / 2; B / 2, C] = (4 * A * C - B * B) / 4 := by
    rw [Matrix.det_fin_two]; simp; ring
  have hN : -Matrix.det !![F, D / 2, E / 2; D / 2, A, B / 2; E / 2, B / 2, C] = Coeffs.k ⟨A, B, C, D, E, F⟩ / 4 := by
    rw [Matrix.det_fin_three]; unfold Coeffs.k; simp; ring
  have hQ : Matrix.det !![2 * A, B, D; B, 2 * C, E; D, E, 2 * F] = -2 * Coeffs.k ⟨A, B, C, D, E, F⟩ := by
    rw [Matrix.det_fin_three]; unfold Coeffs.k; simp; ring
  have same : 0 < 4 * A * C - B * B → 0 < A * ev.1 ∧ 0 < A * ev.2 := by
    intro hΔ
    have hpp : 0 < ev.1 * ev.2 := by rw [hp']; linarith
    have hAC : 0 < A * C := by nlinarith [mul_self_nonneg B]
    have hsum : 0 < A * (ev.1 + ev.2) := by rw [hs', mul_add]; nlinarith [mul_self_nonneg A]
    rcases mul_pos_iff.1 hpp with ⟨b1, b2⟩ | ⟨b1, b2⟩
    · have : 0 < A := by
        by_contra hn; push Not at hn
        nlinarith
      exact ⟨mul_pos this b1, mul_pos this b2⟩
    · have : A < 0 := by
        by_contra hn; push Not at hn
        nlinarith
      exact ⟨mul_pos_of_neg_of_neg this b1, mul_pos_of_neg_of_neg this b2⟩
  constructor
  · rintro ⟨e, h⟩
    obtain ⟨g1, g2, N, a, b, hN0, hNe, ha, hb, e1, e2, he⟩ := from_equation_ok h
    refine ⟨by linarith, ?_, ?_⟩
    · rw [real_iff g2]
      obtain ⟨s1, -⟩ := same g2
      have : A * (Coeffs.mk A B C D E F).k = (A * ev.1) * a ^ 2 * (4 * A * C - B * B) := by
        rw [mul_assoc A, e1, hNe]
        have := g2.ne'
        generalize 4 * A * C - B * B = Δ at *
        field_simp
      rw [this]
      positivity
    · unfold Ellipse.from_equation at h
      by_contra hn
      rw [if_pos (Or.inr (Or.inr (not_lt.1 hn)))] at h
      simp at h
  · rintro ⟨h1, h2, h3⟩
    have hΔ : 0 < 4 * A * C - B * B := by linarith
    rw [real_iff hΔ] at h2
    obtain ⟨s1, s2⟩ := same hΔ
    have hk0 : (Coeffs.mk A B C D E F).k ≠ 0 := by rintro h; rw [h, mul_zero] at h2; exact lt_irrefl _ h2
    have hA0 : A ≠ 0 := by rintro rfl; rw [zero_mul] at h2; exact lt_irrefl _ h2
    unfold Ellipse.from_equation
    rw [if_neg (by push Not; exact ⟨by nlinarith [mul_self_nonneg B], by linarith, h3⟩),
      if_neg (by rw [hQ]; intro h0; apply hk0; linarith)]
    dsimp only
    rw [hdM, hN]
    obtain ⟨k, hk⟩ : ∃ k, k = Coeffs.k ⟨A, B, C, D, E, F⟩ := ⟨_, rfl⟩
    rw [← hk] at h2 ⊢
    have hq : ∀ v, 0 < A * v → 0 < k / 4 / ((4 * A * C - B * B) / 4 * v) ∧ (4 * A * C - B * B) / 4 * v ≠ 0 := by
      intro v hv
      have hv0 : v ≠ 0 := by rintro rfl; rw [mul_zero] at hv; exact lt_irrefl _ hv
      constructor
      · have : k / 4 / ((4 * A * C - B * B) / 4 * v) = (A * k) / ((4 * A * C - B * B) * (A * v)) := by
          have := hΔ.ne'
          generalize 4 * A * C - B * B = Δ at *
          field_simp
        rw [this]
        positivity
      · have : (4 * A * C - B * B) / 4 ≠ 0 := by linarith
        exact mul_ne_zero this hv0
    obtain ⟨q1, n1⟩ := hq _ s1
    obtain ⟨q2, n2⟩ := hq _ s2
    unfold npDiv pySqrt mkEllipse
    rw [if_neg n1, Res.ok_bind, if_neg (not_lt.2 q1.le), Res.ok_bind, if_neg n2, Res.ok_bind,
      if_neg (not_lt.2 q2.le), Res.ok_bind]
    have r1 := Real.sqrt_pos.2 q1
    have r2 := Real.sqrt_pos.2 q2
    rw [if_neg (not_le.2 (lt_max_of_lt_left r1)), if_neg (not_le.2 (lt_min r1 r2))]
    exact ⟨_, rfl⟩

/-- The equation `-x² - xy - y² + 1 = 0` meets the conditions of `C66_accepts_exact`. -/
example : (1 : ℝ) * 1 - 4 * (-1) * (-1) < 0 ∧
    (∃ P Q, P ≠ Q ∧ (Coeffs.mk (-1) (-1) (-1) 0 0 1).eval P = 0 ∧ (Coeffs.mk (-1) (-1) (-1) 0 0 1).eval Q = 0) ∧
    4 * (-1 + -1) * (1 : ℝ) < 0 * 0 + 0 * 0 := by
  refine ⟨by norm_num, ⟨⟨1, 0⟩, ⟨0, 1⟩, by simp, ?_, ?_⟩, by norm_num⟩ <;> unfold Coeffs.eval <;> norm_num

/-! ## C60 -/

/-- C60, exactly when the vertex is fixed: iff it is the origin or the angle is zero (the vector being nonzero). -/
theorem C60_exact (Q w : Pt) (ratio angle : ℝ) (d : Bool) (s : Shear) (hs : mkShear Q w ratio angle d = .ok s)
    (hw : w ≠ ⟨0, 0⟩) : s.transformPt Q = .ok Q ↔ Q = ⟨0, 0⟩ ∨ angle = 0 := by
  constructor
  · intro h
    by_contra hn
    push Not at hn
    exact C60_vertex_counterexample Q w ratio angle d s hs hw hn.1 hn.2 h
  · obtain ⟨f, -, -, -, hf⟩ := C60_shear_partial Q w ratio angle d s hs hw
    exact hf

/-! ## C36 -/

/-- C36, exactly when the answer is right: it is wrong iff the triangle has a right angle and no obtuse angle. -/
theorem C36_exact (T : Triangle) :
    (T.is_acute ↔ 0 < dot (T.B - T.A) (T.C - T.A) ∧ 0 < dot (T.C - T.B) (T.A - T.B) ∧ 0 < dot (T.A - T.C) (T.B - T.C)) ↔
      ¬ ((Perp (T.B - T.A) (T.C - T.A) ∨ Perp (T.C - T.B) (T.A - T.B) ∨ Perp (T.A - T.C) (T.B - T.C)) ∧
        0 ≤ dot (T.B - T.A) (T.C - T.A) ∧ 0 ≤ dot (T.C - T.B) (T.A - T.B) ∧ 0 ≤ dot (T.A - T.C) (T.B - T.C)) := by
  rw [C36_is_acute_partial]
  unfold Perp
  generalize dot (T.B - T.A) (T.C - T.A) = x
  generalize dot (T.C - T.B) (T.A - T.B) = y
  generalize dot (T.A - T.C) (T.B - T.C) = z
  constructor
  · rintro h ⟨h1, h2⟩
    obtain ⟨a, b, c⟩ := h.1 h2
    rcases h1 with h1 | h1 | h1 <;> linarith
  · intro h
    constructor
    · rintro ⟨a, b, c⟩
      refine ⟨lt_of_le_of_ne a ?_, lt_of_le_of_ne b ?_, lt_of_le_of_ne c ?_⟩ <;> intro e <;> apply h
      · exact ⟨Or.inl e.symm, a, b, c⟩
      · exact ⟨Or.inr (Or.inl e.symm), a, b, c⟩
      · exact ⟨Or.inr (Or.inr e.symm), a, b, c⟩
    · rintro ⟨a, b, c⟩; exact ⟨a.le, b.le, c.le⟩

/-! ## C18 -/

theorem Res.bind_error_iff {α β : Type} {x : Res α} {f : α → Res β} {E : Err} :
    (x >>= f) = .error E ↔ x = .error E ∨ ∃ a, x = .ok a ∧ f a = .error E := by
  cases x with
  | error e => rw [Res.error_bind]; simp
  | ok a => rw [Res.ok_bind]; simp


/-- C18, exactly when the points are rejected as not interior: iff they are not allclose and one of them is at a distance at
least `r²` (and not `r`) from the center. -/
theorem C18_exact (c : Circle) (P1 P2 : Pt) (arc : Bool) :
    (c.orthogonal_through_two_points_in_circle P1 P2 arc =
        .error (.valueError "`P1` is not in the interior of the reference circle.") ↔
      ¬ allclose P1 P2 ∧ c.radius ^ 2 ≤ Spec.dist P1 c.center) ∧
    (c.orthogonal_through_two_points_in_circle P1 P2 arc =
        .error (.valueError "`P2` is not in the interior of the reference circle.") ↔
      ¬ allclose P1 P2 ∧ Spec.dist P1 c.center < c.radius ^ 2 ∧ c.radius ^ 2 ≤ Spec.dist P2 c.center) := by
  obtain ⟨E1, hE1⟩ : ∃ E1 : Err, E1 = .valueError "`P1` is not in the interior of the reference circle." := ⟨_, rfl⟩
  obtain ⟨E2, hE2⟩ : ∃ E2 : Err, E2 = .valueError "`P2` is not in the interior of the reference circle." := ⟨_, rfl⟩
  have rest : ∀ E : Err, E = E1 ∨ E = E2 → ¬ allclose P1 P2 → Spec.dist P1 c.center < c.radius ^ 2 →
      Spec.dist P2 c.center < c.radius ^ 2 → c.orthogonal_through_two_points_in_circle P1 P2 arc ≠ .error E := by
    intro E hE h0 h1 h2 h
    have hl : ∀ (P Q : Pt) (a b : Bool), mkLine P Q a b ≠ .error E := by
      intro P Q a b hh
      unfold mkLine at hh
      split_ifs at hh
      rcases hE with rfl | rfl <;> simp [hE1, hE2] at hh
    have hc : ∀ (P : Pt) (r : ℝ), mkCircle P r ≠ .error E := by
      intro P r hh
      unfold mkCircle at hh
      split_ifs at hh
      rcases hE with rfl | rfl <;> simp [hE1, hE2] at hh
    have ha : ∀ (P : Pt) (r a b : ℝ) (d : Bool), mkArc P r a b d ≠ .error E := by
      intro P r a b d hh
      unfold mkArc at hh
      split_ifs at hh
      rcases hE with rfl | rfl <;> simp [hE1, hE2] at hh
    have hp : ∀ (l : Line) (M : Pt), l.perpendicular M ≠ .error E := by
      intro l M hh
      unfold Line.perpendicular at hh
      dsimp only at hh
      split_ifs at hh
      · exact hl _ _ _ _ hh
      · split at hh
        · rcases hE with rfl | rfl <;> simp [hE1, hE2] at hh
        · exact hl _ _ _ _ hh
    unfold Circle.orthogonal_through_two_points_in_circle at h
    dsimp only at h
    rw [if_neg h0, distance_eq, distance_eq, if_neg (by rw [← sq]; exact not_le.2 h1),
      if_neg (by rw [← sq]; exact not_le.2 h2)] at h
    by_cases g : collinear_ c.center P1 P2
    · rw [if_pos g] at h
      rcases Res.bind_error_iff.1 h with h | ⟨_, _, h⟩
      · exact hl _ _ _ _ h
      · simp [pure, Except.pure] at h
    · rw [if_neg g] at h
      split at h
      · rcases Res.bind_error_iff.1 h with h | ⟨_, _, h⟩
        · exact hl _ _ _ _ h
        rcases Res.bind_error_iff.1 h with h | ⟨_, _, h⟩
        · exact hl _ _ _ _ h
        rcases Res.bind_error_iff.1 h with h | ⟨_, _, h⟩
        · exact hp _ _ h
        rcases Res.bind_error_iff.1 h with h | ⟨_, _, h⟩
        · exact hp _ _ h
        split at h
        · rcases hE with rfl | rfl <;> simp [hE1, hE2] at h
        by_cases harc : arc = true
        · rw [if_pos harc] at h
          rcases Res.bind_error_iff.1 h with h | ⟨_, _, h⟩
          · exact ha _ _ _ _ _ h
          · simp [pure, Except.pure] at h
        · rw [if_neg harc] at h
          rcases Res.bind_error_iff.1 h with h | ⟨_, _, h⟩
          · exact hc _ _ h
          · simp [pure, Except.pure] at h
      · rcases hE with rfl | rfl <;> simp [hE1, hE2] at h
  rw [← hE1, ← hE2]
  by_cases h0 : allclose P1 P2
  · have : c.orthogonal_through_two_points_in_circle P1 P2 arc = .error (.valueError "`P1` and `P2` must be distinct.") := by
      unfold Circle.orthogonal_through_two_points_in_circle; rw [if_pos h0]
    rw [this]
    simp [h0, hE1, hE2]
  by_cases h1 : Spec.dist P1 c.center < c.radius ^ 2
  · by_cases h2 : Spec.dist P2 c.center < c.radius ^ 2
    · constructor
      · exact ⟨fun h => absurd h (rest E1 (Or.inl rfl) h0 h1 h2), fun h => absurd h.2 (not_le.2 h1)⟩
      · exact ⟨fun h => absurd h (rest E2 (Or.inr rfl) h0 h1 h2), fun h => absurd h.2.2 (not_le.2 h2)⟩
    · have : c.orthogonal_through_two_points_in_circle P1 P2 arc = .error E2 := by
        unfold Circle.orthogonal_through_two_points_in_circle
        dsimp only
        rw [if_neg h0, distance_eq, distance_eq, if_neg (by rw [← sq]; exact not_le.2 h1),
          if_pos (by rw [← sq]; exact not_lt.1 h2), hE2]
      rw [this]
      simp [hE1, hE2, h0, h1, not_lt.1 h2]
  · have : c.orthogonal_through_two_points_in_circle P1 P2 arc = .error E1 := by
      unfold Circle.orthogonal_through_two_points_in_circle
      dsimp only
      rw [if_neg h0, distance_eq, if_pos (by rw [← sq]; exact not_lt.1 h1), hE1]
    rw [this]
    simp [hE1, hE2, h0, h1, not_lt.1 h1]

/-- The fixed points of `z ↦ 1 / z`, whose discriminant 4 is a nonnegative real number, are found; those of `z ↦ -1 / z`,
with the discriminant -4, are not. -/
example : (∃ r, (⟨!![0, 1; 1, 0]⟩ : Mobius).fixed_points = .ok r ∧
      ∀ P, (⟨!![0, 1; 1, 0]⟩ : Mobius).transform P = .ok P ↔ r.mem P) ∧
    ¬ ∃ r, (⟨!![0, -1; 1, 0]⟩ : Mobius).fixed_points = .ok r ∧
      ∀ P, (⟨!![0, -1; 1, 0]⟩ : Mobius).transform P = .ok P ↔ r.mem P := by
  constructor
  · exact (C52_exact _ (by rw [Matrix.det_fin_two]; norm_num)).2 (Or.inr ⟨by norm_num, 4, by norm_num, by norm_num⟩)
  · rw [C52_exact _ (by rw [Matrix.det_fin_two]; norm_num)]
    rintro (⟨h, -⟩ | ⟨-, s, hs, h⟩)
    · norm_num at h
    · have := congrArg Complex.re h
      norm_num at this
      linarith

/-- `theta2t` fails at the angle 0 for every ellipse, and is right at a quarter turn. -/
example (e : Ellipse) (he : e.Valid) : (¬ ∃ t l : ℝ, e.theta2t 0 false = .ok t ∧ 0 < l ∧
      ellipsePoint e.center e.rmajor e.rminor e.rad t = e.center + l • (⟨cos (e.rad + 0), sin (e.rad + 0)⟩ : Pt)) ∧
    ∃ t l : ℝ, e.theta2t (π / 2) false = .ok t ∧ 0 < l ∧
      ellipsePoint e.center e.rmajor e.rminor e.rad t =
        e.center + l • (⟨cos (e.rad + π / 2), sin (e.rad + π / 2)⟩ : Pt) := by
  have hp := pi_pos
  have m0 : pyMod 0 (2 * π) = 0 := by unfold pyMod; simp
  have m1 : pyMod (π / 2) (2 * π) = π / 2 := by
    unfold pyMod
    have : ⌊π / 2 / (2 * π)⌋ = 0 := by
      rw [Int.floor_eq_zero_iff]
      constructor
      · positivity
      · rw [div_lt_one (by positivity)]; linarith
    rw [this]; simp
  constructor
  · rw [C69_exact e he 0 false 0 (by simp) (by rw [m0]; exact hp.ne)]
    rintro ⟨h, -⟩
    exact h m0
  · rw [C69_exact e he (π / 2) false (π / 2) (by simp) (by rw [m1]; linarith), m1]
    exact ⟨by positivity, fun h => by linarith [h.1]⟩

/-- The equation `x² + x y + y² = 1` with `A = C` and `B ≠ 0` does not give its ellipse, whatever is returned;
`x² + x y + 2 y² = 1` does. -/
example (e : Ellipse) (ev : ℝ × ℝ) :
    (Ellipse.IsEigvals (Ellipse.eqMatrix 1 1 1) ev → Ellipse.from_equation 1 1 1 0 0 (-1) ev = .ok e →
      ¬ ∀ P, OnE e P ↔ (Coeffs.mk 1 1 1 0 0 (-1)).eval P = 0) ∧
    (Ellipse.IsEigvals (Ellipse.eqMatrix 1 1 2) ev → Ellipse.from_equation 1 1 2 0 0 (-1) ev = .ok e →
      ∀ P, OnE e P ↔ (Coeffs.mk 1 1 2 0 0 (-1)).eval P = 0) := by
  constructor
  · intro h1 h2
    rw [C66_exact _ _ _ _ _ _ ev h1 e h2]
    norm_num
  · intro h1 h2
    exact (C66_exact _ _ _ _ _ _ ev h1 e h2).2 (Or.inl (by norm_num))

/-- The shear of vertex `(1, 0)` moves its vertex. -/
example (s : Shear) (hs : mkShear ⟨1, 0⟩ ⟨1, 0⟩ 1 45 true = .ok s) : s.transformPt ⟨1, 0⟩ ≠ .ok ⟨1, 0⟩ := by
  rw [ne_eq, C60_exact _ _ _ _ _ s hs (by simp)]
  norm_num

/-- `is_acute` is right for the triangle `(0, 0), (4, 0), (2, 3)` and wrong for the right triangle `(0, 0), (1, 0), (0, 1)`. -/
example : (let T : Triangle := ⟨⟨0, 0⟩, ⟨4, 0⟩, ⟨2, 3⟩⟩
      T.is_acute ↔ 0 < dot (T.B - T.A) (T.C - T.A) ∧ 0 < dot (T.C - T.B) (T.A - T.B) ∧ 0 < dot (T.A - T.C) (T.B - T.C)) ∧
    ¬ (let T : Triangle := ⟨⟨0, 0⟩, ⟨1, 0⟩, ⟨0, 1⟩⟩
      T.is_acute ↔ 0 < dot (T.B - T.A) (T.C - T.A) ∧ 0 < dot (T.C - T.B) (T.A - T.B) ∧ 0 < dot (T.A - T.C) (T.B - T.C)) := by
  constructor
  · rw [C36_exact]; norm_num [Perp, dot]
  · rw [C36_exact]; norm_num [Perp, dot]

/-- With the radius 1/2 the comparison is with 1/4: a point at the distance 3/10 is refused. -/
example : (⟨⟨0, 0⟩, 1 / 2⟩ : Circle).orthogonal_through_two_points_in_circle ⟨3 / 10, 0⟩ ⟨0, 1 / 10⟩ true =
    .error (.valueError "`P1` is not in the interior of the reference circle.") := by
  rw [(C18_exact _ _ _ _).1]
  have : Spec.dist (⟨3 / 10, 0⟩ : Pt) ⟨0, 0⟩ = 3 / 10 := by
    rw [dist_eq_iff (by norm_num)]; norm_num [sqDist]
  refine ⟨by unfold allclose npClose; norm_num [abs_of_pos], ?_⟩
  show (1 / 2 : ℝ) ^ 2 ≤ Spec.dist (⟨3 / 10, 0⟩ : Pt) ⟨0, 0⟩
  rw [this]
  norm_num
