import Verif.Props.TestSuite2
import Verif.Props.Exact2
import Verif.Props.Exact6
import Verif.Props.Ellipse2

/-!
# C113, end: tests/test_Ellipse.py, test_Rotation.py, test_Scaling.py

As in TestSuite.lean, each theorem states the assertions of a test for all the inputs for which they hold; the example after it is the test itself.  The
conditions of C66 and C79 are first put in terms of the centre, the semi-axes and the angle.
-/

open Spec Real Classical

namespace Tests

/-- The third guard of `from_equation`, in terms of the ellipse. -/
theorem guard_iff (e : Ellipse) (he : e.Valid) :
    4 * (e.equation.A + e.equation.C) * e.equation.F < e.equation.D * e.equation.D + e.equation.E * e.equation.E ↔
      e.center.x ^ 2 + e.center.y ^ 2 < e.rmajor ^ 2 + e.rminor ^ 2 := by
  obtain ⟨ha, hb⟩ := he
  have hcs := sin_sq_add_cos_sq e.rad
  have key : e.equation.D * e.equation.D + e.equation.E * e.equation.E - 4 * (e.equation.A + e.equation.C) * e.equation.F =
      4 * (e.rmajor ^ 2 * e.rminor ^ 2) * (e.rmajor ^ 2 + e.rminor ^ 2 - (e.center.x ^ 2 + e.center.y ^ 2)) := by
    unfold Ellipse.equation
    dsimp only
    rw [show (if e.degrees = true then e.alpha * (π / 180) else e.alpha) = e.rad from rfl]
    obtain ⟨s, hs⟩ : ∃ s, s = sin e.rad := ⟨_, rfl⟩
    obtain ⟨c, hc⟩ : ∃ c, c = cos e.rad := ⟨_, rfl⟩
    obtain ⟨p, hp⟩ : ∃ p, p = e.rmajor ^ 2 := ⟨_, rfl⟩
    obtain ⟨q, hq⟩ : ∃ q, q = e.rminor ^ 2 := ⟨_, rfl⟩
    rw [← hs, ← hc] at hcs ⊢
    rw [← hp, ← hq]
    have hc2 : c ^ 2 = 1 - s ^ 2 := by linarith
    linear_combination (4 * (q - p) ^ 2 * s ^ 2 * (e.center.x ^ 2 + e.center.y ^ 2)) * hc2
  have hpos : 0 < 4 * (e.rmajor ^ 2 * e.rminor ^ 2) := by positivity
  constructor
  · intro h
    by_contra hn
    have : 4 * (e.rmajor ^ 2 * e.rminor ^ 2) * (e.rmajor ^ 2 + e.rminor ^ 2 - (e.center.x ^ 2 + e.center.y ^ 2)) ≤ 0 :=
      mul_nonpos_of_nonneg_of_nonpos hpos.le (by linarith)
    linarith
  · intro h
    have : 0 < 4 * (e.rmajor ^ 2 * e.rminor ^ 2) * (e.rmajor ^ 2 + e.rminor ^ 2 - (e.center.x ^ 2 + e.center.y ^ 2)) := mul_pos hpos (by linarith)
    linarith

/-- The coefficients for which the angle is found, in terms of the ellipse. -/
theorem angle_iff (e : Ellipse) (he : e.Valid) :
    (e.equation.A ≠ e.equation.C ∨ e.equation.B = 0) ↔ e.rmajor = e.rminor ∨ cos (2 * e.rad) ≠ 0 := by
  obtain ⟨ha, hb⟩ := he
  have hcs := sin_sq_add_cos_sq e.rad
  have e1 : e.equation.A - e.equation.C = -(e.rmajor ^ 2 - e.rminor ^ 2) * cos (2 * e.rad) := by
    unfold Ellipse.equation
    dsimp only
    rw [show (if e.degrees = true then e.alpha * (π / 180) else e.alpha) = e.rad from rfl, cos_two_mul]
    linear_combination (-2 * (e.rmajor ^ 2 - e.rminor ^ 2)) * (-hcs)
  have e2 : e.equation.B = -(e.rmajor ^ 2 - e.rminor ^ 2) * sin (2 * e.rad) := by
    unfold Ellipse.equation
    dsimp only
    rw [show (if e.degrees = true then e.alpha * (π / 180) else e.alpha) = e.rad from rfl, sin_two_mul]
    ring
  have h0 : e.rmajor ^ 2 - e.rminor ^ 2 = 0 ↔ e.rmajor = e.rminor := by
    rw [sub_eq_zero, pow_left_inj₀ ha.le hb.le two_ne_zero]
  have hs := sin_sq_add_cos_sq (2 * e.rad)
  rw [← sub_ne_zero, e1, e2, ← h0]
  constructor
  · intro h
    by_contra hn
    push Not at hn
    obtain ⟨n1, n2⟩ := hn
    rw [n2] at h hs
    rcases h with h | h
    · simp at h
    · rcases mul_eq_zero.1 h with h | h
      · exact n1 (by linarith)
      · rw [h] at hs; norm_num at hs
  · rintro (h | h)
    · right; rw [h]; ring
    · by_cases h1 : e.rmajor ^ 2 - e.rminor ^ 2 = 0
      · right; rw [h1]; ring
      · left; exact mul_ne_zero (neg_ne_zero.2 h1) h

/-- What `from_equation` returns is an ellipse with the greater semi-axis first. -/
theorem from_equation_order {A B C D E F : ℝ} {ev : ℝ × ℝ} {e : Ellipse} (h : Ellipse.from_equation A B C D E F ev = .ok e) :
    e.Valid ∧ e.rminor ≤ e.rmajor := by
  obtain ⟨-, -, N, a, b, -, -, ha, hb, -, -, he⟩ := from_equation_ok h
  rw [he]
  exact ⟨⟨lt_max_of_lt_left ha, lt_min ha hb⟩, min_le_max⟩

/-- Two ellipses with the same points, the first one not circular, both with the greater semi-axis first, are equal for `is_equal`. -/
theorem same (e f : Ellipse) (he : e.Valid) (hf : f.Valid) (hne : e.rminor < e.rmajor) (hnf : f.rminor ≤ f.rmajor) (h : ∀ P, OnE e P ↔ OnE f P) :
    e.is_equal f := by
  rcases hnf.lt_or_eq with h1 | h1
  · exact C77_is_equal_partial e f he hf hne h1 h
  · exfalso
    obtain ⟨-, k1, k2, -⟩ := ellipse_params0 he hf fun P => (h P).1
    have hcs := sin_sq_add_cos_sq (e.rad - f.rad)
    obtain ⟨a1, b1⟩ := he
    obtain ⟨a2, b2⟩ := hf
    rw [← h1] at k1 k2
    have r1 : e.rmajor = f.rminor := by
      apply (pow_left_inj₀ a1.le b2.le two_ne_zero).1
      apply mul_left_cancel₀ (show f.rminor ^ 2 ≠ 0 by positivity)
      linear_combination k1 - e.rmajor ^ 2 * f.rminor ^ 2 * hcs
    have r2 : e.rminor = f.rminor := by
      apply (pow_left_inj₀ b1.le b2.le two_ne_zero).1
      apply mul_left_cancel₀ (show f.rminor ^ 2 ≠ 0 by positivity)
      linear_combination k2 - e.rminor ^ 2 * f.rminor ^ 2 * hcs
    linarith

/-- The greater semi-axes of ellipses with the same points, when the axes are given in the same order. -/
theorem same_order (e f : Ellipse) (he : e.Valid) (hf : f.Valid) (h : ∀ P, OnE e P ↔ OnE f P) (hm : e.rmajor = f.rmajor) : e.rminor = f.rminor := by
  obtain ⟨-, k1, k2, -⟩ := ellipse_params0 he hf fun P => (h P).1
  have hcs := sin_sq_add_cos_sq (e.rad - f.rad)
  obtain ⟨a1, b1⟩ := he
  obtain ⟨a2, b2⟩ := hf
  rw [hm] at k1
  have hp : f.rmajor ^ 2 ≠ 0 := by positivity
  apply (pow_left_inj₀ b1.le b2.le two_ne_zero).1
  have k1' : f.rminor ^ 2 * cos (e.rad - f.rad) ^ 2 + f.rmajor ^ 2 * sin (e.rad - f.rad) ^ 2 = f.rminor ^ 2 := mul_left_cancel₀ hp k1
  have k2' : f.rminor ^ 2 * sin (e.rad - f.rad) ^ 2 + f.rmajor ^ 2 * cos (e.rad - f.rad) ^ 2 = f.rmajor ^ 2 := by
    linear_combination (f.rminor ^ 2 + f.rmajor ^ 2) * hcs - k1'
  rw [k2'] at k2
  exact mul_right_cancel₀ hp (k2.trans (mul_comm _ _))

end Tests

/-- C66, the exact condition in terms of the ellipse: its equation is accepted by `from_equation` exactly when the centre is nearer to the origin than
`sqrt(a² + b²)`, and the ellipse is then recovered exactly when it is a circle or its axes are not the bisectors of the coordinate axes. -/
theorem C66_geometric (e : Ellipse) (he : e.Valid) (ev : ℝ × ℝ)
    (hev : Ellipse.IsEigvals (Ellipse.eqMatrix e.equation.A e.equation.B e.equation.C) ev) :
    ((∃ e', Ellipse.from_equation e.equation.A e.equation.B e.equation.C e.equation.D e.equation.E e.equation.F ev = .ok e') ↔
      e.center.x ^ 2 + e.center.y ^ 2 < e.rmajor ^ 2 + e.rminor ^ 2) ∧
    ∀ e', Ellipse.from_equation e.equation.A e.equation.B e.equation.C e.equation.D e.equation.E e.equation.F ev = .ok e' →
      ((∀ P, OnE e' P ↔ OnE e P) ↔ e.rmajor = e.rminor ∨ cos (2 * e.rad) ≠ 0) := by
  rw [← Tests.guard_iff e he, ← Tests.angle_iff e he]
  refine ⟨⟨fun h => ((C66_accepts_exact _ _ _ _ _ _ ev hev).1 h).2.2, fun h => ?_⟩, fun e' h => ?_⟩
  · obtain ⟨e', h', -⟩ := C66_accepts_partial e he ev hev h
    exact ⟨e', h'⟩
  · rw [← C66_exact _ _ _ _ _ _ ev hev e' h]
    refine forall_congr' fun P => ?_
    rw [show (Coeffs.mk e.equation.A e.equation.B e.equation.C e.equation.D e.equation.E e.equation.F).eval P = e.equation.eval P from rfl,
      (C64_equation e he P).1]

/-- The ellipse of center `(1, 1)`, semi-axes 2 and 1 and angle 0 is recovered from its equation; with the center `(3, 0)` it is rejected. -/
example (ev ev' : ℝ × ℝ)
    (hev : Ellipse.IsEigvals (Ellipse.eqMatrix (⟨⟨1, 1⟩, 2, 1, 0, false⟩ : Ellipse).equation.A (⟨⟨1, 1⟩, 2, 1, 0, false⟩ : Ellipse).equation.B
      (⟨⟨1, 1⟩, 2, 1, 0, false⟩ : Ellipse).equation.C) ev)
    (hev' : Ellipse.IsEigvals (Ellipse.eqMatrix (⟨⟨3, 0⟩, 2, 1, 0, false⟩ : Ellipse).equation.A (⟨⟨3, 0⟩, 2, 1, 0, false⟩ : Ellipse).equation.B
      (⟨⟨3, 0⟩, 2, 1, 0, false⟩ : Ellipse).equation.C) ev') :
    (∃ e', Ellipse.from_equation (⟨⟨1, 1⟩, 2, 1, 0, false⟩ : Ellipse).equation.A (⟨⟨1, 1⟩, 2, 1, 0, false⟩ : Ellipse).equation.B
      (⟨⟨1, 1⟩, 2, 1, 0, false⟩ : Ellipse).equation.C (⟨⟨1, 1⟩, 2, 1, 0, false⟩ : Ellipse).equation.D (⟨⟨1, 1⟩, 2, 1, 0, false⟩ : Ellipse).equation.E
      (⟨⟨1, 1⟩, 2, 1, 0, false⟩ : Ellipse).equation.F ev = .ok e' ∧ ∀ P, OnE e' P ↔ OnE ⟨⟨1, 1⟩, 2, 1, 0, false⟩ P) ∧
    ¬ ∃ e', Ellipse.from_equation (⟨⟨3, 0⟩, 2, 1, 0, false⟩ : Ellipse).equation.A (⟨⟨3, 0⟩, 2, 1, 0, false⟩ : Ellipse).equation.B
      (⟨⟨3, 0⟩, 2, 1, 0, false⟩ : Ellipse).equation.C (⟨⟨3, 0⟩, 2, 1, 0, false⟩ : Ellipse).equation.D (⟨⟨3, 0⟩, 2, 1, 0, false⟩ : Ellipse).equation.E
      (⟨⟨3, 0⟩, 2, 1, 0, false⟩ : Ellipse).equation.F ev' = .ok e' := by
  constructor
  · obtain ⟨h1, h2⟩ := C66_geometric ⟨⟨1, 1⟩, 2, 1, 0, false⟩ (by constructor <;> norm_num) ev hev
    obtain ⟨e', he⟩ := h1.2 (by norm_num)
    exact ⟨e', he, (h2 e' he).2 (.inr (by simp [Ellipse.rad]))⟩
  · rw [(C66_geometric ⟨⟨3, 0⟩, 2, 1, 0, false⟩ (by constructor <;> norm_num) ev' hev').1]
    norm_num

/-- C79, the exact condition in terms of the ellipse: from five of its points the same as from its equation. -/
theorem C79_geometric (e : Ellipse) (he : e.Valid) (P : Fin 5 → Pt) (hinj : Function.Injective P) (hP : ∀ i, OnE e (P i)) (eigvals : ℝ × ℝ)
    (hev : ∀ q, Ellipse.equation_from_five_points P = .ok q → Ellipse.IsEigvals (Ellipse.eqMatrix q.A q.B q.C) eigvals) :
    ((∃ e', Ellipse.from_five_points P eigvals = .ok e') ↔ e.center.x ^ 2 + e.center.y ^ 2 < e.rmajor ^ 2 + e.rminor ^ 2) ∧
    ∀ e', Ellipse.from_five_points P eigvals = .ok e' → ((∀ X, OnE e' X ↔ OnE e X) ↔ e.rmajor = e.rminor ∨ cos (2 * e.rad) ≠ 0) := by
  rw [← Tests.guard_iff e he, ← Tests.angle_iff e he]
  exact C79_exact e he P hinj hP eigvals hev

/-- For five points of an ellipse whose center is far from the origin the constructor raises. -/
example (P : Fin 5 → Pt) (hinj : Function.Injective P) (hP : ∀ i, OnE ⟨⟨10, 0⟩, 2, 1, 0, true⟩ (P i)) (eigvals : ℝ × ℝ)
    (hev : ∀ q, Ellipse.equation_from_five_points P = .ok q → Ellipse.IsEigvals (Ellipse.eqMatrix q.A q.B q.C) eigvals) :
    ∀ e', Ellipse.from_five_points P eigvals ≠ .ok e' := by
  intro e' h
  have := (C79_geometric ⟨⟨10, 0⟩, 2, 1, 0, true⟩ (by constructor <;> norm_num) P hinj hP eigvals hev).1.1 ⟨e', h⟩
  norm_num at this

/-- An angle for which the ellipse of the tests is recovered. -/
theorem Tests.cos_ne_zero (m : ℤ) (hm : m % 90 ≠ 0 ∨ m % 180 = 0) : cos ((m : ℝ) * (π / 180)) ≠ 0 := by
  intro h
  obtain ⟨k, hk⟩ := cos_eq_zero_iff.1 h
  have hπ := pi_ne_zero
  have : (m : ℝ) = (2 * k + 1) * 90 := by
    field_simp at hk
    linarith
  have h' : m = (2 * k + 1) * 90 := by exact_mod_cast this
  omega

/-- C113, test_ellipse_equation: `from_equation` of the equation of a non-circular ellipse, not too far from the origin and not along a bisector of the
axes, is an ellipse equal to it. -/
theorem C113_ellipse_equation (e : Ellipse) (he : e.Valid) (hne : e.rminor < e.rmajor)
    (hO : e.center.x ^ 2 + e.center.y ^ 2 < e.rmajor ^ 2 + e.rminor ^ 2) (hα : cos (2 * e.rad) ≠ 0) (ev : ℝ × ℝ)
    (hev : Ellipse.IsEigvals (Ellipse.eqMatrix e.equation.A e.equation.B e.equation.C) ev) :
    ∃ e', Ellipse.from_equation e.equation.A e.equation.B e.equation.C e.equation.D e.equation.E e.equation.F ev = .ok e' ∧ e.is_equal e' := by
  obtain ⟨g1, g2⟩ := C66_geometric e he ev hev
  obtain ⟨e', h⟩ := g1.2 hO
  obtain ⟨k1, k2, -⟩ := C66_from_equation_partial _ _ _ _ _ _ ev hev ((Tests.angle_iff e he).2 (Or.inr hα)) e' h
  exact ⟨e', h, Tests.same e e' he k1 hne k2 fun P => ((g2 e' h).2 (Or.inr hα) P).symm⟩

/-- test_ellipse_equation: the ellipse of the test; the squared distance of the centre is 25 and the limit 26. -/
example (ev : ℝ × ℝ) (hev : Ellipse.IsEigvals (Ellipse.eqMatrix (⟨⟨4, 3⟩, 5, 1, 100, true⟩ : Ellipse).equation.A
    (⟨⟨4, 3⟩, 5, 1, 100, true⟩ : Ellipse).equation.B (⟨⟨4, 3⟩, 5, 1, 100, true⟩ : Ellipse).equation.C) ev) :
    ∃ e', Ellipse.from_equation (⟨⟨4, 3⟩, 5, 1, 100, true⟩ : Ellipse).equation.A (⟨⟨4, 3⟩, 5, 1, 100, true⟩ : Ellipse).equation.B
      (⟨⟨4, 3⟩, 5, 1, 100, true⟩ : Ellipse).equation.C (⟨⟨4, 3⟩, 5, 1, 100, true⟩ : Ellipse).equation.D
      (⟨⟨4, 3⟩, 5, 1, 100, true⟩ : Ellipse).equation.E (⟨⟨4, 3⟩, 5, 1, 100, true⟩ : Ellipse).equation.F ev = .ok e' ∧
      (⟨⟨4, 3⟩, 5, 1, 100, true⟩ : Ellipse).is_equal e' := by
  refine C113_ellipse_equation _ ⟨by norm_num, by norm_num⟩ (by norm_num) (by norm_num) ?_ ev hev
  have := Tests.cos_ne_zero 200 (by norm_num)
  simp only [Ellipse.rad, if_true]
  convert this using 2
  push_cast
  ring

/-- C113, test_affine_transforms_ellipse: the images of the points of the path are included in the transformed ellipse. -/
theorem C113_affine_ellipse (f : Affine) (hf : Function.Bijective f.transform) (e : Ellipse) (he : e.Valid) (n : ℤ) (hn : 0 < n) :
    ∃ e1 pts, f.transform_ellipse (.ell e) = .ok (some e1) ∧ e.path n = .ok pts ∧ (pts.length : ℤ) = n ∧ ∀ P ∈ pts, e1.includes (f.transform P) := by
  obtain ⟨e1, h1, v, -, -, -, -, h2, -⟩ := (C47_transform_ellipse f (.ell e) he).2 hf
  obtain ⟨pts, p1, p2, p3, -⟩ := (C64_path e n).2 hn
  exact ⟨e1, pts, h1, p1, p2, fun P hP => (C64_includes e1 v _ ((h2 P).1 (p3 P hP))).1⟩

/-- test_affine_transforms_ellipse: the map of the test is one-to-one. -/
example : Function.Bijective (⟨!![3.5, 2; 0, 4], ⟨-1, 1.25⟩⟩ : Affine).transform ∧ (⟨⟨1, 1⟩, 5, 2, 30, true⟩ : Ellipse).Valid := by
  refine ⟨(C45_inverse _).2.1.2 (by norm_num), by norm_num, by norm_num⟩

/-- C113, test_ellipse_random_on, test_ellipse_random_in: the random points are included, respectively contained, when no normal draw is zero. -/
theorem C113_ellipse_random (e : Ellipse) (he : e.Valid) (g : Gen) (hg : g.Valid) (n : ℤ) (hn : 0 < n) (hz : ∀ j, g.normal n.toNat j ≠ ⟨0, 0⟩) :
    (∃ pts, e.random_points g n "on" = .ok pts ∧ (pts.length : ℤ) = n ∧ ∀ P ∈ pts, e.includes P) ∧
    (∃ pts, e.random_points g n "in" = .ok pts ∧ (pts.length : ℤ) = n ∧ ∀ P ∈ pts, e.contains P) := by
  obtain ⟨h1, h2⟩ := C72_ellipse_exact e he g hg n hn
  obtain ⟨l1, a1, b1, c1⟩ := h1.2 hz
  obtain ⟨l2, a2, b2, c2⟩ := h2.2 hz
  exact ⟨⟨l1, a1, b1, fun P hP => (C64_includes e he P (c1 P hP)).1⟩, ⟨l2, a2, b2, fun P hP => (C64_contains e he P).2 (c2 P hP)⟩⟩

example : (⟨⟨4, 3⟩, 5, 1, 100, true⟩ : Ellipse).Valid := ⟨by norm_num, by norm_num⟩

/-- C113, test_ellipse_from_five_points: five different points of a non-circular ellipse, not too far from the origin and not along a bisector of the
axes, give an ellipse equal to it. -/
theorem C113_five_points (e : Ellipse) (he : e.Valid) (hne : e.rminor < e.rmajor) (hO : e.center.x ^ 2 + e.center.y ^ 2 < e.rmajor ^ 2 + e.rminor ^ 2)
    (hα : cos (2 * e.rad) ≠ 0) (P : Fin 5 → Pt) (hinj : Function.Injective P) (hP : ∀ i, OnE e (P i)) (eigvals : ℝ × ℝ)
    (hev : ∀ q, Ellipse.equation_from_five_points P = .ok q → Ellipse.IsEigvals (Ellipse.eqMatrix q.A q.B q.C) eigvals) :
    ∃ e', Ellipse.from_five_points P eigvals = .ok e' ∧ e.is_equal e' := by
  obtain ⟨g1, g2⟩ := C79_geometric e he P hinj hP eigvals hev
  obtain ⟨e', h⟩ := g1.2 hO
  have h' := h
  unfold Ellipse.from_five_points at h'
  obtain ⟨q, -, hq⟩ := Res.bind_ok.1 h'
  obtain ⟨k1, k2⟩ := Tests.from_equation_order hq
  exact ⟨e', h, Tests.same e e' he k1 hne k2 fun X => ((g2 e' h).2 (Or.inr hα) X).symm⟩

/-- test_ellipse_from_five_points: the ellipse of the test. -/
example (P : Fin 5 → Pt) (hinj : Function.Injective P) (hP : ∀ i, OnE ⟨⟨2, 3⟩, 5, 4, 50, true⟩ (P i)) (eigvals : ℝ × ℝ)
    (hev : ∀ q, Ellipse.equation_from_five_points P = .ok q → Ellipse.IsEigvals (Ellipse.eqMatrix q.A q.B q.C) eigvals) :
    ∃ e', Ellipse.from_five_points P eigvals = .ok e' ∧ (⟨⟨2, 3⟩, 5, 4, 50, true⟩ : Ellipse).is_equal e' := by
  refine C113_five_points _ ⟨by norm_num, by norm_num⟩ (by norm_num) (by norm_num) ?_ P hinj hP eigvals hev
  have := Tests.cos_ne_zero 100 (by norm_num)
  simp only [Ellipse.rad, if_true]
  convert this using 2
  push_cast
  ring

/-- C113, test_ellipse_matrix: a non-circular ellipse is equal to the one made from its centre and its shape matrix. -/
theorem C113_ellipse_matrix (e : Ellipse) (he : e.Valid) (hne : e.rminor < e.rmajor) :
    ∃ S, e.shape_matrix = .ok S ∧ ∀ g, Ellipse.IsEigh S g → ∃ e', Ellipse.from_center_and_eigen e.center g = .ok e' ∧ e.is_equal e' := by
  obtain ⟨S, h1, h2, h3⟩ := C65_shape_matrix e he
  refine ⟨S, h1, fun g hg => ?_⟩
  obtain ⟨e', k1, k2, k3, -, k4⟩ := C65_from_center_and_matrix e.center S h2 g hg
  exact ⟨e', k1, Tests.same e e' he k2 hne k3 fun P => (h3 P).trans (k4 P).symm⟩

example : (⟨⟨2, 3⟩, 5, 4, 50, true⟩ : Ellipse).Valid ∧ (⟨⟨2, 3⟩, 5, 4, 50, true⟩ : Ellipse).rminor < (⟨⟨2, 3⟩, 5, 4, 50, true⟩ : Ellipse).rmajor :=
  ⟨⟨by norm_num, by norm_num⟩, by norm_num⟩

/-- C113, test_ellipse_diameter: the diameters of parameters `0` and `pi/2`, when they are returned, are perpendicular of lengths `2a` and `2b`. -/
theorem C113_diameter (e : Ellipse) (he : e.Valid) (l1 l2 : Line) (h1 : e.diameter 0 = .ok l1) (h2 : e.diameter (π / 2) = .ok l2) :
    l1.is_perpendicular l2 ∧ approx_equal_ (distance_ l1.A l1.B) (2 * e.rmajor) ∧ approx_equal_ (distance_ l2.A l2.B) (2 * e.rminor) := by
  obtain ⟨ha, hb⟩ := he
  have hcs := sin_sq_add_cos_sq e.rad
  unfold Ellipse.diameter at h1 h2
  dsimp only at h1 h2
  rw [show (if e.degrees = true then e.alpha * (π / 180) else e.alpha) = e.rad from rfl, mkLine_ok] at h1 h2
  obtain ⟨-, rfl⟩ := h1
  obtain ⟨-, rfl⟩ := h2
  simp only [ellipse_point_eq]
  have d1 : distance_ (ellipsePoint e.center e.rmajor e.rminor e.rad 0) (ellipsePoint e.center e.rmajor e.rminor e.rad (0 + π)) = 2 * e.rmajor := by
    unfold distance_ vlength_ ellipsePoint
    rw [show (2 : ℝ) * e.rmajor = √((2 * e.rmajor) ^ 2) from (Real.sqrt_sq (by positivity)).symm]
    congr 1
    simp
    linear_combination (4 * e.rmajor ^ 2) * hcs
  have d2 : distance_ (ellipsePoint e.center e.rmajor e.rminor e.rad (π / 2)) (ellipsePoint e.center e.rmajor e.rminor e.rad (π / 2 + π)) =
      2 * e.rminor := by
    unfold distance_ vlength_ ellipsePoint
    rw [show (2 : ℝ) * e.rminor = √((2 * e.rminor) ^ 2) from (Real.sqrt_sq (by positivity)).symm]
    congr 1
    simp
    linear_combination (4 * e.rminor ^ 2) * hcs
  refine ⟨?_, by rw [d1]; exact approx_equal_refl _, by rw [d2]; exact approx_equal_refl _⟩
  unfold Line.is_perpendicular dot_
  have : ∀ x : ℝ, x = 0 → approx_equal_ x 0 := by rintro x rfl; exact approx_equal_refl 0
  apply this
  simp [ellipsePoint]
  ring

/-- test_ellipse_diameter: both diameters of the ellipse of the test are returned. -/
example : (∃ l, (⟨⟨2, 3⟩, 5, 4, 50, true⟩ : Ellipse).diameter 0 = .ok l) ∧ ∃ l, (⟨⟨2, 3⟩, 5, 4, 50, true⟩ : Ellipse).diameter (π / 2) = .ok l := by
  have hc : 1 / 2 < cos (50 * (π / 180)) := by
    rw [← cos_pi_div_three]
    exact cos_lt_cos_of_nonneg_of_le_pi_div_two (by positivity) (by linarith [pi_pos]) (by linarith [pi_pos])
  have hc1 := cos_le_one (50 * (π / 180))
  constructor
  · refine ⟨_, mkLine_ok.2 ⟨?_, rfl⟩⟩
    rintro ⟨h, -⟩
    simp [ellipse_point_eq, ellipsePoint, npClose] at h
    have e1 : |2 + -(5 * cos (50 * (π / 180)))| ≤ 10 := by rw [abs_le]; constructor <;> linarith
    have e2 := (abs_le.1 h).2
    norm_num at e2
    linarith
  · refine ⟨_, mkLine_ok.2 ⟨?_, rfl⟩⟩
    rintro ⟨-, h⟩
    simp [ellipse_point_eq, ellipsePoint, npClose] at h
    have e1 : |3 + -(4 * cos (50 * (π / 180)))| ≤ 10 := by rw [abs_le]; constructor <;> linarith
    have e2 := (abs_le.1 h).2
    norm_num at e2
    linarith

/-! ## test_Rotation.py -/

/-- C113, test_rotate_ellipse: for a non-circular ellipse, `rotate_ellipse` and `as_affine().transform_ellipse` give equal ellipses, whether the angles are
in degrees or in radians. -/
theorem C113_rotate_ellipse (R : Rotation) (e : Ellipse) (he : e.Valid) (hne : e.rminor < e.rmajor) :
    ∃ e1 e2, R.rotate_ellipse e = .ok e1 ∧ R.as_affine.transform_ellipse (.ell e) = .ok (some e2) ∧ e1.is_equal e2 := by
  have hb : Function.Bijective R.as_affine.transform := by
    rw [(C45_inverse _).2.1]
    simp [Rotation.as_affine, Affine.ofMatrix3, Rotation.get3x3matrix]
    have := sin_sq_add_cos_sq (if R.degrees = true then R.theta * (π / 180) else R.theta)
    intro h
    nlinarith
  have key : ∀ P Q, IsRotated R.center R.rad P Q ↔ R.as_affine.transform P = Q := by
    intro P Q
    have h := C11_as_affine R P
    rw [R.rotatePt_eq P _ rfl, Except.ok.injEq] at h
    rw [isRotated_iff, ← h]
    exact eq_comm
  obtain ⟨e1, h1, v1, m1, -⟩ := C11_rotate_ellipse R e he
  obtain ⟨e2, h2, v2, o2, -, -, -, m2, -⟩ := (C47_transform_ellipse R.as_affine (.ell e) he).2 hb
  refine ⟨e1, e2, h1, h2, Tests.same e1 e2 v1 v2 ?_ o2 fun Q => ?_⟩
  · unfold Rotation.rotate_ellipse mkEllipse at h1
    rw [R.rotatePt_eq _ _ rfl, Res.ok_bind, if_neg (not_le.2 he.1), if_neg (not_le.2 he.2), Except.ok.injEq] at h1
    rw [← h1]
    exact hne
  · obtain ⟨P, rfl⟩ := hb.2 Q
    unfold OnE
    rw [m1, ← m2 P]
    constructor
    · rintro ⟨P', p1, p2⟩
      rw [← hb.1 ((key _ _).1 p2)]
      exact p1
    · exact fun hP => ⟨P, hP, (key _ _).2 rfl⟩

/-- test_rotate_ellipse: the ellipses of the test. -/
example : (∃ e1 e2, (⟨⟨1, 2⟩, 40, true⟩ : Rotation).rotate_ellipse ⟨⟨5, 4⟩, 3, 2, π / 6, false⟩ = .ok e1 ∧
      (⟨⟨1, 2⟩, 40, true⟩ : Rotation).as_affine.transform_ellipse (.ell ⟨⟨5, 4⟩, 3, 2, π / 6, false⟩) = .ok (some e2) ∧ e1.is_equal e2) ∧
    ∃ e1 e2, (⟨⟨1, 2⟩, π / 5, false⟩ : Rotation).rotate_ellipse ⟨⟨5, 4⟩, 3, 2, 30, true⟩ = .ok e1 ∧
      (⟨⟨1, 2⟩, π / 5, false⟩ : Rotation).as_affine.transform_ellipse (.ell ⟨⟨5, 4⟩, 3, 2, 30, true⟩) = .ok (some e2) ∧ e1.is_equal e2 :=
  ⟨C113_rotate_ellipse _ _ ⟨by norm_num, by norm_num⟩ (by norm_num), C113_rotate_ellipse _ _ ⟨by norm_num, by norm_num⟩ (by norm_num)⟩

/-! ## test_Scaling.py -/

namespace Tests

/-- The image of a point by a scaling is unique. -/
theorem scaled_unique {O w P Q Q' : Pt} {s : ℝ} (hw : w ≠ ⟨0, 0⟩) (h : IsScaled O w s P Q) (h' : IsScaled O w s P Q') : Q = Q' := by
  obtain ⟨a1, a2⟩ := h
  obtain ⟨b1, b2⟩ := h'
  have hp := dotSelf_pos hw
  simp only [dot, cross, Pt.sub_x, Pt.sub_y] at a1 a2 b1 b2
  have hn : w.x ^ 2 + w.y ^ 2 ≠ 0 := by
    intro h0
    exact hw (by ext <;> simp <;> nlinarith [sq_nonneg w.x, sq_nonneg w.y])
  ext
  · apply mul_left_cancel₀ hn
    linear_combination w.x * (a1 - b1) - w.y * (a2 - b2)
  · apply mul_left_cancel₀ hn
    linear_combination w.y * (a1 - b1) + w.x * (a2 - b2)

theorem scaled_inv {O w P Q : Pt} {s : ℝ} (hs : s ≠ 0) (h : IsScaled O w s P Q) : IsScaled O w (1 / s) Q P := by
  obtain ⟨a1, a2⟩ := h
  refine ⟨?_, a2.symm⟩
  rw [a1]
  field_simp

/-- The length of a vector from its products with another one. -/
theorem length_of_products {w X : Pt} {L d : ℝ} (hL : 0 < L) (hLe : L = vlength_ w) (hd : 0 ≤ d) (h : dot w X ^ 2 + cross w X ^ 2 = (d * L) ^ 2) :
    vlength_ (-X) = d := by
  have hLL : L ^ 2 = w.x ^ 2 + w.y ^ 2 := by
    rw [hLe]
    unfold vlength_
    rw [Real.sq_sqrt (by nlinarith [sq_nonneg w.x, sq_nonneg w.y])]
    ring
  have : X.x ^ 2 + X.y ^ 2 = d ^ 2 := by
    apply mul_left_cancel₀ (show L ^ 2 ≠ 0 by positivity)
    unfold dot cross at h
    linear_combination h + (X.x ^ 2 + X.y ^ 2) * hLL
  unfold vlength_
  rw [show d = √(d ^ 2) from (Real.sqrt_sq hd).symm, ← this]
  congr 1
  simp
  ring

/-- The semi-axes of `scale_circle`. -/
theorem scale_axes (S : Scaling) (hw : S.direction ≠ ⟨0, 0⟩) (c : Circle) (hc : c.Valid) (e : Ellipse) (h : S.scale_circle c = .ok e) :
    (1 ≤ S.scale → e.rmajor = S.scale * c.radius ∧ e.rminor = c.radius) ∧
    (S.scale < 1 → e.rmajor = c.radius ∧ e.rminor = |S.scale| * c.radius) := by
  have hcR : 0 < c.radius := hc
  obtain ⟨L, hL, hLe, -, -⟩ := polar hw
  have hLL : dot S.direction S.direction = L ^ 2 := by
    rw [hLe]
    unfold vlength_ dot
    rw [Real.sq_sqrt (by nlinarith [sq_nonneg S.direction.x, sq_nonneg S.direction.y])]
  obtain ⟨⟨O', e0, s0⟩, -⟩ := C62_scaling S hw c.center
  obtain ⟨⟨A1, e1, s1⟩, -⟩ := C62_scaling S hw (c.center + (c.radius • S.direction) / L)
  obtain ⟨⟨A2, e2, s2⟩, -⟩ := C62_scaling S hw (c.center + (c.radius • (⟨-S.direction.y, S.direction.x⟩ : Pt)) / L)
  obtain ⟨w, hwe⟩ : ∃ w, w = S.direction := ⟨_, rfl⟩
  have diff : ∀ P Q, IsScaled S.center S.direction S.scale P Q →
      dot w (Q - O') = S.scale * dot w (P - c.center) ∧ cross w (Q - O') = cross w (P - c.center) := by
    rintro P Q ⟨h1, h2⟩
    obtain ⟨h3, h4⟩ := s0
    rw [hwe]
    simp only [dot, cross, Pt.sub_x, Pt.sub_y] at *
    constructor
    · linear_combination h1 - h3
    · linear_combination h2 - h4
  obtain ⟨d1, x1⟩ := diff _ _ s1
  obtain ⟨d2, x2⟩ := diff _ _ s2
  rw [← hwe] at hLL d1 x1 d2 x2 hLe
  have d1' : dot w (A1 - O') = S.scale * c.radius * L := by
    rw [d1]
    simp only [dot, Pt.add_x, Pt.add_y, Pt.sub_x, Pt.sub_y, Pt.div_x, Pt.div_y, Pt.smul_x, Pt.smul_y] at hLL ⊢
    field_simp
    linear_combination S.scale * c.radius * hLL
  have x1' : cross w (A1 - O') = 0 := by
    rw [x1]
    simp only [cross, Pt.add_x, Pt.add_y, Pt.sub_x, Pt.sub_y, Pt.div_x, Pt.div_y, Pt.smul_x, Pt.smul_y]
    ring
  have d2' : dot w (A2 - O') = 0 := by
    rw [d2]
    simp only [dot, Pt.add_x, Pt.add_y, Pt.sub_x, Pt.sub_y, Pt.div_x, Pt.div_y, Pt.smul_x, Pt.smul_y]
    ring
  have x2' : cross w (A2 - O') = c.radius * L := by
    rw [x2]
    simp only [cross, dot, Pt.add_x, Pt.add_y, Pt.sub_x, Pt.sub_y, Pt.div_x, Pt.div_y, Pt.smul_x, Pt.smul_y] at hLL ⊢
    field_simp
    linear_combination c.radius * hLL
  have l1 : distance_ A1 O' = |S.scale| * c.radius := by
    unfold distance_
    rw [show O' - A1 = -(A1 - O') by ext <;> simp]
    refine length_of_products hL hLe (by positivity) ?_
    rw [d1', x1', mul_pow, mul_pow, mul_pow, mul_pow, sq_abs]
    ring
  have l2 : distance_ A2 O' = c.radius := by
    unfold distance_
    rw [show O' - A2 = -(A2 - O') by ext <;> simp]
    refine length_of_products hL hLe hcR.le ?_
    rw [d2', x2']
    ring
  have ne : ¬ vlength_ S.direction = 0 := by
    rw [← hwe, ← hLe]
    exact hL.ne'
  unfold Scaling.scale_circle at h
  dsimp only at h
  rw [e0, Res.ok_bind, if_neg ne, ← hwe, ← hLe, hwe, e1, Res.ok_bind, e2, Res.ok_bind, l1, l2] at h
  have mk : ∀ {O a b α d e}, mkEllipse O a b α d = .ok e → e.rmajor = a ∧ e.rminor = b := by
    intro O a b α d e h
    unfold mkEllipse at h
    split_ifs at h
    cases h
    exact ⟨rfl, rfl⟩
  constructor
  · intro hs
    rw [if_pos hs] at h
    obtain ⟨k1, k2⟩ := mk h
    rw [abs_of_nonneg (by linarith)] at k1
    exact ⟨k1, k2⟩
  · intro hs
    rw [if_neg (not_le.2 hs)] at h
    exact mk h

end Tests

/-- C113, test_scale_circle: for a scale other than `0`, `1` and `-1`, `scale_circle` and `as_affine().transform_ellipse` give ellipses that are equal for
`is_equal` exactly when the scale is greater than `-1`; below, the semi-axes of `scale_circle` are in the other order. -/
theorem C113_scale_circle (S : Scaling) (hw : S.direction ≠ ⟨0, 0⟩) (c : Circle) (hc : c.Valid) (h0 : S.scale ≠ 0) (h1 : S.scale ≠ 1) (h2 : S.scale ≠ -1) :
    ∃ e1 f e2, S.scale_circle c = .ok e1 ∧ S.as_affine = .ok f ∧ f.transform_ellipse (.circ c) = .ok (some e2) ∧ (e1.is_equal e2 ↔ -1 < S.scale) := by
  obtain ⟨f, hf, ht⟩ := C62_as_affine S hw
  have hsc : ∀ P Q, IsScaled S.center S.direction S.scale P Q ↔ f.transform P = Q := by
    intro P Q
    obtain ⟨⟨Q', q1, q2⟩, -⟩ := C62_scaling S hw P
    rw [ht P, Except.ok.injEq] at q1
    rw [q1]
    exact ⟨fun h => Tests.scaled_unique hw q2 h, fun h => h ▸ q2⟩
  have hb : Function.Bijective f.transform := by
    constructor
    · intro P P' h
      exact Tests.scaled_unique hw (Tests.scaled_inv h0 ((hsc P _).2 rfl)) (Tests.scaled_inv h0 ((hsc P' _).2 h.symm))
    · intro Q
      obtain ⟨⟨P, -, hP⟩, -⟩ := C62_scaling ⟨S.center, S.direction, 1 / S.scale⟩ hw Q
      refine ⟨P, (hsc P Q).1 ?_⟩
      have := Tests.scaled_inv (one_div_ne_zero h0) hP
      rwa [one_div_one_div] at this
  obtain ⟨e1, h1', v1, m1⟩ := (C62_scale_circle S hw c hc).1 h0
  obtain ⟨e2, h2', v2, o2, -, -, -, m2, -⟩ := (C47_transform_ellipse f (.circ c) hc).2 hb
  have hsame : ∀ Q, OnE e1 Q ↔ OnE e2 Q := by
    intro Q
    obtain ⟨P, rfl⟩ := hb.2 Q
    unfold OnE
    rw [m1, ← m2 P]
    constructor
    · rintro ⟨P', p1, p2⟩
      rw [← hb.1 ((hsc _ _).1 p2)]
      exact p1
    · exact fun hP => ⟨P, hP, (hsc _ _).2 rfl⟩
  refine ⟨e1, f, e2, h1', hf, h2', ?_⟩
  obtain ⟨a1, a2⟩ := Tests.scale_axes S hw c hc e1 h1'
  have hcR : 0 < c.radius := hc
  constructor
  · intro h
    by_contra hn
    have hs : S.scale < -1 := lt_of_le_of_ne (not_lt.1 hn) h2
    obtain ⟨r1, r2⟩ := a2 (by linarith)
    rw [abs_of_neg (by linarith)] at r2
    have hne : e1.rmajor ≠ e1.rminor := by
      rw [r1, r2]
      nlinarith
    rcases (C77_exact e1 e2 v1 v2 hsame).1 h with ⟨-, k⟩ | ⟨k, -⟩
    · have := Tests.same_order e1 e2 v1 v2 hsame k
      rw [← k, ← this, r1, r2] at o2
      nlinarith
    · exact hne k
  · intro hs
    refine Tests.same e1 e2 v1 v2 ?_ o2 hsame
    rcases lt_or_ge S.scale 1 with h | h
    · obtain ⟨r1, r2⟩ := a2 h
      rw [r1, r2]
      have : |S.scale| < 1 := abs_lt.2 ⟨hs, h⟩
      nlinarith
    · obtain ⟨r1, r2⟩ := a1 h
      rw [r1, r2]
      have : 1 < S.scale := lt_of_le_of_ne h (Ne.symm h1)
      nlinarith

/-- test_scale_circle: the numbers of the test. -/
example : ∃ e1 f e2, (⟨⟨1, 1⟩, ⟨2, 3⟩, 2⟩ : Scaling).scale_circle ⟨⟨-1, 2⟩, 4⟩ = .ok e1 ∧ (⟨⟨1, 1⟩, ⟨2, 3⟩, 2⟩ : Scaling).as_affine = .ok f ∧
    f.transform_ellipse (.circ ⟨⟨-1, 2⟩, 4⟩) = .ok (some e2) ∧ e1.is_equal e2 := by
  obtain ⟨e1, f, e2, k1, k2, k3, k4⟩ := C113_scale_circle ⟨⟨1, 1⟩, ⟨2, 3⟩, 2⟩ (by simp) ⟨⟨-1, 2⟩, 4⟩ (by norm_num [Circle.Valid]) (by norm_num) (by norm_num)
    (by norm_num)
  exact ⟨e1, f, e2, k1, k2, k3, k4.2 (by norm_num)⟩
