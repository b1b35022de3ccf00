import Verif.Props.Boundary

/-!
# C80: the ellipses returned by `from_boundary3` and `LownerJohnEllipse` have minimal area
-/

open Spec Real Classical

namespace Spec

/-- The area of the region bounded by an ellipse with semi-axes `a` and `b`. -/
noncomputable def ellipseArea (a b : ℝ) : ℝ := Real.pi * a * b

/-- The two ellipses bound the same region. -/
def SameRegion (O : Pt) (a b α : ℝ) (O' : Pt) (a' b' α' : ℝ) : Prop :=
  ∀ X, InEllipse O a b α X ↔ InEllipse O' a' b' α' X

end Spec

namespace MinEll

/-- Coordinates in which the ellipse is the unit circle. -/
noncomputable def nrm (O : Pt) (a b α : ℝ) (P : Pt) : Pt := ⟨(axisCoord O α P).x / a, (axisCoord O α P).y / b⟩

theorem inEllipse_nrm (O : Pt) (a b α : ℝ) (P : Pt) :
    InEllipse O a b α P ↔ (nrm O a b α P).x ^ 2 + (nrm O a b α P).y ^ 2 ≤ 1 := Iff.rfl

theorem cross_nrm (O : Pt) (a b α : ℝ) (ha : 0 < a) (hb : 0 < b) (P Q R : Pt) :
    cross (Q - P) (R - P) = a * b * cross (nrm O a b α Q - nrm O a b α P) (nrm O a b α R - nrm O a b α P) := by
  have h : cos α ^ 2 + sin α ^ 2 = 1 := by rw [add_comm]; exact sin_sq_add_cos_sq α
  unfold cross nrm axisCoord
  simp
  field_simp
  linear_combination (-((Q.x - P.x) * (R.y - P.y) - (Q.y - P.y) * (R.x - P.x))) * h

/-- Three points of the unit disk: the triangle is at most as large as the equilateral one, which is the only one that
large. -/
theorem disk_triangle (u v w : Pt) (hu : u.x ^ 2 + u.y ^ 2 ≤ 1) (hv : v.x ^ 2 + v.y ^ 2 ≤ 1) (hw : w.x ^ 2 + w.y ^ 2 ≤ 1) :
    4 * cross (v - u) (w - u) ^ 2 ≤ 27 ∧ (4 * cross (v - u) (w - u) ^ 2 = 27 →
      u.x ^ 2 + u.y ^ 2 = 1 ∧ v.x ^ 2 + v.y ^ 2 = 1 ∧ w.x ^ 2 + w.y ^ 2 = 1 ∧ u.x + v.x + w.x = 0 ∧ u.y + v.y + w.y = 0) := by
  obtain ⟨s, hs⟩ : ∃ s, s = (u.x ^ 2 + u.y ^ 2) + (v.x ^ 2 + v.y ^ 2) + (w.x ^ 2 + w.y ^ 2) := ⟨_, rfl⟩
  obtain ⟨m, hm⟩ : ∃ m, m = (u.x + v.x + w.x) ^ 2 + (u.y + v.y + w.y) ^ 2 := ⟨_, rfl⟩
  obtain ⟨c, hc⟩ : ∃ c, c = cross (v - u) (w - u) := ⟨_, rfl⟩
  have hm0 : 0 ≤ m := by rw [hm]; positivity
  have hs3 : s ≤ 3 := by linarith
  -- Weitzenböck
  have hw12 : 12 * c ^ 2 ≤ (3 * s - m) ^ 2 := by
    obtain ⟨X, hX⟩ : ∃ X, X = (v.x - u.x) ^ 2 + (v.y - u.y) ^ 2 := ⟨_, rfl⟩
    obtain ⟨Y, hY⟩ : ∃ Y, Y = (w.x - u.x) ^ 2 + (w.y - u.y) ^ 2 := ⟨_, rfl⟩
    obtain ⟨D, hD⟩ : ∃ D, D = (v.x - u.x) * (w.x - u.x) + (v.y - u.y) * (w.y - u.y) := ⟨_, rfl⟩
    have h1 : c ^ 2 = X * Y - D ^ 2 := by rw [hc, hX, hY, hD]; unfold cross; simp; ring
    have h2 : 3 * s - m = 2 * X + 2 * Y - 2 * D := by rw [hs, hm, hX, hY, hD]; ring
    rw [h1, h2]
    nlinarith [sq_nonneg (2 * D - (X + Y) / 2), sq_nonneg (X - Y)]
  have hge : 0 ≤ 3 * s - m := by
    have : 3 * s - m = (v.x - u.x) ^ 2 + (v.y - u.y) ^ 2 + ((w.x - u.x) ^ 2 + (w.y - u.y) ^ 2) + ((w.x - v.x) ^ 2 + (w.y - v.y) ^ 2) := by
      rw [hs, hm]; ring
    rw [this]; positivity
  have h9 : 3 * s - m ≤ 9 := by linarith
  rw [← hc]
  constructor
  · nlinarith
  · intro heq
    have h81 : (9 : ℝ) ≤ 3 * s - m := by nlinarith
    have hm1 : m = 0 := by linarith
    have hs1 : s = 3 := by linarith
    have hx : u.x + v.x + w.x = 0 := by
      have : (u.x + v.x + w.x) ^ 2 ≤ 0 := by nlinarith [sq_nonneg (u.y + v.y + w.y)]
      exact pow_eq_zero_iff (two_ne_zero) |>.1 (le_antisymm this (sq_nonneg _))
    have hy : u.y + v.y + w.y = 0 := by
      have : (u.y + v.y + w.y) ^ 2 ≤ 0 := by nlinarith [sq_nonneg (u.x + v.x + w.x)]
      exact pow_eq_zero_iff (two_ne_zero) |>.1 (le_antisymm this (sq_nonneg _))
    exact ⟨by linarith, by linarith, by linarith, hx, hy⟩

/-- Three unit vectors with zero sum: the equilateral triangle. -/
theorem unit_triangle (u v w : Pt) (hu : u.x ^ 2 + u.y ^ 2 = 1) (hv : v.x ^ 2 + v.y ^ 2 = 1) (hw : w.x ^ 2 + w.y ^ 2 = 1)
    (hx : u.x + v.x + w.x = 0) (hy : u.y + v.y + w.y = 0) :
    u.x * v.x + u.y * v.y = -1 / 2 ∧ 4 * cross (v - u) (w - u) ^ 2 = 27 := by
  have hwx : w.x = -u.x - v.x := by linarith
  have hwy : w.y = -u.y - v.y := by linarith
  rw [hwx, hwy] at hw
  have hd : u.x * v.x + u.y * v.y = -1 / 2 := by nlinarith
  refine ⟨hd, ?_⟩
  have h1 : cross (v - u) (w - u) = 3 * (u.x * v.y - u.y * v.x) := by
    unfold cross; simp; rw [hwx, hwy]; ring
  have h2 : (u.x * v.y - u.y * v.x) ^ 2 = (u.x ^ 2 + u.y ^ 2) * (v.x ^ 2 + v.y ^ 2) - (u.x * v.x + u.y * v.y) ^ 2 := by ring
  rw [h1, mul_pow, h2, hu, hv, hd]; norm_num

/-- Every ellipse that contains a triangle. -/
theorem area_bound (O : Pt) (a b α : ℝ) (ha : 0 < a) (hb : 0 < b) (P Q R : Pt) (hP : InEllipse O a b α P)
    (hQ : InEllipse O a b α Q) (hR : InEllipse O a b α R) : 4 * cross (Q - P) (R - P) ^ 2 ≤ 27 * (a * b) ^ 2 := by
  have h := (disk_triangle (nrm O a b α P) (nrm O a b α Q) (nrm O a b α R) hP hQ hR).1
  rw [cross_nrm O a b α ha hb, mul_pow]
  have : 0 < (a * b) ^ 2 := by positivity
  nlinarith

theorem nrm_center (O : Pt) (a b α : ℝ) (P Q R : Pt) (h : O = (P + Q + R) / (3 : ℝ)) :
    (nrm O a b α P).x + (nrm O a b α Q).x + (nrm O a b α R).x = 0 ∧
    (nrm O a b α P).y + (nrm O a b α Q).y + (nrm O a b α R).y = 0 := by
  unfold nrm axisCoord
  rw [h]
  simp
  constructor <;> ring

theorem nrm_sum_zero (O : Pt) (a b α : ℝ) (ha : 0 < a) (hb : 0 < b) (P Q R : Pt)
    (hx : (nrm O a b α P).x + (nrm O a b α Q).x + (nrm O a b α R).x = 0)
    (hy : (nrm O a b α P).y + (nrm O a b α Q).y + (nrm O a b α R).y = 0) : O = (P + Q + R) / (3 : ℝ) := by
  unfold nrm axisCoord at hx hy
  dsimp only at hx hy
  rw [← add_div, ← add_div, div_eq_zero_iff, or_iff_left ha.ne'] at hx
  rw [← add_div, ← add_div, div_eq_zero_iff, or_iff_left hb.ne'] at hy
  have h : cos α ^ 2 + sin α ^ 2 = 1 := by rw [add_comm]; exact sin_sq_add_cos_sq α
  ext
  · simp
    linear_combination (-1 / 3) * (cos α * hx - sin α * hy) + (1 / 3) * (P.x + Q.x + R.x - 3 * O.x) * h
  · simp
    linear_combination (-1 / 3) * (sin α * hx + cos α * hy) + (1 / 3) * (P.y + Q.y + R.y - 3 * O.y) * h

/-- The region of an ellipse through `P`, `Q`, `R` centered at their centroid is determined by the three points. -/
theorem region_of_centroid (O : Pt) (a b α : ℝ) (P Q R : Pt) (h0 : ¬ Collinear P Q R) (hc : O = (P + Q + R) / (3 : ℝ))
    (hP : (nrm O a b α P).x ^ 2 + (nrm O a b α P).y ^ 2 = 1) (hQ : (nrm O a b α Q).x ^ 2 + (nrm O a b α Q).y ^ 2 = 1)
    (hR : (nrm O a b α R).x ^ 2 + (nrm O a b α R).y ^ 2 = 1) (X : Pt) :
    InEllipse O a b α X ↔
      (cross (X - (P + Q + R) / (3 : ℝ)) (Q - (P + Q + R) / (3 : ℝ)) ^ 2 + cross (P - (P + Q + R) / (3 : ℝ)) (X - (P + Q + R) / (3 : ℝ)) ^ 2 -
        cross (X - (P + Q + R) / (3 : ℝ)) (Q - (P + Q + R) / (3 : ℝ)) * cross (P - (P + Q + R) / (3 : ℝ)) (X - (P + Q + R) / (3 : ℝ))) /
        cross (P - (P + Q + R) / (3 : ℝ)) (Q - (P + Q + R) / (3 : ℝ)) ^ 2 ≤ 1 := by
  obtain ⟨hx, hy⟩ := nrm_center O a b α P Q R hc
  obtain ⟨hd, -⟩ := unit_triangle _ _ _ hP hQ hR hx hy
  rw [← hc]
  have hk : cross (P - O) (Q - O) ≠ 0 := by
    intro hk
    apply h0
    unfold Spec.Collinear cross at *
    rw [hc] at hk
    simp at hk ⊢
    linear_combination 3 * hk
  obtain ⟨k, hke⟩ : ∃ k, k = cross (P - O) (Q - O) := ⟨_, rfl⟩
  obtain ⟨s, hs⟩ : ∃ s, s = cross (X - O) (Q - O) / k := ⟨_, rfl⟩
  obtain ⟨t, ht⟩ : ∃ t, t = cross (P - O) (X - O) / k := ⟨_, rfl⟩
  rw [← hke] at hk ⊢
  have e1 : (cross (X - O) (Q - O) ^ 2 + cross (P - O) (X - O) ^ 2 - cross (X - O) (Q - O) * cross (P - O) (X - O)) / k ^ 2 =
      s ^ 2 + t ^ 2 - s * t := by
    rw [hs, ht]; field_simp
  have ex : X.x - O.x = s * (P.x - O.x) + t * (Q.x - O.x) := by
    rw [hs, ht]; field_simp; rw [hke]; unfold cross; simp; ring
  have ey : X.y - O.y = s * (P.y - O.y) + t * (Q.y - O.y) := by
    rw [hs, ht]; field_simp; rw [hke]; unfold cross; simp; ring
  have nx : (nrm O a b α X).x = s * (nrm O a b α P).x + t * (nrm O a b α Q).x := by
    unfold nrm axisCoord; dsimp only; rw [ex, ey]; ring
  have ny : (nrm O a b α X).y = s * (nrm O a b α P).y + t * (nrm O a b α Q).y := by
    unfold nrm axisCoord; dsimp only; rw [neg_mul, ex, ey]; ring
  rw [e1, inEllipse_nrm, nx, ny]
  have : (s * (nrm O a b α P).x + t * (nrm O a b α Q).x) ^ 2 + (s * (nrm O a b α P).y + t * (nrm O a b α Q).y) ^ 2 =
      s ^ 2 + t ^ 2 - s * t := by
    linear_combination s ^ 2 * hP + t ^ 2 * hQ + 2 * s * t * hd
  rw [this]

theorem onE_nrm (e : Ellipse) (he : e.Valid) (P : Pt) (h : OnE e P) :
    (nrm e.center e.rmajor e.rminor e.rad P).x ^ 2 + (nrm e.center e.rmajor e.rminor e.rad P).y ^ 2 = 1 := by
  obtain ⟨t, rfl⟩ := h
  have h1 : cos e.rad ^ 2 + sin e.rad ^ 2 = 1 := by rw [add_comm]; exact sin_sq_add_cos_sq _
  have h2 : cos t ^ 2 + sin t ^ 2 = 1 := by rw [add_comm]; exact sin_sq_add_cos_sq _
  have ha := he.1.ne'
  have hb := he.2.ne'
  have hx : (nrm e.center e.rmajor e.rminor e.rad (ellipsePoint e.center e.rmajor e.rminor e.rad t)).x = cos t := by
    unfold nrm axisCoord ellipsePoint
    simp
    field_simp
    linear_combination e.rmajor * cos t * h1
  have hy : (nrm e.center e.rmajor e.rminor e.rad (ellipsePoint e.center e.rmajor e.rminor e.rad t)).y = sin t := by
    unfold nrm axisCoord ellipsePoint
    simp
    field_simp
    linear_combination e.rminor * sin t * h1
  rw [hx, hy, h2]

/-- An ellipse through three points and centered at their centroid has the smallest area among the ellipses that contain
them, and is the only one. -/
theorem minimal_of_centroid (e : Ellipse) (he : e.Valid) (P Q R : Pt) (h0 : ¬ Collinear P Q R)
    (hc : e.center = (P + Q + R) / (3 : ℝ)) (hP : OnE e P) (hQ : OnE e Q) (hR : OnE e R)
    (O : Pt) (a b α : ℝ) (ha : 0 < a) (hb : 0 < b)
    (kP : InEllipse O a b α P) (kQ : InEllipse O a b α Q) (kR : InEllipse O a b α R) :
    ellipseArea e.rmajor e.rminor ≤ ellipseArea a b ∧
    (ellipseArea a b ≤ ellipseArea e.rmajor e.rminor → SameRegion O a b α e.center e.rmajor e.rminor e.rad) := by
  have nP := onE_nrm e he P hP
  have nQ := onE_nrm e he Q hQ
  have nR := onE_nrm e he R hR
  obtain ⟨hx, hy⟩ := nrm_center e.center e.rmajor e.rminor e.rad P Q R hc
  have h27 := (unit_triangle _ _ _ nP nQ nR hx hy).2
  have hcr := cross_nrm e.center e.rmajor e.rminor e.rad he.1 he.2 P Q R
  have hA : 4 * cross (Q - P) (R - P) ^ 2 = 27 * (e.rmajor * e.rminor) ^ 2 := by
    rw [hcr, mul_pow]; linear_combination (e.rmajor * e.rminor) ^ 2 * h27
  have hb1 := area_bound O a b α ha hb P Q R kP kQ kR
  have hpos : 0 < e.rmajor * e.rminor := mul_pos he.1 he.2
  have hpos' : 0 < a * b := mul_pos ha hb
  have hle : e.rmajor * e.rminor ≤ a * b := by
    rw [hA] at hb1
    nlinarith
  constructor
  · unfold ellipseArea
    rw [mul_assoc, mul_assoc]
    exact mul_le_mul_of_nonneg_left hle Real.pi_pos.le
  · intro hge
    unfold ellipseArea at hge
    rw [mul_assoc, mul_assoc] at hge
    have hge' := le_of_mul_le_mul_left hge Real.pi_pos
    have heq : a * b = e.rmajor * e.rminor := le_antisymm hge' hle
    have hcr' := cross_nrm O a b α ha hb P Q R
    have h27' : 4 * cross (nrm O a b α Q - nrm O a b α P) (nrm O a b α R - nrm O a b α P) ^ 2 = 27 := by
      rw [hcr', mul_pow, ← heq] at hA
      have : (a * b) ^ 2 ≠ 0 := by positivity
      apply mul_left_cancel₀ this
      linear_combination hA
    obtain ⟨mP, mQ, mR, mx, my⟩ := (disk_triangle (nrm O a b α P) (nrm O a b α Q) (nrm O a b α R) kP kQ kR).2 h27'
    have hO := nrm_sum_zero O a b α ha hb P Q R mx my
    intro X
    rw [region_of_centroid O a b α P Q R h0 hO mP mQ mR, region_of_centroid e.center _ _ _ P Q R h0 hc nP nQ nR]

end MinEll

/-- C80: for three non-collinear points `from_boundary3` returns the ellipse with the smallest area among all the
ellipses that contain the three points; every other one with the same area bounds the same region. -/
theorem C80_from_boundary3 (eigh : Matrix (Fin 2) (Fin 2) ℝ → Ellipse.Eigh) (heigh : ∀ S, Ellipse.IsEigh S (eigh S))
    (P Q R : Pt) (h : ¬ Collinear P Q R) :
    ∃ e, Ellipse.from_boundary3 eigh P Q R = .ok e ∧ e.Valid ∧ OnE e P ∧ OnE e Q ∧ OnE e R ∧
      ∀ (O : Pt) (a b α : ℝ), 0 < a → 0 < b → InEllipse O a b α P → InEllipse O a b α Q → InEllipse O a b α R →
        ellipseArea e.rmajor e.rminor ≤ ellipseArea a b ∧
        (ellipseArea a b ≤ ellipseArea e.rmajor e.rminor → SameRegion O a b α e.center e.rmajor e.rminor e.rad) := by
  obtain ⟨e, he, hv, -, hc, h1, h2, h3⟩ := C73_from_boundary3_partial eigh heigh P Q R h
  exact ⟨e, he, hv, h1, h2, h3, fun O a b α ha hb k1 k2 k3 =>
    MinEll.minimal_of_centroid e hv P Q R h hc h1 h2 h3 O a b α ha hb k1 k2 k3⟩

/-- The ellipse of `(0, 0)`, `(4, 0)`, `(1, 3)` has at most the area of the disc of center `(2, 1)` and radius `√5`, which contains the points. -/
example (eigh : Matrix (Fin 2) (Fin 2) ℝ → Ellipse.Eigh) (heigh : ∀ S, Ellipse.IsEigh S (eigh S)) :
    ∃ e, Ellipse.from_boundary3 eigh ⟨0, 0⟩ ⟨4, 0⟩ ⟨1, 3⟩ = .ok e ∧ OnE e ⟨1, 3⟩ ∧ ellipseArea e.rmajor e.rminor ≤ ellipseArea (√5) (√5) := by
  obtain ⟨e, h, -, -, -, h1, h2⟩ := C80_from_boundary3 eigh heigh ⟨0, 0⟩ ⟨4, 0⟩ ⟨1, 3⟩ (by unfold Spec.Collinear cross; simp)
  have h5 : (√5 : ℝ) ^ 2 = 5 := Real.sq_sqrt (by norm_num)
  refine ⟨e, h, h1, (h2 ⟨2, 1⟩ (√5) (√5) 0 (by positivity) (by positivity) ?_ ?_ ?_).1⟩
  all_goals
    unfold InEllipse axisCoord
    simp only [cos_zero, sin_zero, div_pow, h5]
    norm_num

/-- C80: for every list of points and every random schedule, an ellipse returned by `LownerJohnEllipse` contains the points
and has the smallest area among all the ellipses that contain them; it is the only one. -/
theorem C80_lownerJohn (env : Ellipse.LJEnv) (heigh : ∀ S, Ellipse.IsEigh S (env.eigh S)) (points : List Pt) (e : Ellipse)
    (h : Ellipse.lownerJohn env [] points [] = .ok (some e)) :
    e.Valid ∧ (∀ P ∈ points, InEllipse e.center e.rmajor e.rminor e.rad P) ∧
    ∀ (O : Pt) (a b α : ℝ), 0 < a → 0 < b → (∀ P ∈ points, InEllipse O a b α P) →
      ellipseArea e.rmajor e.rminor ≤ ellipseArea a b ∧
      (ellipseArea a b ≤ ellipseArea e.rmajor e.rminor → SameRegion O a b α e.center e.rmajor e.rminor e.rad) := by
  obtain ⟨k0, k1, -, P, Q, R, k3, k4, k5, k6, k7⟩ := lj_sound env heigh _ [] points [] e rfl (by simp) h
  rw [List.append_nil] at k5 k6 k7
  refine ⟨k0, fun X hX => (C64_contains e k0 X).1 (k1 X hX), fun O a b α ha hb hin => ?_⟩
  obtain ⟨e', he', -, -, hc, h1, h2, h3⟩ := C73_from_boundary3_partial env.eigh heigh P Q R k3
  rw [k4] at he'
  have hee : e = e' := by simpa using he'
  subst hee
  exact MinEll.minimal_of_centroid e k0 P Q R k3 hc h1 h2 h3 O a b α ha hb (hin P k5) (hin Q k6) (hin R k7)

/-- C80: the returned ellipse does not depend on the random choices, as a region. -/
theorem C80_schedule_independent (env env' : Ellipse.LJEnv) (heigh : ∀ S, Ellipse.IsEigh S (env.eigh S))
    (heigh' : ∀ S, Ellipse.IsEigh S (env'.eigh S)) (points : List Pt) (e e' : Ellipse)
    (h : Ellipse.lownerJohn env [] points [] = .ok (some e)) (h' : Ellipse.lownerJohn env' [] points [] = .ok (some e')) :
    SameRegion e.center e.rmajor e.rminor e.rad e'.center e'.rmajor e'.rminor e'.rad := by
  obtain ⟨v, c, m⟩ := C80_lownerJohn env heigh points e h
  obtain ⟨v', c', m'⟩ := C80_lownerJohn env' heigh' points e' h'
  have k := m' e.center e.rmajor e.rminor e.rad v.1 v.2 c
  have k' := m e'.center e'.rmajor e'.rminor e'.rad v'.1 v'.2 c'
  exact k.2 k'.1

/-- The hypotheses are satisfiable: three non-collinear points, and any schedule, give an ellipse. -/
example (env : Ellipse.LJEnv) (heigh : ∀ S, Ellipse.IsEigh S (env.eigh S)) :
    ∃ e, Ellipse.lownerJohn env [] [⟨0, 0⟩, ⟨4, 0⟩, ⟨1, 3⟩] [] = .ok (some e) := by
  obtain ⟨e, he, -⟩ := C74_three_points env heigh ⟨0, 0⟩ ⟨4, 0⟩ ⟨1, 3⟩ (by unfold Spec.Collinear cross; simp)
  exact ⟨e, he⟩
