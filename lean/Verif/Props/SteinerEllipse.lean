import Verif.Props.Affine
import Verif.Props.Triangle

/-!
# C44: Steiner ellipse and inellipse of a triangle
-/

open Spec Real Classical

/-- The centroid. -/
noncomputable def Spec.centroid (A B C : Pt) : Pt := ⟨(A.x + B.x + C.x) / 3, (A.y + B.y + C.y) / 3⟩

/-- The midpoint of a segment. -/
noncomputable def Spec.midPt (A B : Pt) : Pt := ⟨(A.x + B.x) / 2, (A.y + B.y) / 2⟩

theorem sqrt3_sq : sqrt 3 * sqrt 3 = 3 := Real.mul_self_sqrt (by norm_num)

theorem sqrt3_bounds : 1.7 < sqrt 3 ∧ sqrt 3 < 1.8 := by
  constructor
  · apply Real.lt_sqrt_of_sq_lt; norm_num
  · rw [Real.sqrt_lt' (by norm_num)]; norm_num

theorem ref_good : GoodTriple ⟨0, 0⟩ ⟨10, 0⟩ ⟨5, 5 * sqrt 3⟩ := by
  have h := sqrt3_bounds
  unfold GoodTriple allclose npClose Collinear cross
  simp only [Pt.sub_x, Pt.sub_y]
  refine ⟨?_, ?_, ?_, ?_⟩
  · norm_num
  · norm_num
  · norm_num
  · intro h0; nlinarith

/-- An affine map preserves centroids and midpoints. -/
theorem transform_centroid (f : Affine) (A B C : Pt) :
    f.transform (centroid A B C) = centroid (f.transform A) (f.transform B) (f.transform C) := by
  unfold Affine.transform centroid; ext <;> simp <;> ring

theorem transform_midPt (f : Affine) (A B : Pt) :
    f.transform (midPt A B) = midPt (f.transform A) (f.transform B) := by
  unfold Affine.transform midPt; ext <;> simp <;> ring

theorem flatness_ne_one {T : Triangle} (h : ¬ Collinear T.A T.B T.C) : ∃ fl, T.flatness = .ok fl ∧ fl ≠ 1 := by
  obtain ⟨h1, h2, -⟩ := ne_of_not_collinear h
  obtain ⟨fl, e, -, -, h3, -⟩ := C33_flatness T h1.symm h2.symm
  exact ⟨fl, e, fun h0 => h (h3.1 h0)⟩

/-- The circumcircle of the reference triangle. -/
theorem ref_circumcircle : ∃ c : Circle, (Triangle.mk ⟨0, 0⟩ ⟨10, 0⟩ ⟨5, 5 * sqrt 3⟩).circumcircle = .ok (some c) ∧
    0 < c.radius ∧ c.center = centroid ⟨0, 0⟩ ⟨10, 0⟩ ⟨5, 5 * sqrt 3⟩ ∧ OnCircle c.center c.radius ⟨0, 0⟩ ∧
    OnCircle c.center c.radius ⟨10, 0⟩ ∧ OnCircle c.center c.radius ⟨5, 5 * sqrt 3⟩ := by
  obtain ⟨c, h1, h2, h3, h4, h5, -⟩ := C40_circumcircle (Triangle.mk ⟨0, 0⟩ ⟨10, 0⟩ ⟨5, 5 * sqrt 3⟩) ref_good.2.2.2
  refine ⟨c, h1, h2, ?_, h3, h4, h5⟩
  have hs := sqrt3_sq
  have hb := sqrt3_bounds
  unfold OnCircle sqDist at h3 h4 h5
  dsimp only at h3 h4 h5
  have ex : c.center.x = 5 := by linarith
  have ey : c.center.y = 5 * sqrt 3 / 3 := by
    have h0 : sqrt 3 ≠ 0 := by linarith [hb.1]
    apply mul_left_cancel₀ h0
    rw [ex] at h3 h5
    linear_combination (h3 - h5) / 10 + (5 / 2 - 5 / 3) * hs
  unfold centroid
  ext
  · rw [ex]; norm_num
  · rw [ey]; norm_num

/-- The incircle of the reference triangle. -/
theorem ref_incircle : ∃ c : Circle, (Triangle.mk ⟨0, 0⟩ ⟨10, 0⟩ ⟨5, 5 * sqrt 3⟩).incircle = .ok c ∧
    0 < c.radius ∧ c.center = centroid ⟨0, 0⟩ ⟨10, 0⟩ ⟨5, 5 * sqrt 3⟩ ∧ c.radius ^ 2 = 25 / 3 := by
  have hs := sqrt3_sq
  have h100 : sqrt 100 = 10 := by rw [show (100 : ℝ) = 10 ^ 2 by norm_num]; exact Real.sqrt_sq (by norm_num)
  have d1 : distance_ ⟨10, 0⟩ ⟨5, 5 * sqrt 3⟩ = 10 := by
    rw [distance_eq]; unfold Spec.dist sqDist; dsimp only
    rw [show ((10 : ℝ) - 5) ^ 2 + (0 - 5 * sqrt 3) ^ 2 = 100 by linear_combination 25 * hs]; exact h100
  have d2 : distance_ ⟨0, 0⟩ ⟨5, 5 * sqrt 3⟩ = 10 := by
    rw [distance_eq]; unfold Spec.dist sqDist; dsimp only
    rw [show ((0 : ℝ) - 5) ^ 2 + (0 - 5 * sqrt 3) ^ 2 = 100 by linear_combination 25 * hs]; exact h100
  have d3 : distance_ ⟨10, 0⟩ ⟨0, 0⟩ = 10 := by
    rw [distance_eq]; unfold Spec.dist sqDist; dsimp only
    rw [show ((10 : ℝ) - 0) ^ 2 + (0 - 0) ^ 2 = 100 by norm_num]; exact h100
  have hp : 0 < sqrt 1875 / 15 := by positivity
  refine ⟨⟨centroid ⟨0, 0⟩ ⟨10, 0⟩ ⟨5, 5 * sqrt 3⟩, sqrt 1875 / 15⟩, ?_, hp, rfl, ?_⟩
  · unfold Triangle.incircle
    dsimp only
    rw [d1, d2, d3]
    unfold pySqrt
    rw [if_neg (by norm_num), Res.ok_bind, if_neg (by norm_num), show ((10 : ℝ) + 10 + 10) / 2 = 15 by norm_num,
      show (15 : ℝ) * (15 - 10) * (15 - 10) * (15 - 10) = 1875 by norm_num, mkCircle_pos hp]
    congr 2
    unfold centroid
    ext <;> simp <;> ring
  · dsimp only
    rw [div_pow, Real.sq_sqrt (by norm_num)]; norm_num

/-- C44 (Steiner ellipse): it passes through the three vertices and is centered at the centroid.  "Non-flat" is
`GoodTriple`: the vertices are not collinear and no two of them are `np.allclose`; without the last condition the method
raises, see `C44_tiny_triangle_counterexample`. -/
theorem C44_steiner_ellipse_partial (T : Triangle) (h : GoodTriple T.A T.B T.C) :
    ∃ e : Ellipse, T.steiner_ellipse = .ok (some e) ∧ e.Valid ∧ e.center = centroid T.A T.B T.C ∧
      OnEllipse e.center e.rmajor e.rminor e.rad T.A ∧ OnEllipse e.center e.rmajor e.rminor e.rad T.B ∧
      OnEllipse e.center e.rmajor e.rminor e.rad T.C := by
  obtain ⟨fl, hfl, hne⟩ := flatness_ne_one h.2.2.2
  obtain ⟨c, hc, hr, hcen, o1, o2, o3⟩ := ref_circumcircle
  obtain ⟨f, hf, f1, f2, f3, hb, -⟩ := (C46_from_mapping_three_points _ _ _ _ _ _).2 ref_good h
  obtain ⟨e, he, hv, -, -, -, hce, hon, -⟩ := (C47_transform_ellipse f (.circ c) hr).2 hb
  refine ⟨e, ?_, hv, ?_, ?_, ?_, ?_⟩
  · unfold Triangle.steiner_ellipse
    rw [hfl, Res.ok_bind, if_neg hne]
    dsimp only
    rw [hc, Res.ok_bind, hf, Res.ok_bind]
    exact he
  · rw [hce]
    unfold centerArg
    dsimp only
    rw [hcen, transform_centroid, f1, f2, f3]
  · rw [← f1]; exact (hon _).1 o1
  · rw [← f2]; exact (hon _).1 o2
  · rw [← f3]; exact (hon _).1 o3

/-- The Steiner ellipse of `(0, 0)`, `(4, 0)`, `(1, 3)` has the center `(5/3, 1)` and passes through `(4, 0)`. -/
example : ∃ e : Ellipse, (⟨⟨0, 0⟩, ⟨4, 0⟩, ⟨1, 3⟩⟩ : Triangle).steiner_ellipse = .ok (some e) ∧ e.center = ⟨5 / 3, 1⟩ ∧
    OnEllipse e.center e.rmajor e.rminor e.rad ⟨4, 0⟩ := by
  obtain ⟨e, h, -, h1, -, h2, -⟩ := C44_steiner_ellipse_partial ⟨⟨0, 0⟩, ⟨4, 0⟩, ⟨1, 3⟩⟩ (by
    unfold GoodTriple allclose npClose Collinear
    norm_num [abs_of_pos, cross])
  refine ⟨e, h, ?_, h2⟩
  rw [h1]
  unfold centroid
  ext <;> norm_num

/-- C44 (Steiner inellipse): it passes through the midpoints of the sides, is centered at the centroid and has no other
common point with the side lines. -/
theorem C44_steiner_inellipse_partial (T : Triangle) (h : GoodTriple T.A T.B T.C) :
    ∃ e : Ellipse, T.steiner_inellipse = .ok (some e) ∧ e.Valid ∧ e.center = centroid T.A T.B T.C ∧
      (∀ X, OnLine T.A T.B X → (OnEllipse e.center e.rmajor e.rminor e.rad X ↔ X = midPt T.A T.B)) ∧
      (∀ X, OnLine T.B T.C X → (OnEllipse e.center e.rmajor e.rminor e.rad X ↔ X = midPt T.B T.C)) ∧
      (∀ X, OnLine T.C T.A X → (OnEllipse e.center e.rmajor e.rminor e.rad X ↔ X = midPt T.C T.A)) := by
  obtain ⟨fl, hfl, hne⟩ := flatness_ne_one h.2.2.2
  obtain ⟨c, hc, hr, hcen, hr2⟩ := ref_incircle
  obtain ⟨f, hf, f1, f2, f3, hb, -⟩ := (C46_from_mapping_three_points _ _ _ _ _ _).2 ref_good h
  obtain ⟨e, he, hv, -, -, -, hce, hon, -⟩ := (C47_transform_ellipse f (.circ c) hr).2 hb
  have hs := sqrt3_sq
  -- the property for the reference triangle, transported by `f`
  have side : ∀ P Q : Pt, (∀ t : ℝ, OnCircle c.center c.radius (P + t • (Q - P)) ↔ t = 1 / 2) →
      ∀ X, OnLine (f.transform P) (f.transform Q) X →
        (OnEllipse e.center e.rmajor e.rminor e.rad X ↔ X = midPt (f.transform P) (f.transform Q)) := by
    intro P Q ht X hX
    obtain ⟨t, rfl⟩ := hX
    have e1 : f.transform P + t • (f.transform Q - f.transform P) = f.transform (P + t • (Q - P)) := by
      unfold Affine.transform; ext <;> simp <;> ring
    have e2 : midPt P Q = P + (1 / 2 : ℝ) • (Q - P) := by
      unfold midPt; ext <;> simp <;> ring
    rw [e1, ← hon, ← transform_midPt]
    change OnCircle c.center c.radius _ ↔ _
    rw [ht]
    constructor
    · rintro rfl; rw [e2]
    · intro h0
      have := hb.1 h0
      rw [← ht, this]
      rw [e2, ht]
  refine ⟨e, ?_, hv, ?_, ?_, ?_, ?_⟩
  · unfold Triangle.steiner_inellipse
    rw [hfl, Res.ok_bind, if_neg hne]
    dsimp only
    rw [hc, Res.ok_bind, hf, Res.ok_bind]
    exact he
  · rw [hce]
    unfold centerArg
    dsimp only
    rw [hcen, transform_centroid, f1, f2, f3]
  · rw [← f1, ← f2]
    apply side
    intro t
    rw [hcen]
    unfold OnCircle sqDist centroid
    rw [hr2]
    simp
    constructor
    · intro h0
      have : (2 * t - 1) ^ 2 = 0 := by linear_combination h0 / 25 - 1 / 3 * hs * (1 / 3 : ℝ)
      have := pow_eq_zero_iff (two_ne_zero) |>.1 this
      linarith
    · rintro rfl
      linear_combination 25 / 9 * hs
  · rw [← f2, ← f3]
    apply side
    intro t
    rw [hcen]
    unfold OnCircle sqDist centroid
    rw [hr2]
    simp
    constructor
    · intro h0
      have : (2 * t - 1) ^ 2 = 0 := by linear_combination h0 / 25 - (1 / 9 - 2 / 3 * t + t ^ 2) * hs
      have := pow_eq_zero_iff (two_ne_zero) |>.1 this
      linarith
    · rintro rfl
      linear_combination 25 * (1 / 9 - 1 / 3 + 1 / 4) * hs
  · rw [← f3, ← f1]
    apply side
    intro t
    rw [hcen]
    unfold OnCircle sqDist centroid
    rw [hr2]
    simp
    constructor
    · intro h0
      have : (2 * t - 1) ^ 2 = 0 := by linear_combination h0 / 25 - (2 / 3 - t) ^ 2 * hs
      have := pow_eq_zero_iff (two_ne_zero) |>.1 this
      linarith
    · rintro rfl
      linear_combination 25 / 36 * hs

/-- The hypothesis holds for a scalene triangle. -/
example : GoodTriple (Triangle.mk ⟨0, 0⟩ ⟨4, 0⟩ ⟨1, 3⟩).A (Triangle.mk ⟨0, 0⟩ ⟨4, 0⟩ ⟨1, 3⟩).B
    (Triangle.mk ⟨0, 0⟩ ⟨4, 0⟩ ⟨1, 3⟩).C := by
  unfold GoodTriple allclose npClose Collinear cross; simp only [Pt.sub_x, Pt.sub_y]; norm_num [abs_le]

/-- C44: a flat triangle gives `None` for both ellipses. -/
theorem C44_flat (T : Triangle) (h1 : T.A ≠ T.B) (h2 : T.A ≠ T.C) (h : Collinear T.A T.B T.C) :
    T.steiner_ellipse = .ok none ∧ T.steiner_inellipse = .ok none := by
  have hf := (flatness_one_iff T h1 h2).2 h
  constructor
  · unfold Triangle.steiner_ellipse
    rw [hf, Res.ok_bind, if_pos rfl]
    rfl
  · unfold Triangle.steiner_inellipse
    rw [hf, Res.ok_bind, if_pos rfl]
    rfl

/-- Three points of the line `y = 2 x`. -/
example : (⟨⟨0, 0⟩, ⟨1, 2⟩, ⟨3, 6⟩⟩ : Triangle).steiner_ellipse = .ok none ∧ (⟨⟨0, 0⟩, ⟨1, 2⟩, ⟨3, 6⟩⟩ : Triangle).steiner_inellipse = .ok none := by
  refine C44_flat _ (by simp) (by simp) ?_
  unfold Collinear
  norm_num [cross]

/-- C44 fails for a tiny non-flat triangle: both methods raise `AttributeError`. -/
theorem C44_tiny_triangle_counterexample :
    ¬ Collinear (⟨0, 0⟩ : Pt) ⟨1 / 10 ^ 9, 0⟩ ⟨0, 1 / 10 ^ 9⟩ ∧
    (Triangle.mk ⟨0, 0⟩ ⟨1 / 10 ^ 9, 0⟩ ⟨0, 1 / 10 ^ 9⟩).steiner_ellipse = .error .attributeError ∧
    (Triangle.mk ⟨0, 0⟩ ⟨1 / 10 ^ 9, 0⟩ ⟨0, 1 / 10 ^ 9⟩).steiner_inellipse = .error .attributeError := by
  have h0 : ¬ Collinear (⟨0, 0⟩ : Pt) ⟨1 / 10 ^ 9, 0⟩ ⟨0, 1 / 10 ^ 9⟩ := by
    unfold Collinear cross; norm_num
  obtain ⟨fl, hfl, hne⟩ := flatness_ne_one (T := Triangle.mk ⟨0, 0⟩ ⟨1 / 10 ^ 9, 0⟩ ⟨0, 1 / 10 ^ 9⟩) h0
  have hb : ¬ (GoodTriple ⟨0, 0⟩ ⟨10, 0⟩ ⟨5, 5 * sqrt 3⟩ ∧ GoodTriple ⟨0, 0⟩ ⟨1 / 10 ^ 9, 0⟩ ⟨0, 1 / 10 ^ 9⟩) := by
    rintro ⟨-, hg⟩
    apply hg.1
    unfold allclose npClose; norm_num
  have hm := (C46_from_mapping_three_points _ _ _ _ _ _).1.2 hb
  refine ⟨h0, ?_, ?_⟩
  · obtain ⟨c, hc, -⟩ := ref_circumcircle
    unfold Triangle.steiner_ellipse
    rw [hfl, Res.ok_bind, if_neg hne]
    dsimp only
    rw [hc, Res.ok_bind, hm]
    rfl
  · obtain ⟨c, hc, -⟩ := ref_incircle
    unfold Triangle.steiner_inellipse
    rw [hfl, Res.ok_bind, if_neg hne]
    dsimp only
    rw [hc, Res.ok_bind, hm]
    rfl
