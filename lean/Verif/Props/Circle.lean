import Verif.Model.Circle
import Verif.Model.Arc
import Verif.Lemmas.Trig
import Verif.Lemmas.Inversion
import Verif.Props.Line

/-!
# Properties of circles: C14 - C22
-/

open Spec Real Classical

/-! ## C14 -/

/-- C14: `contains` is the closed disk, and is decided by the sign of the power. -/
theorem C14_contains_power (c : Circle) (hc : c.Valid) (P : Pt) :
    (c.contains P ↔ dist P c.center ≤ c.radius) ∧ (c.contains P ↔ c.power P ≤ 0) ∧
      c.power P = dist P c.center ^ 2 - c.radius ^ 2 := by
  have hr : 0 ≤ c.radius := le_of_lt hc
  refine ⟨?_, ?_, ?_⟩
  · rw [dist_le_iff hr]; unfold Circle.contains; rw [dot1_eq, pow_two]
  · unfold Circle.contains Circle.power; rw [sub_nonpos]
  · unfold Circle.power; rw [dot1_eq, dist_sq, pow_two]

/-- The power of `(1, 0)` for the circle of center `(1, 2)` and radius 5 is `4 - 25`, so that the point is inside. -/
example : (⟨⟨1, 2⟩, 5⟩ : Circle).contains ⟨1, 0⟩ ∧ (⟨⟨1, 2⟩, 5⟩ : Circle).power ⟨1, 0⟩ = -21 ∧
    ¬ (⟨⟨1, 2⟩, 5⟩ : Circle).contains ⟨5, 6⟩ := by
  have hv : (⟨⟨1, 2⟩, 5⟩ : Circle).Valid := by unfold Circle.Valid; norm_num
  have h := C14_contains_power _ hv
  have e : (⟨⟨1, 2⟩, 5⟩ : Circle).power ⟨1, 0⟩ = -21 := by
    rw [(h _).2.2]; unfold Spec.dist; rw [Real.sq_sqrt] <;> norm_num [sqDist]
  refine ⟨(h _).2.1.2 (by rw [e]; norm_num), e, fun hc => ?_⟩
  have := (h _).2.1.1 hc
  rw [(h _).2.2] at this
  unfold Spec.dist at this
  rw [Real.sq_sqrt] at this <;> norm_num [sqDist] at this

/-- C14: `point_from_angle` gives a point of the circle, in the right direction, which `includes` accepts; degrees
and radians agree. -/
theorem C14_point_from_angle (c : Circle) (hc : c.Valid) (alpha : ℝ) :
    c.point_from_angle alpha false = ⟨c.center.x + c.radius * cos alpha, c.center.y + c.radius * sin alpha⟩ ∧
    c.point_from_angle alpha true = c.point_from_angle (alpha * (π / 180)) false ∧
    ∀ d, dist (c.point_from_angle alpha d) c.center = c.radius ∧ c.includes (c.point_from_angle alpha d) := by
  have key : ∀ a, sqDist (c.point_from_angle a false) c.center = c.radius ^ 2 := by
    intro a
    simp only [Circle.point_from_angle, unit_vector_, sqDist]
    simp
    linear_combination c.radius ^ 2 * sin_sq_add_cos_sq a
  have h2 : c.point_from_angle alpha true = c.point_from_angle (alpha * (π / 180)) false := by
    simp [Circle.point_from_angle]
  refine ⟨?_, h2, ?_⟩
  · ext <;> simp [Circle.point_from_angle, unit_vector_]
  · intro d
    have : sqDist (c.point_from_angle alpha d) c.center = c.radius ^ 2 := by
      cases d
      · exact key _
      · rw [h2]; exact key _
    refine ⟨(dist_eq_iff (le_of_lt hc)).2 this, ?_⟩
    unfold Circle.includes
    rw [dot1_eq, this, pow_two]
    exact approx_equal_refl _

/-- The point at 180 degrees. -/
example : (⟨⟨1, 2⟩, 5⟩ : Circle).point_from_angle 180 = ⟨-4, 2⟩ := by
  have h := C14_point_from_angle ⟨⟨1, 2⟩, 5⟩ (by unfold Circle.Valid; norm_num)
  have e : (180 : ℝ) * (π / 180) = π := by ring
  rw [(h 180).2.1, e, (h π).1]
  ext <;> norm_num

/-- C14: every point of the circle is included, and an included point is on the circle up to the tolerance. -/
theorem C14_includes (c : Circle) (P : Pt) :
    (OnCircle c.center c.radius P → c.includes P) ∧
    (c.includes P → |sqDist P c.center - c.radius ^ 2| ≤
      1 / 10 ^ 9 * (max (sqDist P c.center) (c.radius ^ 2) + 1)) := by
  constructor
  · intro h
    unfold Circle.includes
    rw [dot1_eq, show sqDist P c.center = c.radius ^ 2 from h, pow_two]
    exact approx_equal_refl _
  · intro h
    unfold Circle.includes at h
    rw [dot1_eq] at h
    have := approx_equal_bound h
    rw [abs_of_nonneg (sqDist_nonneg _ _), abs_of_nonneg (mul_self_nonneg c.radius), ← pow_two] at this
    exact this

example : (⟨⟨1, 2⟩, 5⟩ : Circle).Valid ∧ OnCircle ⟨1, 2⟩ 5 ⟨4, 6⟩ := by
  constructor
  · unfold Circle.Valid; norm_num
  · unfold OnCircle sqDist; norm_num

/-! ## C15 -/

/-- Power of a point with respect to a circle. -/
noncomputable def specPower (O : Pt) (r : ℝ) (P : Pt) : ℝ := sqDist P O - r ^ 2

/-- C15: the radical center of two circles with distinct centers. -/
theorem C15_radical_center (c1 c2 : Circle) (h : c1.center ≠ c2.center) :
    ∃ R, c1.radical_center c2 = .ok R ∧ OnLine c1.center c2.center R ∧
      specPower c1.center c1.radius R = specPower c2.center c2.radius R := by
  have hd := sqDist_pos h
  unfold Circle.radical_center
  dsimp only
  rw [dot1_eq, if_neg (by rw [sqDist_comm]; exact hd.ne')]
  obtain ⟨D, hD⟩ : ∃ D, D = sqDist c2.center c1.center := ⟨_, rfl⟩
  rw [sqDist_comm, ← hD] at hd
  rw [← hD]
  refine ⟨_, rfl, ?_, ?_⟩
  · refine ⟨1 / 2 + (c1.radius * c1.radius - c2.radius * c2.radius) / 2 / D, ?_⟩
    ext <;> simp <;> field_simp <;> ring
  · unfold specPower sqDist at *
    simp
    field_simp
    rw [hD]
    ring

/-- Two circles of radius 5 whose centers are 6 apart: the radical center is the middle. -/
example : (⟨⟨0, 0⟩, 5⟩ : Circle).radical_center ⟨⟨6, 0⟩, 5⟩ = .ok ⟨3, 0⟩ := by
  obtain ⟨R, hR, ⟨t, rfl⟩, hp⟩ := C15_radical_center ⟨⟨0, 0⟩, 5⟩ ⟨⟨6, 0⟩, 5⟩ (by simp)
  rw [hR]
  simp [specPower, sqDist] at hp
  have : t = 1 / 2 := by linarith
  subst this
  congr 1
  ext <;> norm_num

/-- C15: for equal centers there is no radical center. -/
theorem C15_radical_center_concentric (c1 c2 : Circle) (h : c1.center = c2.center) :
    c1.radical_center c2 = .error .nonFinite := by
  unfold Circle.radical_center
  dsimp only
  rw [dot1_eq, if_pos (by rw [h]; simp [sqDist])]

/-- Concentric circles: the code returns infinite coordinates. -/
example : (⟨⟨2, 1⟩, 5⟩ : Circle).radical_center ⟨⟨2, 1⟩, 3⟩ = .error .nonFinite :=
  C15_radical_center_concentric _ _ rfl

/-- Unfolding of `radical_axis`. -/
theorem radical_axis_some {c1 c2 : Circle} {l : Line} : c1.radical_axis c2 = .ok (some l) ↔
    ¬ allclose c1.center c2.center ∧ ∃ R, c1.radical_center c2 = .ok R ∧
      mkLine R ⟨R.x - (c2.center.y - c1.center.y), R.y + (c2.center.x - c1.center.x)⟩ = .ok l := by
  unfold Circle.radical_axis
  dsimp only
  split_ifs with hc
  · simp [hc]
  · have : ∀ R : Pt, R + ⟨-(c2.center - c1.center).y, (c2.center - c1.center).x⟩ =
        ⟨R.x - (c2.center.y - c1.center.y), R.y + (c2.center.x - c1.center.x)⟩ := by
      intro R; ext <;> simp; ring
    simp only [this, Res.bind_ok, Res.pure_ok]
    simp [hc]

/-- C15: the points of the radical axis are the points with equal powers. -/
theorem C15_radical_axis (c1 c2 : Circle) (l : Line) (h : c1.radical_axis c2 = .ok (some l)) (P : Pt) :
    OnLine l.A l.B P ↔ specPower c1.center c1.radius P = specPower c2.center c2.radius P := by
  obtain ⟨hc, R, hR', hl⟩ := radical_axis_some.1 h
  have hne := ne_of_not_allclose hc
  obtain ⟨R', hR, -, hp⟩ := C15_radical_center c1 c2 hne
  obtain rfl : R' = R := by rw [hR] at hR'; injection hR'
  have hv := mkLine_valid hl
  rw [onLine_iff_cross (ne_of_not_allclose hv)]
  obtain ⟨-, rfl⟩ := mkLine_ok.1 hl
  simp only [cross, specPower, sqDist, Pt.sub_x, Pt.sub_y] at *
  constructor
  · intro h; linear_combination hp - 2 * h
  · intro h; linear_combination hp / 2 - h / 2

/-- The radical axis of two circles that meet in `(3, 4)` and `(3, -4)` is the line through the two points. -/
example : ∃ l, (⟨⟨0, 0⟩, 5⟩ : Circle).radical_axis ⟨⟨6, 0⟩, 5⟩ = .ok (some l) ∧ OnLine l.A l.B ⟨3, 4⟩ ∧
    OnLine l.A l.B ⟨3, -4⟩ ∧ ¬ OnLine l.A l.B ⟨4, 0⟩ := by
  obtain ⟨l, hl⟩ : ∃ l, (⟨⟨0, 0⟩, 5⟩ : Circle).radical_axis ⟨⟨6, 0⟩, 5⟩ = .ok (some l) := by
    unfold Circle.radical_axis
    dsimp only
    rw [if_neg (by unfold allclose npClose; norm_num [abs_of_pos])]
    have e : (⟨⟨0, 0⟩, 5⟩ : Circle).radical_center ⟨⟨6, 0⟩, 5⟩ = .ok ⟨3, 0⟩ := by
      unfold Circle.radical_center dot1_ dot_
      norm_num
      ext <;> norm_num
    rw [e]
    simp only [Res.ok_bind]
    unfold mkLine
    rw [if_neg]
    · exact ⟨_, rfl⟩
    · unfold allclose npClose; norm_num [abs_of_pos]
  refine ⟨l, hl, ?_, ?_, ?_⟩ <;> rw [C15_radical_axis _ _ l hl] <;> norm_num [specPower, sqDist]

/-- C15: `radical_axis` returns `None` exactly for `np.allclose` centers, and otherwise it raises exactly when the
radical center and its translate by the normal vector are `np.allclose`. -/
theorem C15_radical_axis_total (c1 c2 : Circle) :
    (c1.radical_axis c2 = .ok none ↔ allclose c1.center c2.center) ∧
    (¬ allclose c1.center c2.center →
      ((∃ l, c1.radical_axis c2 = .ok (some l)) ↔
        ∃ R, c1.radical_center c2 = .ok R ∧
          ¬ allclose R ⟨R.x - (c2.center.y - c1.center.y), R.y + (c2.center.x - c1.center.x)⟩)) := by
  constructor
  · unfold Circle.radical_axis
    dsimp only
    split_ifs with hc
    · simp [hc]
    · simp only [Res.bind_ok, Res.pure_ok]
      simp [hc]
  · intro hc
    simp only [radical_axis_some, mkLine_ok]
    constructor
    · rintro ⟨l, -, R, h1, h2, -⟩; exact ⟨R, h1, h2⟩
    · rintro ⟨R, h1, h2⟩; exact ⟨_, hc, R, h1, h2, rfl⟩

example : ¬ allclose (⟨0, 0⟩ : Pt) ⟨4, 0⟩ := by unfold allclose npClose; norm_num

/-! ## C16 -/

/-- Unfolding of `radical_center` of three circles. -/
theorem radical_center_ok {c1 c2 c3 : Circle} {o : Option Pt} : radical_center c1 c2 c3 = .ok o ↔
    ∃ l1 l2 : Line, c1.radical_axis c2 = .ok (some l1) ∧ c1.radical_axis c3 = .ok (some l2) ∧
      line_line_intersection_ l1.A l1.B l2.A l2.B = o := by
  unfold radical_center
  simp only [Res.bind_ok]
  constructor
  · rintro ⟨o1, h1, o2, h2, h⟩
    rcases o1 with _ | l1 <;> rcases o2 with _ | l2 <;> simp [Res.pure_ok] at h
    exact ⟨l1, l2, h1, h2, h⟩
  · rintro ⟨l1, l2, h1, h2, h⟩
    exact ⟨some l1, h1, some l2, h2, by simp [Res.pure_ok, h]⟩

theorem radical_axis_valid {c1 c2 : Circle} {l : Line} (h : c1.radical_axis c2 = .ok (some l)) :
    l.Valid ∧ l.B.x - l.A.x = -(c2.center.y - c1.center.y) ∧ l.B.y - l.A.y = c2.center.x - c1.center.x := by
  obtain ⟨hc, R, hR', hl⟩ := radical_axis_some.1 h
  refine ⟨mkLine_valid hl, ?_⟩
  obtain ⟨-, rfl⟩ := mkLine_ok.1 hl
  constructor <;> simp

/-- C16: a returned point has the same power with respect to the three circles, and is the only such point. -/
theorem C16_radical_center_three (c1 c2 c3 : Circle) (R : Pt) (h : radical_center c1 c2 c3 = .ok (some R)) :
    (specPower c1.center c1.radius R = specPower c2.center c2.radius R ∧
      specPower c1.center c1.radius R = specPower c3.center c3.radius R) ∧
    ∀ P, specPower c1.center c1.radius P = specPower c2.center c2.radius P →
      specPower c1.center c1.radius P = specPower c3.center c3.radius P → P = R := by
  obtain ⟨l1, l2, h1, h2, h⟩ := radical_center_ok.1 h
  have a1 := C15_radical_axis c1 c2 l1 h1
  have a2 := C15_radical_axis c1 c3 l2 h2
  obtain ⟨v1, -⟩ := radical_axis_valid h1
  obtain ⟨v2, -⟩ := radical_axis_valid h2
  have n1 := ne_of_not_allclose v1
  have n2 := ne_of_not_allclose v2
  obtain ⟨d0, d1, d2⟩ := lli_some h
  refine ⟨⟨(a1 R).1 ((onLine_iff_cross n1).2 d1), (a2 R).1 ((onLine_iff_cross n2).2 d2)⟩, ?_⟩
  intro J j1 j2
  exact lli_unique d0 d1 d2 ((onLine_iff_cross n1).1 ((a1 J).2 j1)) ((onLine_iff_cross n2).1 ((a2 J).2 j2))

/-- C16: when the two radical axes exist, `None` is returned exactly for collinear centers. -/
theorem C16_radical_center_none_iff (c1 c2 c3 : Circle) (o : Option Pt) (h : radical_center c1 c2 c3 = .ok o) :
    o = none ↔ Collinear c1.center c2.center c3.center := by
  obtain ⟨l1, l2, h1, h2, h⟩ := radical_center_ok.1 h
  obtain ⟨-, x1, y1⟩ := radical_axis_valid h1
  obtain ⟨-, x2, y2⟩ := radical_axis_valid h2
  rw [← h, lli_none_iff]
  unfold Collinear
  simp only [cross, Pt.sub_x, Pt.sub_y]
  rw [x1, y1, x2, y2]
  constructor <;> intro h <;> linear_combination h

/-- Three circles with collinear centers have no radical center; three others have one. -/
example (o : Option Pt) (h : radical_center ⟨⟨0, 0⟩, 3⟩ ⟨⟨4, 0⟩, 3⟩ ⟨⟨7, 0⟩, 1⟩ = .ok o) : o = none :=
  (C16_radical_center_none_iff _ _ _ o h).2 (by norm_num [Collinear, cross])

example (o : Option Pt) (h : radical_center ⟨⟨0, 0⟩, 3⟩ ⟨⟨4, 0⟩, 3⟩ ⟨⟨0, 5⟩, 1⟩ = .ok o) : ∃ P, o = some P := by
  have := (C16_radical_center_none_iff _ _ _ o h).not.2 (by norm_num [Collinear, cross])
  exact Option.ne_none_iff_exists'.1 this

/-- C16: the call fails exactly when one of the two radical axes cannot be built.  Missing from the full claim:
"returns a point when the centers are not collinear and not `np.allclose`", which does not follow because `Line` rejects
an axis whose two defining points are `np.allclose`. -/
theorem C16_radical_center_total_partial (c1 c2 c3 : Circle) :
    (∃ o, radical_center c1 c2 c3 = .ok o) ↔
      (∃ l, c1.radical_axis c2 = .ok (some l)) ∧ ∃ l, c1.radical_axis c3 = .ok (some l) := by
  simp only [radical_center_ok]
  constructor
  · rintro ⟨o, l1, l2, h1, h2, -⟩; exact ⟨⟨l1, h1⟩, l2, h2⟩
  · rintro ⟨⟨l1, h1⟩, l2, h2⟩; exact ⟨_, l1, l2, h1, h2, rfl⟩

/-- C16, a failure of the informal reading "non-collinear centers always give a point": three circles with
non-collinear centers for which the call raises `AttributeError`, because two centers at distance 1 are
`np.allclose`. -/
theorem C16_close_centers_counterexample :
    radical_center ⟨⟨10 ^ 6, 0⟩, 3⟩ ⟨⟨10 ^ 6 + 1, 0⟩, 3⟩ ⟨⟨10 ^ 6, 10 ^ 6⟩, 3⟩ = .error .attributeError ∧
    ¬ Collinear (⟨10 ^ 6, 0⟩ : Pt) ⟨10 ^ 6 + 1, 0⟩ ⟨10 ^ 6, 10 ^ 6⟩ := by
  constructor
  · have h1 : (⟨⟨10 ^ 6, 0⟩, 3⟩ : Circle).radical_axis ⟨⟨10 ^ 6 + 1, 0⟩, 3⟩ = .ok none := by
      apply (C15_radical_axis_total _ _).1.2
      unfold allclose npClose
      norm_num [abs_of_pos]
    have hR : (⟨⟨10 ^ 6, 0⟩, 3⟩ : Circle).radical_center ⟨⟨10 ^ 6, 10 ^ 6⟩, 3⟩ = .ok ⟨10 ^ 6, 10 ^ 6 / 2⟩ := by
      unfold Circle.radical_center
      dsimp only
      rw [if_neg (by norm_num [dot1_, dot_])]
      congr 1
      ext <;> norm_num
    obtain ⟨l, h2⟩ := ((C15_radical_axis_total ⟨⟨10 ^ 6, 0⟩, 3⟩ ⟨⟨10 ^ 6, 10 ^ 6⟩, 3⟩).2
      (by unfold allclose npClose; norm_num [abs_of_pos])).2
      ⟨_, hR, by unfold allclose npClose; norm_num [abs_of_pos]⟩
    unfold radical_center
    rw [h1, h2]
    rfl
  · unfold Collinear cross; norm_num

example : ∃ o, radical_center ⟨⟨0, 0⟩, 3⟩ ⟨⟨4, 0⟩, 3⟩ ⟨⟨0, 5⟩, 1⟩ = .ok o := by
  rw [C16_radical_center_total_partial]
  constructor
  · refine ((C15_radical_axis_total _ _).2 (by unfold allclose npClose; norm_num)).2 ⟨⟨2, 0⟩, ?_, ?_⟩
    · unfold Circle.radical_center
      dsimp only
      rw [if_neg (by norm_num [dot1_, dot_])]
      congr 1
      ext <;> norm_num
    · unfold allclose npClose; norm_num [abs_of_pos]
  · refine ((C15_radical_axis_total _ _).2 (by unfold allclose npClose; norm_num)).2 ⟨⟨0, 33 / 10⟩, ?_, ?_⟩
    · unfold Circle.radical_center
      dsimp only
      rw [if_neg (by norm_num [dot1_, dot_])]
      congr 1
      ext <;> norm_num [dot1_, dot_]
    · unfold allclose npClose; norm_num [abs_of_pos]

/-! ## C17 -/

theorem pyMod_eq_zero_iff {x m : ℝ} (hm : m ≠ 0) : pyMod x m = 0 ↔ ∃ n : ℤ, x = n * m := by
  constructor
  · intro h
    unfold pyMod at h
    exact ⟨⌊x / m⌋, by linarith⟩
  · rintro ⟨n, rfl⟩
    have := pyMod_add_int_mul 0 hm n
    rw [zero_add] at this
    rw [this]; simp [pyMod]

theorem cos_half_ne_zero {x : ℝ} (h : pyMod x π ≠ 0) : cos (x / 2) ≠ 0 ∧ sin (x / 2) ≠ 0 := by
  have hs : sin x ≠ 0 := by
    intro h0
    obtain ⟨n, hn⟩ := sin_eq_zero_iff.1 h0
    exact h ((pyMod_eq_zero_iff pi_ne_zero).2 ⟨n, hn.symm⟩)
  have : sin x = 2 * sin (x / 2) * cos (x / 2) := by rw [← sin_two_mul]; congr 1; ring
  constructor
  · intro h0; apply hs; rw [this, h0]; ring
  · intro h0; apply hs; rw [this, h0]; ring

/-- The center computed by `orthogonal_through_two_points_on_circle` seen from the two points. -/
theorem orth_center_aux (I : Pt) (r a1 a2 : ℝ) (hc : cos ((a1 - a2) / 2) ≠ 0) :
    (⟨I.x + r * cos a1, I.y + r * sin a1⟩ : Pt) - (I + (r / cos ((a1 - a2) / 2)) • unit_vector_ ((a1 + a2) / 2)) =
      ⟨r * tan ((a1 - a2) / 2) * cos (a1 + π / 2), r * tan ((a1 - a2) / 2) * sin (a1 + π / 2)⟩ ∧
    (⟨I.x + r * cos a2, I.y + r * sin a2⟩ : Pt) - (I + (r / cos ((a1 - a2) / 2)) • unit_vector_ ((a1 + a2) / 2)) =
      ⟨-(r * tan ((a1 - a2) / 2)) * cos (a2 + π / 2), -(r * tan ((a1 - a2) / 2)) * sin (a2 + π / 2)⟩ := by
  obtain ⟨m, hm⟩ : ∃ m, m = (a1 + a2) / 2 := ⟨_, rfl⟩
  obtain ⟨d, hd⟩ : ∃ d, d = (a1 - a2) / 2 := ⟨_, rfl⟩
  have e1 : a1 = m + d := by rw [hm, hd]; ring
  have e2 : a2 = m - d := by rw [hm, hd]; ring
  rw [← hd] at hc ⊢
  rw [← hm]
  have hsc := sin_sq_add_cos_sq d
  rw [e1, e2]
  simp only [unit_vector_, tan_eq_sin_div_cos, cos_add_pi_div_two, sin_add_pi_div_two]
  rw [cos_add, sin_add, cos_sub, sin_sub]
  constructor
  · ext
    · simp; field_simp; linear_combination r * cos m * hsc
    · simp; field_simp; linear_combination r * sin m * hsc
  · ext
    · simp; field_simp; linear_combination r * cos m * hsc
    · simp; field_simp; linear_combination r * sin m * hsc

/-- C17: angles that do not differ by a multiple of `π`: a circle orthogonal to the reference circle through the two
points. -/
theorem C17_orthogonal_on_circle (c : Circle) (hc : c.Valid) (a1 a2 : ℝ) (h : ∀ n : ℤ, a1 - a2 ≠ n * π) :
    ∃ o, c.orthogonal_through_two_points_on_circle a1 a2 false = .ok (.circle o) ∧ o.Valid ∧
      Orthogonal c.center c.radius o.center o.radius ∧
      OnCircle o.center o.radius (c.point_from_angle a1 false) ∧
      OnCircle o.center o.radius (c.point_from_angle a2 false) := by
  have hm : pyMod (a1 - a2) π ≠ 0 := by
    rw [Ne, pyMod_eq_zero_iff pi_ne_zero]; push Not; exact h
  obtain ⟨hcos, hsin⟩ := cos_half_ne_zero hm
  have htan : tan ((a1 - a2) / 2) ≠ 0 := by rw [tan_eq_sin_div_cos]; exact div_ne_zero hsin hcos
  have hr0 : 0 < c.radius * |tan ((a1 - a2) / 2)| := mul_pos hc (abs_pos.2 htan)
  unfold Circle.orthogonal_through_two_points_on_circle
  dsimp only
  rw [if_neg hm, if_neg (by simp), mkCircle_pos hr0]
  refine ⟨_, rfl, hr0, ?_, ?_, ?_⟩
  · unfold Orthogonal sqDist unit_vector_
    dsimp only
    rw [mul_pow, sq_abs, tan_eq_sin_div_cos]
    simp
    field_simp
    linear_combination c.radius ^ 2 * sin_sq_add_cos_sq ((a1 + a2) / 2) - c.radius ^ 2 * sin_sq_add_cos_sq ((a1 - a2) / 2)
  · have e := (orth_center_aux c.center c.radius a1 a2 hcos).1
    have ex := congrArg Pt.x e
    have ey := congrArg Pt.y e
    rw [(C14_point_from_angle c hc a1).1]
    unfold OnCircle sqDist
    dsimp only at *
    rw [Pt.sub_x] at ex
    rw [Pt.sub_y] at ey
    dsimp only at ex ey
    rw [ex, ey, mul_pow, mul_pow c.radius |_|, sq_abs]
    linear_combination (c.radius * tan ((a1 - a2) / 2)) ^ 2 * sin_sq_add_cos_sq (a1 + π / 2)
  · have e := (orth_center_aux c.center c.radius a1 a2 hcos).2
    have ex := congrArg Pt.x e
    have ey := congrArg Pt.y e
    rw [(C14_point_from_angle c hc a2).1]
    unfold OnCircle sqDist
    dsimp only at *
    rw [Pt.sub_x] at ex
    rw [Pt.sub_y] at ey
    dsimp only at ex ey
    rw [ex, ey, mul_pow, mul_pow c.radius |_|, sq_abs]
    linear_combination (c.radius * tan ((a1 - a2) / 2)) ^ 2 * sin_sq_add_cos_sq (a2 + π / 2)

/-- C17 with `arc=True`: the arc of the same circle, with the two points as ends. -/
theorem C17_orthogonal_on_circle_arc (c : Circle) (hc : c.Valid) (a1 a2 : ℝ) (h : ∀ n : ℤ, a1 - a2 ≠ n * π) :
    ∃ o a, c.orthogonal_through_two_points_on_circle a1 a2 false = .ok (.circle o) ∧
      c.orthogonal_through_two_points_on_circle a1 a2 true = .ok (.arc a) ∧
      a.center = o.center ∧ a.radius = o.radius ∧
      ((a.starting_point = c.point_from_angle a1 false ∧ a.ending_point = c.point_from_angle a2 false) ∨
       (a.starting_point = c.point_from_angle a2 false ∧ a.ending_point = c.point_from_angle a1 false)) := by
  have hm : pyMod (a1 - a2) π ≠ 0 := by
    rw [Ne, pyMod_eq_zero_iff pi_ne_zero]; push Not; exact h
  obtain ⟨hcos, hsin⟩ := cos_half_ne_zero hm
  have htan : tan ((a1 - a2) / 2) ≠ 0 := by rw [tan_eq_sin_div_cos]; exact div_ne_zero hsin hcos
  have hr0 : 0 < c.radius * |tan ((a1 - a2) / 2)| := mul_pos hc (abs_pos.2 htan)
  obtain ⟨D, hD⟩ : ∃ D, D = pyMod (a2 - a1) (2 * π) := ⟨_, rfl⟩
  obtain ⟨k, hk⟩ : ∃ k : ℤ, D = a2 - a1 - 2 * π * k := ⟨⌊(a2 - a1) / (2 * π)⌋, by rw [hD]; rfl⟩
  have hD0 : 0 ≤ D := by rw [hD]; exact pyMod_nonneg _ (by positivity)
  have hD1 : D < 2 * π := by rw [hD]; exact pyMod_lt _ (by positivity)
  have hDne0 : D ≠ 0 := by
    intro h0; apply h (-2 * k); push_cast; rw [h0] at hk; linarith
  have hDnepi : D ≠ π := by
    intro h0; apply h (-2 * k - 1); push_cast; rw [h0] at hk; linarith
  have htanD : tan ((a1 - a2) / 2) = -tan (D / 2) := by
    rw [show (a1 - a2) / 2 = -(D / 2 + k * π) by rw [hk]; ring, tan_neg, tan_add_int_mul_pi]
  have e1 := (orth_center_aux c.center c.radius a1 a2 hcos).1
  have e2 := (orth_center_aux c.center c.radius a1 a2 hcos).2
  obtain ⟨ctr, hctr⟩ : ∃ ctr, ctr = c.center + (c.radius / cos ((a1 - a2) / 2)) • unit_vector_ ((a1 + a2) / 2) := ⟨_, rfl⟩
  obtain ⟨t, ht⟩ : ∃ t, t = tan ((a1 - a2) / 2) := ⟨_, rfl⟩
  rw [← hctr, ← ht] at e1 e2
  rw [← (C14_point_from_angle c hc a1).1] at e1
  rw [← (C14_point_from_angle c hc a2).1] at e2
  -- the two angles
  obtain ⟨th1, hth1⟩ : ∃ x, x = -π / 2 + (if D ≥ π then π else 0) + a1 := ⟨_, rfl⟩
  obtain ⟨th2, hth2⟩ : ∃ x, x = -π / 2 + (if D ≥ π then π else 0) - π + D + a1 := ⟨_, rfl⟩
  have p1 : ctr + (c.radius * |t|) • unit_vector_ th1 = c.point_from_angle a1 false := by
    have ex := congrArg Pt.x e1
    have ey := congrArg Pt.y e1
    rw [Pt.sub_x] at ex
    rw [Pt.sub_y] at ey
    dsimp only at ex ey
    rw [cos_add_pi_div_two] at ex
    rw [sin_add_pi_div_two] at ey
    rw [hth1]
    split_ifs with hge
    · have hneg : tan (D / 2) < 0 := by
        rw [← tan_sub_pi]
        exact tan_neg_of_neg_of_pi_div_two_lt (by linarith) (by
          have := lt_of_le_of_ne hge (Ne.symm hDnepi); linarith)
      rw [abs_of_pos (by rw [ht, htanD]; linarith)]
      have : -π / 2 + π + a1 = a1 + π / 2 := by ring
      rw [this]
      unfold unit_vector_
      rw [cos_add_pi_div_two, sin_add_pi_div_two]
      ext
      · simp; linarith
      · simp; linarith
    · have hpos : 0 < tan (D / 2) :=
        tan_pos_of_pos_of_lt_pi_div_two (by have := lt_of_le_of_ne hD0 (Ne.symm hDne0); linarith)
          (by push Not at hge; linarith)
      rw [abs_of_neg (by rw [ht, htanD]; linarith)]
      have : -π / 2 + 0 + a1 = a1 - π / 2 := by ring
      rw [this]
      unfold unit_vector_
      rw [cos_sub_pi_div_two, sin_sub_pi_div_two]
      ext
      · simp; linarith
      · simp; linarith
  have p2 : ctr + (c.radius * |t|) • unit_vector_ th2 = c.point_from_angle a2 false := by
    have ex := congrArg Pt.x e2
    have ey := congrArg Pt.y e2
    rw [Pt.sub_x] at ex
    rw [Pt.sub_y] at ey
    dsimp only at ex ey
    rw [cos_add_pi_div_two] at ex
    rw [sin_add_pi_div_two] at ey
    rw [hth2]
    split_ifs with hge
    · have hneg : tan (D / 2) < 0 := by
        rw [← tan_sub_pi]
        exact tan_neg_of_neg_of_pi_div_two_lt (by linarith) (by
          have := lt_of_le_of_ne hge (Ne.symm hDnepi); linarith)
      rw [abs_of_pos (by rw [ht, htanD]; linarith)]
      have : -π / 2 + π - π + D + a1 = (a2 - π / 2) - k * (2 * π) := by rw [hk]; ring
      rw [this]
      unfold unit_vector_
      rw [cos_sub_int_mul_two_pi, sin_sub_int_mul_two_pi, cos_sub_pi_div_two, sin_sub_pi_div_two]
      ext
      · simp; linarith
      · simp; linarith
    · have hpos : 0 < tan (D / 2) :=
        tan_pos_of_pos_of_lt_pi_div_two (by have := lt_of_le_of_ne hD0 (Ne.symm hDne0); linarith)
          (by push Not at hge; linarith)
      rw [abs_of_neg (by rw [ht, htanD]; linarith)]
      have : -π / 2 + 0 - π + D + a1 = (a2 + π / 2) - (k + 1 : ℤ) * (2 * π) := by rw [hk]; push_cast; ring
      rw [this]
      unfold unit_vector_
      rw [cos_sub_int_mul_two_pi, sin_sub_int_mul_two_pi, cos_add_pi_div_two, sin_add_pi_div_two]
      ext
      · simp; linarith
      · simp; linarith
  refine ⟨⟨ctr, c.radius * |t|⟩, ⟨ctr, c.radius * |t|, min th1 th2, max th1 th2, false⟩, ?_, ?_, rfl, rfl, ?_⟩
  · unfold Circle.orthogonal_through_two_points_on_circle
    dsimp only
    rw [if_neg hm, if_neg (by simp), mkCircle_pos hr0, hctr, ht]
    rfl
  · unfold Circle.orthogonal_through_two_points_on_circle
    dsimp only
    rw [if_neg hm, if_pos rfl, ← hD, ← hth1, ← hth2, ← hctr, ← ht]
    unfold mkArc
    rw [if_neg (by rw [ht]; push Not; exact hr0)]
    rfl
  · rcases le_total th1 th2 with hle | hle
    · left
      simp only [Arc.starting_point, Arc.ending_point, min_eq_left hle, max_eq_right hle]
      simpa using ⟨p1, p2⟩
    · right
      simp only [Arc.starting_point, Arc.ending_point, min_eq_right hle, max_eq_left hle]
      simpa using ⟨p2, p1⟩

/-- The circle orthogonal to the circle of center `(1, 2)` and radius 5 at the angles 1 and 0: both constructions
succeed, the points at these angles are the ends of the arc. -/
example : ∃ o a, (⟨⟨1, 2⟩, 5⟩ : Circle).orthogonal_through_two_points_on_circle 1 0 false = .ok (.circle o) ∧
    (⟨⟨1, 2⟩, 5⟩ : Circle).orthogonal_through_two_points_on_circle 1 0 true = .ok (.arc a) ∧
    Orthogonal (⟨1, 2⟩ : Pt) 5 o.center o.radius ∧ a.center = o.center ∧ OnCircle o.center o.radius ⟨6, 2⟩ := by
  have hv : (⟨⟨1, 2⟩, 5⟩ : Circle).Valid := by unfold Circle.Valid; norm_num
  have hn : ∀ n : ℤ, (1 : ℝ) - 0 ≠ n * π := by
    intro n hn
    have := Real.pi_gt_three
    rcases lt_trichotomy n 0 with h | h | h
    · have : (n : ℝ) ≤ -1 := by exact_mod_cast (by omega : n ≤ -1)
      nlinarith
    · subst h; norm_num at hn
    · have : (1 : ℝ) ≤ n := by exact_mod_cast h
      nlinarith
  obtain ⟨o, h1, -, h2, -, h3⟩ := C17_orthogonal_on_circle _ hv 1 0 hn
  obtain ⟨o', a, h4, h5, h6, -⟩ := C17_orthogonal_on_circle_arc _ hv 1 0 hn
  rw [h1] at h4
  cases h4
  refine ⟨o, a, h1, h5, h2, h6, ?_⟩
  have e : (⟨⟨1, 2⟩, 5⟩ : Circle).point_from_angle 0 false = ⟨6, 2⟩ := by
    rw [(C14_point_from_angle _ hv 0).1]; ext <;> norm_num
  rwa [e] at h3

/-- C17: for angles differing by an odd multiple of `π` the result is the diameter through the two points (the `Line`
constructor may still reject the two points as `np.allclose`). -/
theorem C17_orthogonal_on_circle_diameter (c : Circle) (hc : c.Valid) (a1 a2 : ℝ) (n : ℤ)
    (h : a1 - a2 = (2 * n + 1) * π) (arc : Bool) :
    c.orthogonal_through_two_points_on_circle a1 a2 arc =
      (mkLine (c.point_from_angle a1 false) (c.point_from_angle a2 false) (!arc) (!arc)).map Circle.OrthRes.line ∧
    (c.point_from_angle a1 false + c.point_from_angle a2 false) / (2 : ℝ) = c.center := by
  have hm : pyMod (a1 - a2) π = 0 := (pyMod_eq_zero_iff pi_ne_zero).2 ⟨2 * n + 1, by push_cast; exact h⟩
  have h2 : a2 = a1 - π - n * (2 * π) := by linarith
  have e2 : c.point_from_angle a2 false = c.center - c.radius • unit_vector_ a1 := by
    rw [(C14_point_from_angle c hc a2).1, h2, cos_sub_int_mul_two_pi, sin_sub_int_mul_two_pi, cos_sub_pi, sin_sub_pi]
    ext <;> simp [unit_vector_] <;> ring
  have e1 : c.point_from_angle a1 false = c.center + c.radius • unit_vector_ a1 := by
    simp [Circle.point_from_angle]
  constructor
  · unfold Circle.orthogonal_through_two_points_on_circle
    dsimp only
    rw [if_pos hm, e1, e2]
    cases mkLine (c.center + c.radius • unit_vector_ a1) (c.center - c.radius • unit_vector_ a1) (!arc) (!arc) <;> rfl
  · rw [e1, e2]; ext <;> simp <;> ring

example : (⟨⟨1, 2⟩, 5⟩ : Circle).Valid ∧ ∀ n : ℤ, (1 : ℝ) - 0 ≠ n * π := by
  refine ⟨by unfold Circle.Valid; norm_num, fun n hn => ?_⟩
  have h3 := pi_gt_three
  rcases lt_trichotomy n 0 with h | h | h
  · have : (n : ℝ) ≤ -1 := by exact_mod_cast (by omega : n ≤ -1)
    nlinarith
  · subst h; norm_num at hn
  · have : (1 : ℝ) ≤ n := by exact_mod_cast (by omega : 1 ≤ n)
    nlinarith

/-! ## C19 -/

/-- C19: `circleAB` is the circle with diameter `AB` (Thales), and it raises exactly for `np.allclose` points. -/
theorem C19_circleAB (A B : Pt) :
    (allclose A B → ∃ m, circleAB A B = .error (.valueError m)) ∧
    (¬ allclose A B → ∃ c, circleAB A B = .ok c ∧ c.Valid ∧
      ∀ P, OnCircle c.center c.radius P ↔ Perp (P - A) (P - B)) := by
  constructor
  · intro h; exact ⟨_, by unfold circleAB; rw [if_pos h]⟩
  · intro h
    have hd := sqDist_pos (ne_of_not_allclose h)
    have hp : 0 < distance_ A B / 2 := by
      rw [distance_eq]; exact half_pos (Real.sqrt_pos.2 hd)
    refine ⟨⟨(A + B) / (2 : ℝ), distance_ A B / 2⟩, ?_, hp, ?_⟩
    · unfold circleAB; rw [if_neg h, mkCircle_pos hp]
    · intro P
      unfold OnCircle
      rw [distance_eq, div_pow, dist_sq]
      simp only [sqDist, Perp, dot, Pt.sub_x, Pt.sub_y, Pt.add_x, Pt.add_y, Pt.div_x, Pt.div_y]
      constructor
      · intro h; linear_combination h
      · intro h; linear_combination h

/-- `(0, 0)` sees the segment from `(-3, 0)` to `(3, 0)` under a flat angle, `(0, 3)` under a right angle. -/
example : ∃ c, circleAB ⟨-3, 0⟩ ⟨3, 0⟩ = .ok c ∧ OnCircle c.center c.radius ⟨0, 3⟩ ∧
    ¬ OnCircle c.center c.radius ⟨0, 0⟩ := by
  obtain ⟨c, hc, -, h⟩ := (C19_circleAB ⟨-3, 0⟩ ⟨3, 0⟩).2 (by unfold allclose npClose; norm_num [abs_of_pos])
  exact ⟨c, hc, (h _).2 (by norm_num [Perp, dot]), fun hn => by have := (h _).1 hn; norm_num [Perp, dot] at this⟩

/-- C19: `circleOA`. -/
theorem C19_circleOA (O A : Pt) :
    (allclose O A → ∃ m, circleOA O A = .error (.valueError m)) ∧
    (¬ allclose O A → ∃ c, circleOA O A = .ok c ∧ c.Valid ∧ c.center = O ∧ OnCircle c.center c.radius A) := by
  constructor
  · intro h; exact ⟨_, by unfold circleOA; rw [if_pos h]⟩
  · intro h
    have hd := sqDist_pos (ne_of_not_allclose h)
    have hp : 0 < distance_ O A := by
      rw [distance_eq]; exact Real.sqrt_pos.2 hd
    refine ⟨⟨O, distance_ O A⟩, ?_, hp, rfl, ?_⟩
    · unfold circleOA; rw [if_neg h, mkCircle_pos hp]
    · unfold OnCircle; rw [distance_eq, dist_sq, sqDist_comm]

example : ¬ allclose (⟨0, 1⟩ : Pt) ⟨1, 1⟩ := by unfold allclose npClose; norm_num

/-! ## C20 -/

theorem cos_theta_eq (c1 c2 : Circle) (h1 : c1.Valid) (h2 : c2.Valid) :
    1 / c1.radius * (c2.radius * (dot1_ ((1 / c2.radius) • c2.center) - 1)) / 2 +
      1 / c2.radius * (c1.radius * (dot1_ ((1 / c1.radius) • c1.center) - 1)) / 2 -
      dot_ ((1 / c1.radius) • c1.center) ((1 / c2.radius) • c2.center) =
    (sqDist c1.center c2.center - c1.radius ^ 2 - c2.radius ^ 2) / (2 * c1.radius * c2.radius) := by
  have n1 : c1.radius ≠ 0 := ne_of_gt h1
  have n2 : c2.radius ≠ 0 := ne_of_gt h2
  simp only [dot1_, dot_, sqDist, Pt.smul_x, Pt.smul_y]
  field_simp
  ring

/-- C20: `angle` is `None` exactly when the circles do not meet, beyond the tolerance. -/
theorem C20_angle_none_iff (c1 c2 : Circle) :
    c1.angle c2 = .ok none ↔
      sqDist c1.center c2.center > (c1.radius + c2.radius) ^ 2 + 1 / 2 ^ 26 ∨
      sqDist c1.center c2.center < (c1.radius - c2.radius) ^ 2 - 1 / 2 ^ 26 := by
  unfold Circle.angle
  dsimp only
  rw [dot1_eq]
  split_ifs with h
  · simp only [sepsilon_] at h
    simp only [true_iff]
    exact h
  · simp only [sepsilon_] at h
    simp only [Res.bind_ok, Res.pure_ok, iff_false, h]
    simp

/-- C20: for circles that meet, the value has the right cosine, is in `[0, π]`, and is `π/2` exactly for orthogonal
circles. -/
theorem C20_angle (c1 c2 : Circle) (h1 : c1.Valid) (h2 : c2.Valid)
    (hle : sqDist c1.center c2.center ≤ (c1.radius + c2.radius) ^ 2)
    (hge : (c1.radius - c2.radius) ^ 2 ≤ sqDist c1.center c2.center) :
    ∃ th, c1.angle c2 = .ok (some th) ∧ 0 ≤ th ∧ th ≤ π ∧
      cos th = (sqDist c1.center c2.center - c1.radius ^ 2 - c2.radius ^ 2) / (2 * c1.radius * c2.radius) ∧
      (th = π / 2 ↔ Orthogonal c1.center c1.radius c2.center c2.radius) := by
  have hp : 0 < 2 * c1.radius * c2.radius := by
    have := mul_pos h1 h2; unfold Circle.Valid at *; nlinarith
  have hs := sepsilon_pos
  obtain ⟨q, hq⟩ : ∃ q, q = (sqDist c1.center c2.center - c1.radius ^ 2 - c2.radius ^ 2) / (2 * c1.radius * c2.radius) :=
    ⟨_, rfl⟩
  have q1 : q ≤ 1 := by rw [hq, div_le_one hp]; nlinarith
  have q2 : -1 ≤ q := by rw [hq, le_div_iff₀ hp]; nlinarith
  refine ⟨arccos q, ?_, arccos_nonneg _, arccos_le_pi _, ?_, ?_⟩
  · unfold Circle.angle
    dsimp only
    rw [dot1_eq, if_neg (by push Not; constructor <;> linarith), cos_theta_eq c1 c2 h1 h2, ← hq]
    unfold pyAcos
    rw [if_neg (by push Not; exact ⟨q2, q1⟩)]
    rfl
  · rw [cos_arccos q2 q1, hq]
  · unfold Orthogonal
    rw [arccos_eq_pi_div_two, hq, div_eq_zero_iff]
    constructor
    · rintro (h | h)
      · linarith
      · exact absurd h hp.ne'
    · intro h; left; linarith

/-- C20: `angle` is symmetric. -/
theorem C20_angle_symm (c1 c2 : Circle) (h1 : c1.Valid) (h2 : c2.Valid) : c1.angle c2 = c2.angle c1 := by
  unfold Circle.angle
  dsimp only
  rw [cos_theta_eq c1 c2 h1 h2, cos_theta_eq c2 c1 h2 h1, dot1_eq, dot1_eq, sqDist_comm c2.center]
  have e1 : (c2.radius + c1.radius) ^ 2 = (c1.radius + c2.radius) ^ 2 := by ring
  have e2 : (c2.radius - c1.radius) ^ 2 = (c1.radius - c2.radius) ^ 2 := by ring
  have e3 : (sqDist c1.center c2.center - c2.radius ^ 2 - c1.radius ^ 2) / (2 * c2.radius * c1.radius) =
      (sqDist c1.center c2.center - c1.radius ^ 2 - c2.radius ^ 2) / (2 * c1.radius * c2.radius) := by
    congr 1 <;> ring
  rw [e1, e2, e3]

/-- Circles of radii 3 and 4 with centers 5 apart are orthogonal. -/
example : (⟨⟨0, 0⟩, 3⟩ : Circle).angle ⟨⟨5, 0⟩, 4⟩ = .ok (some (π / 2)) ∧
    (⟨⟨5, 0⟩, 4⟩ : Circle).angle ⟨⟨0, 0⟩, 3⟩ = .ok (some (π / 2)) := by
  have h1 : (⟨⟨0, 0⟩, 3⟩ : Circle).Valid := by unfold Circle.Valid; norm_num
  have h2 : (⟨⟨5, 0⟩, 4⟩ : Circle).Valid := by unfold Circle.Valid; norm_num
  obtain ⟨th, h, -, -, -, ho⟩ := C20_angle _ _ h1 h2 (by norm_num [sqDist]) (by norm_num [sqDist])
  rw [ho.2 (by norm_num [Orthogonal, sqDist])] at h
  exact ⟨h, by rw [← C20_angle_symm _ _ h1 h2, h]⟩

/-- C20, a failure: in the tolerance band, where the circles do not meet but `None` is not returned, the call ends with
`ValueError` (`acos` out of its domain), for all such circles. -/
theorem C20_angle_band_error (c1 c2 : Circle) (h1 : c1.Valid) (h2 : c2.Valid)
    (hne : c1.angle c2 ≠ .ok none)
    (hout : (c1.radius + c2.radius) ^ 2 < sqDist c1.center c2.center ∨
      sqDist c1.center c2.center < (c1.radius - c2.radius) ^ 2) :
    c1.angle c2 = .error (.valueError "math domain error") := by
  have hp : 0 < 2 * c1.radius * c2.radius := by
    have := mul_pos h1 h2; unfold Circle.Valid at *; nlinarith
  unfold Circle.angle at *
  dsimp only at *
  rw [dot1_eq, cos_theta_eq c1 c2 h1 h2] at *
  split_ifs at * with h
  · simp at hne
  · unfold pyAcos
    rw [if_pos]
    · rfl
    · rcases hout with h | h
      · right; rw [lt_div_iff₀ hp]; nlinarith
      · left; rw [div_lt_iff₀ hp]; nlinarith

example : (⟨⟨0, 0⟩, 3⟩ : Circle).Valid ∧ (⟨⟨5, 0⟩, 4⟩ : Circle).Valid ∧
    sqDist (⟨0, 0⟩ : Pt) ⟨5, 0⟩ ≤ (3 + 4) ^ 2 ∧ (3 - 4) ^ 2 ≤ sqDist (⟨0, 0⟩ : Pt) ⟨5, 0⟩ := by
  unfold Circle.Valid sqDist; norm_num

example : (⟨⟨0, 0⟩, 1⟩ : Circle).angle ⟨⟨2 + 1 / 10 ^ 10, 0⟩, 1⟩ ≠ .ok none := by
  rw [Ne, C20_angle_none_iff]; unfold sqDist; norm_num

/-! ## C21 -/

/-- The signed area and scalar product that describe the position of a point of the line seen from the center. -/
theorem online_rel {A B C X : Pt} (h : A ≠ B) : OnLine A B X ↔
    cross (X - C) (B - A) = cross (A - C) (B - C) := by
  rw [onLine_iff_cross h]
  simp only [cross, Pt.sub_x, Pt.sub_y]
  constructor <;> intro h <;> linear_combination -h

/-- Points of the line at distance `r` of `C`. -/
theorem oncircle_rel {A B C X : Pt} {r : ℝ} (h : A ≠ B) (hX : OnLine A B X) :
    OnCircle C r X ↔ dot (X - C) (B - A) ^ 2 = r ^ 2 * sqDist A B - cross (A - C) (B - C) ^ 2 := by
  have hd := sqDist_pos h
  rw [online_rel (C := C) h] at hX
  have e : sqDist X C * sqDist A B = dot (X - C) (B - A) ^ 2 + cross (A - C) (B - C) ^ 2 := by
    rw [← hX]; simp only [sqDist, dot, cross, Pt.sub_x, Pt.sub_y]; ring
  unfold OnCircle
  constructor
  · intro h; rw [h] at e; linarith
  · intro h
    have : (sqDist X C - r ^ 2) * sqDist A B = 0 := by linear_combination e + h
    rcases mul_eq_zero.1 this with h' | h'
    · linarith
    · exact absurd h' hd.ne'

/-- A point is determined by its cross and scalar products with a nonzero vector. -/
theorem eq_of_cross_dot {A B C X Y : Pt} (h : A ≠ B) (hc : cross (X - C) (B - A) = cross (Y - C) (B - A))
    (hd : dot (X - C) (B - A) = dot (Y - C) (B - A)) : X = Y := by
  have hp := sqDist_pos h
  simp only [cross, dot, sqDist, Pt.sub_x, Pt.sub_y] at *
  have e1 : (X.x - Y.x) * ((A.x - B.x) ^ 2 + (A.y - B.y) ^ 2) = 0 := by
    linear_combination (B.y - A.y) * hc + (B.x - A.x) * hd
  have e2 : (X.y - Y.y) * ((A.x - B.x) ^ 2 + (A.y - B.y) ^ 2) = 0 := by
    linear_combination (B.y - A.y) * hd - (B.x - A.x) * hc
  ext
  · rcases mul_eq_zero.1 e1 with h | h
    · linarith
    · exact absurd h hp.ne'
  · rcases mul_eq_zero.1 e2 with h | h
    · linarith
    · exact absurd h hp.ne'

/-- What `circle_line_intersection_` computes, in terms of the discriminant. -/
theorem icl_cases (c : Circle) (l : Line) (hl : l.Valid) (Δ : ℝ)
    (hΔ : Δ = c.radius ^ 2 * sqDist l.A l.B - cross (l.A - c.center) (l.B - c.center) ^ 2) :
    (Δ < 0 ∧ intersection_circle_line c l = .none) ∨
    (0 ≤ Δ ∧ Δ < sepsilon_ ∧ ∃ P, intersection_circle_line c l = .one P ∧
      OnLine l.A l.B P ∧ dot (P - c.center) (l.B - l.A) = 0) ∨
    (sepsilon_ ≤ Δ ∧ ∃ P Q e, intersection_circle_line c l = .two P Q ∧ OnLine l.A l.B P ∧ OnLine l.A l.B Q ∧
      (e = 1 ∨ e = -1) ∧
      dot (P - c.center) (l.B - l.A) = e * Real.sqrt Δ ∧ dot (Q - c.center) (l.B - l.A) = -e * Real.sqrt Δ) := by
  have hne := ne_of_not_allclose hl
  have hd := sqDist_pos hne
  obtain ⟨n, hn⟩ : ∃ n, n = sqDist l.A l.B := ⟨_, rfl⟩
  obtain ⟨D, hD⟩ : ∃ D, D = cross (l.A - c.center) (l.B - c.center) := ⟨_, rfl⟩
  have en : ((l.B - c.center).x - (l.A - c.center).x) * ((l.B - c.center).x - (l.A - c.center).x) +
      ((l.B - c.center).y - (l.A - c.center).y) * ((l.B - c.center).y - (l.A - c.center).y) = n := by
    rw [hn]; simp only [sqDist, Pt.sub_x, Pt.sub_y]; ring
  have eD : det2x2_ (l.A - c.center).x (l.A - c.center).y (l.B - c.center).x (l.B - c.center).y = D := by
    rw [hD]; simp only [cross, det2x2_]; ring
  have eΔ : c.radius * c.radius * n - D * D = Δ := by rw [hΔ, ← hn, ← hD]; ring
  rw [← hn] at hd
  have ex : (l.B - c.center).x - (l.A - c.center).x = l.B.x - l.A.x := by simp
  have ey : (l.B - c.center).y - (l.A - c.center).y = l.B.y - l.A.y := by simp
  unfold intersection_circle_line circle_line_intersection_
  dsimp only
  rw [en, eD, eΔ, ex, ey]
  have hn' : n = (l.B.x - l.A.x) ^ 2 + (l.B.y - l.A.y) ^ 2 := by
    rw [← en, ex, ey]; ring
  by_cases c1 : Δ < 0
  · left; rw [if_pos c1]; exact ⟨c1, rfl⟩
  · right
    rw [if_neg c1]
    push Not at c1
    by_cases c2 : Δ < sepsilon_
    · left
      rw [if_pos c2]
      refine ⟨c1, c2, _, rfl, ?_, ?_⟩
      · rw [online_rel (C := c.center) hne, ← hD]
        simp [cross]
        field_simp
        rw [hn']; ring
      · simp [dot]; ring
    · right
      rw [if_neg c2]
      push Not at c2
      obtain ⟨e, he⟩ : ∃ e : ℝ, e = if l.B.y - l.A.y < 0 then -1 else 1 := ⟨_, rfl⟩
      have habs : |l.B.y - l.A.y| = e * (l.B.y - l.A.y) := by
        rw [he]; split_ifs with h
        · rw [abs_of_neg h]; ring
        · rw [abs_of_nonneg (not_lt.1 h)]; ring
      have he1 : e = 1 ∨ e = -1 := by rw [he]; split_ifs <;> simp
      rw [habs, ← he]
      refine ⟨c2, _, _, e, rfl, ?_, ?_, he1, ?_, ?_⟩
      · rw [online_rel (C := c.center) hne, ← hD]
        simp [cross]; field_simp; rw [hn']; ring
      · rw [online_rel (C := c.center) hne, ← hD]
        simp [cross]; field_simp; rw [hn']; ring
      · simp [dot]; field_simp; rw [hn']; ring
      · simp [dot]; field_simp; rw [hn']; ring

/-- C21: `None` means that the circle and the line have no common point. -/
theorem C21_none (c : Circle) (l : Line) (hl : l.Valid) (h : intersection_circle_line c l = .none) :
    ¬ ∃ X, OnLine l.A l.B X ∧ OnCircle c.center c.radius X := by
  rintro ⟨X, h1, h2⟩
  rw [oncircle_rel (ne_of_not_allclose hl) h1] at h2
  rcases icl_cases c l hl _ h2 with ⟨h3, -⟩ | ⟨-, -, P, h3, -⟩ | ⟨-, P, Q, e, h3, -⟩
  · nlinarith [sq_nonneg (dot (X - c.center) (l.B - l.A))]
  · rw [h] at h3; simp at h3
  · rw [h] at h3; simp at h3

/-- C21: two returned points are distinct, common to the circle and the line, and there is no other common point. -/
theorem C21_two (c : Circle) (l : Line) (hl : l.Valid) (P Q : Pt) (h : intersection_circle_line c l = .two P Q) :
    P ≠ Q ∧ ∀ X, (OnLine l.A l.B X ∧ OnCircle c.center c.radius X) ↔ X = P ∨ X = Q := by
  have hne := ne_of_not_allclose hl
  have hs := sepsilon_pos
  rcases icl_cases c l hl _ rfl with ⟨-, h3⟩ | ⟨-, -, P', h3, -⟩ | ⟨hΔ, P', Q', e, h3, hP, hQ, he, dP, dQ⟩
  · rw [h] at h3; simp at h3
  · rw [h] at h3; simp at h3
  · rw [h] at h3
    simp only [PtRes.two.injEq] at h3
    obtain ⟨rfl, rfl⟩ := h3
    obtain ⟨Δ, hΔe⟩ : ∃ Δ, Δ = c.radius ^ 2 * sqDist l.A l.B - cross (l.A - c.center) (l.B - c.center) ^ 2 := ⟨_, rfl⟩
    rw [← hΔe] at hΔ dP dQ
    have hpos : 0 < Δ := by linarith
    have hsq : Real.sqrt Δ ^ 2 = Δ := Real.sq_sqrt hpos.le
    have hsp : 0 < Real.sqrt Δ := Real.sqrt_pos.2 hpos
    have he2 : e ^ 2 = 1 := by rcases he with rfl | rfl <;> norm_num
    constructor
    · rintro rfl
      rw [dP] at dQ
      rcases he with rfl | rfl <;> nlinarith
    · intro X
      constructor
      · rintro ⟨h1, h2⟩
        rw [oncircle_rel hne h1, ← hΔe] at h2
        have h4 : (dot (X - c.center) (l.B - l.A) - e * Real.sqrt Δ) * (dot (X - c.center) (l.B - l.A) + e * Real.sqrt Δ) = 0 := by
          linear_combination h2 - hsq * e ^ 2 - Δ * he2
        rw [online_rel (C := c.center) hne] at h1 hP hQ
        rcases mul_eq_zero.1 h4 with h5 | h5
        · left; exact eq_of_cross_dot hne (h1.trans hP.symm) (by rw [dP]; linarith)
        · right; exact eq_of_cross_dot hne (h1.trans hQ.symm) (by rw [dQ]; linarith)
      · rintro (rfl | rfl)
        · refine ⟨hP, (oncircle_rel hne hP).2 ?_⟩
          rw [dP, ← hΔe, mul_pow, he2, hsq, one_mul]
        · refine ⟨hQ, (oncircle_rel hne hQ).2 ?_⟩
          rw [dQ, ← hΔe, mul_pow, neg_sq, he2, hsq, one_mul]

/-- C21: a single returned point is the orthogonal projection of the center on the line. -/
theorem C21_one (c : Circle) (l : Line) (hl : l.Valid) (P : Pt) (h : intersection_circle_line c l = .one P) :
    OnLine l.A l.B P ∧ Perp (c.center - P) (l.B - l.A) := by
  rcases icl_cases c l hl _ rfl with ⟨-, h3⟩ | ⟨-, -, P', h3, hP, hd⟩ | ⟨hΔ, P', Q', e, h3, hP, hQ, he, dP, dQ⟩
  · rw [h] at h3; simp at h3
  · rw [h] at h3
    simp only [PtRes.one.injEq] at h3
    subst h3
    refine ⟨hP, ?_⟩
    simp only [Perp, dot, Pt.sub_x, Pt.sub_y] at *
    linarith
  · rw [h] at h3; simp at h3

/-- C21: a line tangent to the circle (exactly one common point) always gives that point. -/
theorem C21_tangent (c : Circle) (l : Line) (hl : l.Valid) (T : Pt) (hT : OnLine l.A l.B T)
    (hc : OnCircle c.center c.radius T)
    (hu : ∀ X, OnLine l.A l.B X → OnCircle c.center c.radius X → X = T) :
    intersection_circle_line c l = .one T := by
  have hne := ne_of_not_allclose hl
  have h2 := (oncircle_rel hne hT).1 hc
  have hs := sepsilon_pos
  -- the symmetric point of `T` is also common, hence equal to `T`
  have hdT : dot (T - c.center) (l.B - l.A) = 0 := by
    have hd := sqDist_pos hne
    obtain ⟨n, hn⟩ : ∃ n, n = sqDist l.A l.B := ⟨_, rfl⟩
    obtain ⟨w, hw⟩ : ∃ w, w = dot (T - c.center) (l.B - l.A) := ⟨_, rfl⟩
    have hS : OnLine l.A l.B (T - (2 * w / n) • (l.B - l.A)) := by
      obtain ⟨t, ht⟩ := hT
      exact ⟨t - 2 * w / n, by rw [ht]; ext <;> simp <;> ring⟩
    have hSw : dot (T - (2 * w / n) • (l.B - l.A) - c.center) (l.B - l.A) = -w := by
      rw [← hn] at hd
      have : n = (l.B.x - l.A.x) ^ 2 + (l.B.y - l.A.y) ^ 2 := by rw [hn]; unfold sqDist; ring
      simp only [dot, Pt.sub_x, Pt.sub_y, Pt.smul_x, Pt.smul_y] at hw ⊢
      field_simp
      rw [this]
      linear_combination -((l.B.x - l.A.x) ^ 2 + (l.B.y - l.A.y) ^ 2) * hw
    have := hu _ hS ((oncircle_rel hne hS).2 (by rw [hSw, neg_sq, hw]; exact h2))
    rw [this, ← hw] at hSw
    rw [← hw]
    linarith
  rcases icl_cases c l hl _ h2 with ⟨h3, -⟩ | ⟨-, -, P', h3, hP, hd⟩ | ⟨hΔ, -⟩
  · rw [hdT] at h3; norm_num at h3
  · rw [h3]
    congr 1
    rw [online_rel (C := c.center) hne] at hP hT
    exact eq_of_cross_dot hne (hP.trans hT.symm) (by rw [hd, hdT])
  · rw [hdT] at hΔ; norm_num at hΔ; linarith

/-- The circle of center `(0, 0)` and radius 5 and the vertical lines of abscissas 5, a tangent, and 3, a secant. -/
example : intersection_circle_line ⟨⟨0, 0⟩, 5⟩ ⟨⟨5, 0⟩, ⟨5, 1⟩, true, true⟩ = .one ⟨5, 0⟩ := by
  refine C21_tangent _ _ (by unfold Line.Valid allclose npClose; norm_num) _ (onLine_left _ _)
    (by norm_num [OnCircle, sqDist]) ?_
  rintro X ⟨t, rfl⟩ h
  norm_num [OnCircle, sqDist] at h
  subst h
  ext <;> norm_num

example (P Q : Pt) (h : intersection_circle_line ⟨⟨0, 0⟩, 5⟩ ⟨⟨3, 0⟩, ⟨3, 1⟩, true, true⟩ = .two P Q) :
    (⟨3, 4⟩ : Pt) = P ∨ (⟨3, 4⟩ : Pt) = Q :=
  ((C21_two _ _ (by unfold Line.Valid allclose npClose; norm_num) _ _ h).2 _).1
    ⟨⟨4, by ext <;> norm_num⟩, by norm_num [OnCircle, sqDist]⟩

example : intersection_circle_line ⟨⟨0, 0⟩, 5⟩ ⟨⟨3, 0⟩, ⟨3, 1⟩, true, true⟩ ≠ .none := fun h =>
  C21_none _ _ (by unfold Line.Valid allclose npClose; norm_num) h
    ⟨⟨3, 4⟩, ⟨4, by ext <;> norm_num⟩, by norm_num [OnCircle, sqDist]⟩

example (P : Pt) (h : intersection_circle_line ⟨⟨0, 0⟩, 5⟩ ⟨⟨5, 0⟩, ⟨5, 1⟩, true, true⟩ = .one P) : P.y = 0 := by
  have := (C21_one _ _ (by unfold Line.Valid allclose npClose; norm_num) _ h).2
  norm_num [Perp, dot] at this
  linarith

/-- C21, a failure of the informal reading "a single point is a common point": a secant line that is nearly tangent
gives a single point that is not on the circle. -/
theorem C21_near_tangent_counterexample :
    intersection_circle_line ⟨⟨0, 0⟩, 1⟩ ⟨⟨0, 1 - 1 / 10 ^ 9⟩, ⟨1, 1 - 1 / 10 ^ 9⟩, true, true⟩ =
      .one ⟨0, 1 - 1 / 10 ^ 9⟩ ∧ ¬ OnCircle (⟨0, 0⟩ : Pt) 1 ⟨0, 1 - 1 / 10 ^ 9⟩ := by
  constructor
  · unfold intersection_circle_line circle_line_intersection_ det2x2_ sepsilon_
    norm_num
    ext <;> norm_num
  · unfold OnCircle sqDist; norm_num

example : intersection_circle_line ⟨⟨0, 0⟩, 5⟩ ⟨⟨3, 0⟩, ⟨3, 1⟩, true, true⟩ = .two ⟨3, 4⟩ ⟨3, -4⟩ := by
  have : Real.sqrt 16 = 4 := by rw [show (16 : ℝ) = 4 ^ 2 by norm_num]; exact Real.sqrt_sq (by norm_num)
  unfold intersection_circle_line circle_line_intersection_ det2x2_ sepsilon_
  norm_num [this]
  constructor <;> ext <;> norm_num
