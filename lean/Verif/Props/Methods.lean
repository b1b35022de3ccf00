import Verif.Model.Aliases
import Verif.Props.Exact5
import Verif.Props.Circle2

/-!
# C92: the method forms

The methods that forward to a function: each of them, in each of its forms, gives the intersection or the image of the sets of points.
-/

open Spec Real Classical

/-- What a call should return for the common points of two curves: `none` only if there is no common point, two different points only if
they are the common points, and the point of contact if there is exactly one common point. -/
def Spec.IsCommon (S T : Pt → Prop) (r : PtRes) : Prop :=
  (r = .none → ¬ ∃ X, S X ∧ T X) ∧
  (∀ P Q, r = .two P Q → P ≠ Q ∧ ∀ X, (S X ∧ T X) ↔ X = P ∨ X = Q) ∧
  (∀ P, r = .one P → S P) ∧
  ∀ P, S P → T P → (∀ X, S X → T X → X = P) → r = .one P

/-- C92: `line.intersection_with_line(line2)` is the only common point of the two lines when it is a point; it is `None` exactly when the
lines are reported equal or the cross product of the directions is less than `2^-26`; with `strict=True` it is always `None`. -/
theorem C92_line_line (l1 l2 : Line) (h1 : l1.Valid) (h2 : l2.Valid) :
    (∀ I, l1.intersection_with_line l2 = some I → (OnLine l1.A l1.B I ∧ OnLine l2.A l2.B I) ∧
      ∀ J, OnLine l1.A l1.B J → OnLine l2.A l2.B J → J = I) ∧
    (l1.intersection_with_line l2 = none ↔ l1.is_equal l2 ∨ |cross (l1.B - l1.A) (l2.B - l2.A)| < 1 / 2 ^ 26) ∧
    l1.intersection_with_line l2 true = none := by
  refine ⟨fun I h => C12_intersection_sound l1 l2 h1 h2 false I h, ?_, (C12_intersection_none_iff l1 l2 true).2 (by simp)⟩
  unfold Line.intersection_with_line
  rw [C12_intersection_none_iff]
  have e : l1.is_parallel l2 ↔ |cross (l1.B - l1.A) (l2.B - l2.A)| < 1 / 2 ^ 26 := by
    unfold Line.is_parallel det2x2_ sepsilon_ cross
    dsimp only
    rw [show (l1.A.x - l1.B.x) * (l2.A.y - l2.B.y) - (l2.A.x - l2.B.x) * (l1.A.y - l1.B.y) =
      (l1.B - l1.A).x * (l2.B - l2.A).y - (l1.B - l1.A).y * (l2.B - l2.A).x by simp only [Pt.sub_x, Pt.sub_y]; ring]
  rw [e]; simp

/-- C92: `circle.intersection_with_line(line)` and `line.intersection_with_circle(circle)` give the common points of the line and the
circle. -/
theorem C92_circle_line (c : Circle) (l : Line) (hl : l.Valid) :
    IsCommon (OnLine l.A l.B) (OnCircle c.center c.radius) (c.intersection_with_line l) ∧
    IsCommon (OnLine l.A l.B) (OnCircle c.center c.radius) (l.intersection_with_circle c) := by
  have key : IsCommon (OnLine l.A l.B) (OnCircle c.center c.radius) (intersection_circle_line c l) :=
    ⟨fun h => C21_none c l hl h, fun P Q h => C21_two c l hl P Q h, fun P h => (C21_one c l hl P h).1,
      fun P a b h => C21_tangent c l hl P a b h⟩
  exact ⟨key, key⟩

/-- C92: `ellipse.intersection_with_line(line)` and `line.intersection_with_ellipse(ellipse)`, when they return, give the common points of
the line and the ellipse; the second form accepts a circle. -/
theorem C92_ellipse_line (l : Line) (hl : l.Valid) (r : PtRes) :
    (∀ e : Ellipse, e.Valid → e.intersection_with_line l = .ok r →
      IsCommon (OnLine l.A l.B) (OnEllipse e.center e.rmajor e.rminor e.rad) r) ∧
    (∀ e : Ellipse, e.Valid → l.intersection_with_ellipse (.ell e) = .ok r →
      IsCommon (OnLine l.A l.B) (OnEllipse e.center e.rmajor e.rminor e.rad) r) ∧
    (∀ c : Circle, c.Valid → l.intersection_with_ellipse (.circ c) = .ok r →
      IsCommon (OnLine l.A l.B) (OnCircle c.center c.radius) r) := by
  have key : ∀ x : EllArg, ValidArg x → intersection_ellipse_line x l = .ok r → IsCommon (OnLine l.A l.B) (OnArg x) r := by
    intro x hx h
    refine ⟨?_, ?_, ?_, ?_⟩
    · rintro rfl; exact C70_none x hx l hl h
    · rintro P Q rfl; exact C70_two x hx l hl P Q h
    · rintro P rfl; exact C70_one_on_line x hx l hl P h
    · intro P a b hu; exact C70_tangent x hx l hl P a b hu r h
  exact ⟨fun e he h => key (.ell e) he h, fun e he h => key (.ell e) he h, fun c hc h => key (.circ c) hc h⟩

/-- C92: `circle.intersection_with_circle(circle2)` never fails; `None` means no common point, two points are the common points, tangent
circles give the point of contact. -/
theorem C92_circle_circle (c1 c2 : Circle) (h1 : c1.Valid) (h2 : c2.Valid) :
    (∃ r, c1.intersection_with_circle c2 = .ok r) ∧
    (c1.intersection_with_circle c2 = .ok .none → ¬ ∃ X, OnCircle c1.center c1.radius X ∧ OnCircle c2.center c2.radius X) ∧
    (∀ P Q, c1.intersection_with_circle c2 = .ok (.two P Q) →
      P ≠ Q ∧ ∀ X, (OnCircle c1.center c1.radius X ∧ OnCircle c2.center c2.radius X) ↔ X = P ∨ X = Q) ∧
    (∀ T, ¬ c1.is_equal c2 → OnCircle c1.center c1.radius T → OnCircle c2.center c2.radius T →
      (∀ X, OnCircle c1.center c1.radius X → OnCircle c2.center c2.radius X → X = T) →
      c1.intersection_with_circle c2 = .ok (.one T)) :=
  ⟨C22_total c1 c2 h1 h2, fun h => C22_none c1 c2 h1 h2 h, fun P Q h => C22_two c1 c2 h1 h2 P Q h,
    fun T hne a b hu => C22_tangent c1 c2 h1 h2 hne T a b hu⟩

/-- C92: `line.invert(iota)` is the image of the line exactly in the cases of `C26_exact`. -/
theorem C92_line_invert (iota : Inversion) (hk : iota.power ≠ 0) (l : Line) (hl : l.Valid) :
    (∃ g, l.invert iota = .ok (some g) ∧ InvMapsOnto iota.pole iota.power (OnLine l.A l.B) (GSet g)) ↔
      OnLine l.A l.B iota.pole ∨ (¬ allclose l.A iota.pole ∧ ¬ allclose l.B iota.pole ∧
        ¬ allclose iota.pole l.A ∧ ¬ allclose iota.pole l.B) := C26_exact iota hk l hl

/-- C92: the `transform_` forms of a rotation: images of circles and ellipses, and of lines when the image is not degenerate. -/
theorem C92_rotation (R : Rotation) :
    (∀ c : Circle, c.Valid → ∃ c', R.transform_circle c = .ok c' ∧ c'.Valid ∧
      MapsOnto (IsRotated R.center R.rad) (OnCircle c.center c.radius) (OnCircle c'.center c'.radius)) ∧
    (∀ e : Ellipse, e.Valid → ∃ e', R.transform_ellipse e = .ok e' ∧ e'.Valid ∧
      MapsOnto (IsRotated R.center R.rad) (OnEllipse e.center e.rmajor e.rminor e.rad)
        (OnEllipse e'.center e'.rmajor e'.rminor e'.rad)) ∧
    (∀ (l : Line) (A' B' : Pt), IsRotated R.center R.rad l.A A' → IsRotated R.center R.rad l.B B' →
      ((∃ l', R.transform_line l = .ok l' ∧ l'.Valid ∧ MapsOnto (IsRotated R.center R.rad) (LineSet l) (LineSet l')) ↔
        ¬ allclose A' B')) :=
  ⟨fun c hc => C11_rotate_circle R c hc,
    fun e he => let ⟨e', h1, h2, h3, _⟩ := C11_rotate_ellipse R e he; ⟨e', h1, h2, h3⟩,
    fun l A' B' hA hB => (C11_exact R l A' B' hA hB).1⟩

/-- C92: the `transform_` forms of a reflection give the images of circles and lines under the conditions of C10. -/
theorem C92_reflection (R : Reflection) (hR : R.line.Valid) :
    (∀ c c' : Circle, R.ExactAt c.center → R.transform_circle c = .ok c' →
      MirrorMapsOnto R.line.A R.line.B (OnCircle c.center c.radius) (OnCircle c'.center c'.radius) ∧ 0 < c'.radius) ∧
    (∀ l l' : Line, R.ExactAt l.A → R.ExactAt l.B → R.transform_line l = .ok l' →
      MirrorMapsOnto R.line.A R.line.B (LineSet l) (LineSet l') ∧ l'.Valid) :=
  ⟨fun c c' hc h => C10_reflect_circle_partial R hR c c' hc h, fun l l' hA hB h => C10_reflect_line_partial R hR l l' hA hB h⟩

/-- The line `y = 0` and the unit circle: the two forms give the points `(-1, 0)` and `(1, 0)`, the line `y = 1` touches the circle at
`(0, 1)`. -/
example : (⟨⟨0, 0⟩, ⟨1, 0⟩, true, true⟩ : Line).Valid ∧ (⟨⟨0, 1⟩, ⟨1, 1⟩, true, true⟩ : Line).Valid ∧
    (∀ X, OnLine (⟨0, 1⟩ : Pt) ⟨1, 1⟩ X → OnCircle ⟨0, 0⟩ 1 X → X = ⟨0, 1⟩) := by
  refine ⟨?_, ?_, ?_⟩
  · unfold Line.Valid allclose npClose; norm_num
  · unfold Line.Valid allclose npClose; norm_num
  · rintro X ⟨t, rfl⟩ h
    unfold OnCircle sqDist at h
    simp at h
    ext <;> simp [h]

/-! ### C93 -/

/-- Two circles are orthogonal when they meet and the radii to every common point are perpendicular. -/
def Spec.MeetAtRightAngles (O₁ : Pt) (r₁ : ℝ) (O₂ : Pt) (r₂ : ℝ) : Prop :=
  (∃ X, OnCircle O₁ r₁ X ∧ OnCircle O₂ r₂ X) ∧ ∀ X, OnCircle O₁ r₁ X → OnCircle O₂ r₂ X → Perp (X - O₁) (X - O₂)

/-- Pythagoras: circles of positive radii meet at right angles exactly when `d² = r₁² + r₂²`. -/
theorem meetAtRightAngles_iff {O₁ O₂ : Pt} {r₁ r₂ : ℝ} (h1 : 0 < r₁) (h2 : 0 < r₂) :
    MeetAtRightAngles O₁ r₁ O₂ r₂ ↔ sqDist O₁ O₂ = r₁ ^ 2 + r₂ ^ 2 := by
  constructor
  · rintro ⟨⟨X, x1, x2⟩, h⟩
    have := h X x1 x2
    unfold OnCircle sqDist at x1 x2
    unfold Perp dot at this
    unfold sqDist
    simp only [Pt.sub_x, Pt.sub_y] at this
    linear_combination x1 + x2 - 2 * this
  · intro h
    refine ⟨?_, ?_⟩
    · have hp : 0 < sqDist O₁ O₂ := by rw [h]; positivity
      obtain ⟨D, hD⟩ : ∃ D, D = sqDist O₁ O₂ := ⟨_, rfl⟩
      rw [← hD] at h hp
      refine ⟨⟨O₁.x + (r₁ ^ 2 * (O₂.x - O₁.x) - r₁ * r₂ * (O₂.y - O₁.y)) / D,
        O₁.y + (r₁ ^ 2 * (O₂.y - O₁.y) + r₁ * r₂ * (O₂.x - O₁.x)) / D⟩, ?_, ?_⟩
      · have hD' := hD
        unfold sqDist at hD'
        unfold OnCircle sqDist
        dsimp only
        field_simp
        linear_combination (-(r₁ ^ 2 * D)) * h - (r₁ ^ 4 + r₁ ^ 2 * r₂ ^ 2) * hD'
      · have hD' := hD
        unfold sqDist at hD'
        unfold OnCircle sqDist
        dsimp only
        field_simp
        linear_combination (-(r₁ ^ 4 + r₁ ^ 2 * r₂ ^ 2) + 2 * D * r₁ ^ 2 - D ^ 2) * hD' + (D ^ 2 - D * r₁ ^ 2) * h
    · intro X x1 x2
      unfold OnCircle sqDist at x1 x2
      unfold sqDist at h
      unfold Perp dot
      simp only [Pt.sub_x, Pt.sub_y]
      linear_combination (x1 + x2 - h) / 2

/-- C93: `is_orthogonal` is true for all pairs of circles that meet at right angles; it is true exactly when `d²` and `r₁² + r₂²` differ by
at most `1e-9 (1 + max)`; it is symmetric. -/
theorem C93_is_orthogonal (c1 c2 : Circle) (h1 : c1.Valid) (h2 : c2.Valid) :
    (MeetAtRightAngles c1.center c1.radius c2.center c2.radius → c1.is_orthogonal c2) ∧
    (c1.is_orthogonal c2 ↔ |sqDist c1.center c2.center - (c1.radius ^ 2 + c2.radius ^ 2)| ≤
      1 / 10 ^ 9 * (1 + max (sqDist c1.center c2.center) (c1.radius ^ 2 + c2.radius ^ 2))) ∧
    (c1.is_orthogonal c2 ↔ c2.is_orthogonal c1) := by
  have key : ∀ c1 c2 : Circle, c1.is_orthogonal c2 ↔ |sqDist c1.center c2.center - (c1.radius ^ 2 + c2.radius ^ 2)| ≤
      1 / 10 ^ 9 * (1 + max (sqDist c1.center c2.center) (c1.radius ^ 2 + c2.radius ^ 2)) := by
    intro c1 c2
    unfold Circle.is_orthogonal approx_equal_ isclose
    have e : dot1_ (c1.center - c2.center) = sqDist c1.center c2.center := by
      unfold dot1_ dot_ sqDist; simp only [Pt.sub_x, Pt.sub_y]; ring
    have e' : c1.radius * c1.radius + c2.radius * c2.radius = c1.radius ^ 2 + c2.radius ^ 2 := by ring
    rw [e, e']
    obtain ⟨D, hD⟩ : ∃ D, D = sqDist c1.center c2.center := ⟨_, rfl⟩
    obtain ⟨S, hS⟩ : ∃ S, S = c1.radius ^ 2 + c2.radius ^ 2 := ⟨_, rfl⟩
    have p1 : 0 ≤ D := by rw [hD]; unfold sqDist; positivity
    have p2 : 0 ≤ S := by rw [hS]; positivity
    rw [← hD, ← hS, abs_of_nonneg p1, abs_of_nonneg p2, abs_of_nonneg (by linarith : 0 ≤ D + 1),
      abs_of_nonneg (by linarith : 0 ≤ S + 1), max_add_add_right, show D + 1 - (S + 1) = D - S by ring]
    constructor
    · rintro (h | h) <;> linarith
    · intro h; right; linarith
  refine ⟨fun h => ?_, key c1 c2, ?_⟩
  · rw [meetAtRightAngles_iff h1 h2] at h
    rw [key, h, sub_self, abs_zero]
    positivity
  · rw [key, key, sqDist_comm c2.center, add_comm (c2.radius ^ 2)]

/-- C93: for circles that meet, `is_orthogonal` bounds the difference of the cosine of the angle computed by `Circle.angle` to zero. -/
theorem C93_angle (c1 c2 : Circle) (h1 : c1.Valid) (h2 : c2.Valid)
    (hle : sqDist c1.center c2.center ≤ (c1.radius + c2.radius) ^ 2)
    (hge : (c1.radius - c2.radius) ^ 2 ≤ sqDist c1.center c2.center) (h : c1.is_orthogonal c2) :
    ∃ th, c1.angle c2 = .ok (some th) ∧
      |cos th| ≤ 1 / 10 ^ 9 * (1 + (c1.radius + c2.radius) ^ 2) / (2 * c1.radius * c2.radius) := by
  obtain ⟨th, e, -, -, hc, -⟩ := C20_angle c1 c2 h1 h2 hle hge
  refine ⟨th, e, ?_⟩
  have r1 : 0 < c1.radius := h1
  have r2 : 0 < c2.radius := h2
  rw [hc, abs_div, abs_of_pos (by positivity : 0 < 2 * c1.radius * c2.radius)]
  apply div_le_div_of_nonneg_right _ (by positivity)
  have := ((C93_is_orthogonal c1 c2 h1 h2).2.1).1 h
  rw [show sqDist c1.center c2.center - c1.radius ^ 2 - c2.radius ^ 2 =
    sqDist c1.center c2.center - (c1.radius ^ 2 + c2.radius ^ 2) by ring]
  refine this.trans ?_
  have hm : max (sqDist c1.center c2.center) (c1.radius ^ 2 + c2.radius ^ 2) ≤ (c1.radius + c2.radius) ^ 2 :=
    max_le hle (by nlinarith [mul_pos r1 r2])
  nlinarith

/-- C93, a limit: a small circle is reported orthogonal to itself. -/
theorem C93_small_circle_counterexample :
    (⟨⟨0, 0⟩, 1 / 10 ^ 5⟩ : Circle).is_orthogonal ⟨⟨0, 0⟩, 1 / 10 ^ 5⟩ ∧
      ¬ MeetAtRightAngles (⟨0, 0⟩ : Pt) (1 / 10 ^ 5) ⟨0, 0⟩ (1 / 10 ^ 5) := by
  constructor
  · rw [(C93_is_orthogonal _ _ (by unfold Circle.Valid; norm_num) (by unfold Circle.Valid; norm_num)).2.1]
    unfold sqDist
    norm_num [abs_of_pos]
  · rw [meetAtRightAngles_iff (by norm_num) (by norm_num)]
    unfold sqDist
    norm_num

/-- The circles of radii 3 and 4 with centers at distance 5 are orthogonal; two unit circles at distance 1 are not reported orthogonal. -/
example : MeetAtRightAngles (⟨0, 0⟩ : Pt) 3 ⟨5, 0⟩ 4 ∧ ¬ (⟨⟨0, 0⟩, 1⟩ : Circle).is_orthogonal ⟨⟨1, 0⟩, 1⟩ := by
  constructor
  · rw [meetAtRightAngles_iff (by norm_num) (by norm_num)]; unfold sqDist; norm_num
  · rw [(C93_is_orthogonal _ _ (by unfold Circle.Valid; norm_num) (by unfold Circle.Valid; norm_num)).2.1]
    unfold sqDist
    norm_num [abs_of_pos]

/-- The two axes: the intersection is the origin.  The line `y = 1` and the first axis have no intersection. -/
example (I : Pt) : ((⟨⟨0, 0⟩, ⟨1, 0⟩, true, true⟩ : Line).intersection_with_line ⟨⟨0, 0⟩, ⟨0, 1⟩, true, true⟩ = some I → I = ⟨0, 0⟩) ∧
    (⟨⟨0, 0⟩, ⟨1, 0⟩, true, true⟩ : Line).intersection_with_line ⟨⟨0, 1⟩, ⟨1, 1⟩, true, true⟩ = none := by
  have v1 : (⟨⟨0, 0⟩, ⟨1, 0⟩, true, true⟩ : Line).Valid := by unfold Line.Valid allclose npClose; norm_num
  constructor
  · intro h
    exact (((C92_line_line _ ⟨⟨0, 0⟩, ⟨0, 1⟩, true, true⟩ v1 (by unfold Line.Valid allclose npClose; norm_num)).1 I h).2
      ⟨0, 0⟩ (onLine_left _ _) (onLine_left _ _)).symm
  · exact (C92_line_line _ ⟨⟨0, 1⟩, ⟨1, 1⟩, true, true⟩ v1 (by unfold Line.Valid allclose npClose; norm_num)).2.1.2
      (Or.inr (by norm_num [cross]))

/-- The line `y = 1` touches the unit circle at `(0, 1)`, which both forms return. -/
example : (⟨⟨0, 0⟩, 1⟩ : Circle).intersection_with_line ⟨⟨0, 1⟩, ⟨1, 1⟩, true, true⟩ = .one ⟨0, 1⟩ ∧
    (⟨⟨0, 1⟩, ⟨1, 1⟩, true, true⟩ : Line).intersection_with_circle ⟨⟨0, 0⟩, 1⟩ = .one ⟨0, 1⟩ := by
  have hu : ∀ X, OnLine (⟨0, 1⟩ : Pt) ⟨1, 1⟩ X → OnCircle ⟨0, 0⟩ 1 X → X = ⟨0, 1⟩ := by
    rintro X ⟨t, rfl⟩ h
    norm_num [OnCircle, sqDist] at h
    ext <;> norm_num [h]
  obtain ⟨h1, h2⟩ := C92_circle_line ⟨⟨0, 0⟩, 1⟩ ⟨⟨0, 1⟩, ⟨1, 1⟩, true, true⟩ (by unfold Line.Valid allclose npClose; norm_num)
  exact ⟨h1.2.2.2 _ (onLine_left _ _) (by norm_num [OnCircle, sqDist]) hu,
    h2.2.2.2 _ (onLine_left _ _) (by norm_num [OnCircle, sqDist]) hu⟩

/-- The line `y = 5` and a circle of radius 1 about the origin, taken as an ellipse: no point can be returned. -/
example (r : PtRes) (P Q : Pt)
    (h : (⟨⟨0, 5⟩, ⟨1, 5⟩, true, true⟩ : Line).intersection_with_ellipse (.circ ⟨⟨0, 0⟩, 1⟩) = .ok r) : r ≠ .two P Q := by
  rintro rfl
  have := ((C92_ellipse_line ⟨⟨0, 5⟩, ⟨1, 5⟩, true, true⟩ (by unfold Line.Valid allclose npClose; norm_num) _).2.2 _
    (by unfold Circle.Valid; norm_num) h).2.1 P Q rfl
  obtain ⟨⟨t, rfl⟩, h2⟩ := (this.2 P).2 (Or.inl rfl)
  norm_num [OnCircle, sqDist] at h2
  nlinarith [sq_nonneg t]

/-- Two circles of radius 1 with centers `(0, 0)` and `(2, 0)` touch at `(1, 0)`. -/
example (h : ¬ (⟨⟨0, 0⟩, 1⟩ : Circle).is_equal ⟨⟨2, 0⟩, 1⟩) :
    (⟨⟨0, 0⟩, 1⟩ : Circle).intersection_with_circle ⟨⟨2, 0⟩, 1⟩ = .ok (.one ⟨1, 0⟩) := by
  refine (C92_circle_circle ⟨⟨0, 0⟩, 1⟩ ⟨⟨2, 0⟩, 1⟩ (by unfold Circle.Valid; norm_num) (by unfold Circle.Valid; norm_num)).2.2.2
    _ h (by norm_num [OnCircle, sqDist]) (by norm_num [OnCircle, sqDist]) ?_
  intro X h1 h2
  norm_num [OnCircle, sqDist] at h1 h2
  have hx : X.x = 1 := by nlinarith
  have hy : X.y = 0 := by rw [hx] at h1; nlinarith
  exact Pt.ext hx hy

/-- The line `x = 2` inverted through the circle of radius 2 about the origin. -/
example : ∃ g, (⟨⟨2, 0⟩, ⟨2, 1⟩, true, true⟩ : Line).invert ⟨⟨0, 0⟩, 4⟩ = .ok (some g) ∧
    InvMapsOnto ⟨0, 0⟩ 4 (OnLine ⟨2, 0⟩ ⟨2, 1⟩) (GSet g) :=
  (C92_line_invert ⟨⟨0, 0⟩, 4⟩ (by norm_num) ⟨⟨2, 0⟩, ⟨2, 1⟩, true, true⟩
    (by unfold Line.Valid allclose npClose; norm_num)).2 (Or.inr (by unfold allclose npClose; norm_num [abs_of_pos]))

/-- A circle turned by a quarter turn about the origin. -/
example : ∃ c', (⟨⟨0, 0⟩, π / 2, false⟩ : Rotation).transform_circle ⟨⟨1, 0⟩, 1⟩ = .ok c' ∧
    MapsOnto (IsRotated ⟨0, 0⟩ (⟨⟨0, 0⟩, π / 2, false⟩ : Rotation).rad) (OnCircle ⟨1, 0⟩ 1) (OnCircle c'.center c'.radius) := by
  obtain ⟨c', h, -, hm⟩ := (C92_rotation ⟨⟨0, 0⟩, π / 2, false⟩).1 ⟨⟨1, 0⟩, 1⟩ (by unfold Circle.Valid; norm_num)
  exact ⟨c', h, hm⟩

/-- Circles of radii 3 and 4 at the distance 5 are at right angles: the angle has a small cosine. -/
example : ∃ th, (⟨⟨0, 0⟩, 3⟩ : Circle).angle ⟨⟨5, 0⟩, 4⟩ = .ok (some th) ∧ |cos th| ≤ 1 / 10 ^ 8 := by
  have h1 : (⟨⟨0, 0⟩, 3⟩ : Circle).Valid := by unfold Circle.Valid; norm_num
  have h2 : (⟨⟨5, 0⟩, 4⟩ : Circle).Valid := by unfold Circle.Valid; norm_num
  obtain ⟨th, h, hc⟩ := C93_angle _ _ h1 h2 (by norm_num [sqDist]) (by norm_num [sqDist])
    ((C93_is_orthogonal _ _ h1 h2).2.1.2 (by norm_num [sqDist]))
  exact ⟨th, h, hc.trans (by norm_num)⟩
