import Verif.Props.PyVal

/-!
# C84: validation of the numeric and Boolean arguments
-/

open Classical

namespace Spec

/-- The value is a point whose coordinates are the given floats, finite or not. -/
def DenotesF (v : PyVal) (x y : Flt) : Prop :=
  ∃ j k, v = .tuple [.num j x, .num k y] ∨ v = .list [.num j x, .num k y] ∨ v = .ndarray [2] [.num j x, .num k y]

/-- A positive number: finite and positive, or `inf`. -/
def Positive (v : PyVal) : Prop := ∃ k, v = .num k .pinf ∨ ∃ r : ℝ, 0 < r ∧ v = .num k (.fin r)

/-- `nan`, of any number type. -/
def IsNan (v : PyVal) : Prop := ∃ k, v = .num k .nan

/-- A Boolean value. -/
def Boolean (v : PyVal) : Prop := ∃ x, v = .num .bool x

/-- Not one of the numpy complex scalars that pass for real numbers. -/
def NotC64 (v : PyVal) : Prop := ∀ z, v ≠ .npComplex z

/-- `True` or `False`. -/
def boolVal (b : Bool) : PyVal := .num .bool (.fin (if b = true then 1 else 0))

/-- The number is finite and strictly between the bounds, or it is `nan`. -/
def StrictlyBetween (bound : ℝ) (v : PyVal) : Prop := ∃ k, v = .num k .nan ∨ ∃ x : ℝ, -bound < x ∧ x < bound ∧ v = .num k (.fin x)

/-- The call returns `r` if the condition holds and raises a `ValueError` if it does not. -/
def ReturnsIff {α : Type} (call : Res α) (cond : Prop) (r : α) : Prop :=
  (cond → call = .ok r) ∧ (¬ cond → ∃ msg, call = .error (.valueError msg))

end Spec

open Spec

namespace PyVal2

theorem okU {α : Type} (k : Unit → Res α) : ((Except.ok () : Res Unit) >>= k) = k () := rfl

theorem bind_check {α : Type} (c : Res Unit) (p q : Prop) (k : Unit → Res α) (r : α) (h : ReturnsIff c p ())
    (h' : p → ReturnsIff (k ()) q r) : ReturnsIff (c >>= k) (p ∧ q) r := by
  by_cases hp : p
  · have := h.1 hp
    subst this
    obtain ⟨h1, h2⟩ := h' hp
    exact ⟨fun h => h1 h.2, fun h => h2 fun hq => h ⟨hp, hq⟩⟩
  · obtain ⟨m, hm⟩ := h.2 hp
    refine ⟨fun h => absurd h.1 hp, fun _ => ⟨m, ?_⟩⟩
    rw [hm]; rfl

theorem number (key : String) (v : PyVal) (hv : NotC64 v) : ReturnsIff (error_if_not_number_ key v) (RealNumber v) () := by
  constructor
  · rintro h
    have := (is_number_iff v hv).2 h
    simp [error_if_not_number_, this]
  · intro h
    have : v.is_number_ = false := by
      cases hb : v.is_number_
      · rfl
      · exact absurd ((is_number_iff v hv).1 hb) h
    exact ⟨_, by simp only [error_if_not_number_, this, if_true]; rfl⟩

theorem positive (key : String) (v : PyVal) (hv : RealNumber v) :
    ReturnsIff (error_if_not_positive_ key v) (Positive v ∨ IsNan v) () := by
  obtain ⟨k, x, rfl⟩ := hv
  cases x with
  | fin x =>
    constructor
    · rintro (⟨j, h | ⟨r, hr, h⟩⟩ | ⟨j, h⟩)
      · simp at h
      · simp at h
        simp [error_if_not_positive_, PyVal.le0, h.2, hr]
      · simp at h
    · intro h
      have hx : x ≤ 0 := by
        by_contra hx
        exact h (Or.inl ⟨k, Or.inr ⟨x, not_le.1 hx, rfl⟩⟩)
      exact ⟨_, by simp only [error_if_not_positive_, PyVal.le0, hx, decide_true, if_true]; rfl⟩
  | pinf => exact ⟨fun _ => by simp [error_if_not_positive_, PyVal.le0], fun h => absurd (Or.inl ⟨k, Or.inl rfl⟩) h⟩
  | ninf =>
    constructor
    · rintro (⟨j, h | ⟨r, hr, h⟩⟩ | ⟨j, h⟩) <;> simp at h
    · intro _
      exact ⟨_, by simp only [error_if_not_positive_, PyVal.le0, if_true]; rfl⟩
  | nan => exact ⟨fun _ => by simp [error_if_not_positive_, PyVal.le0], fun h => absurd (Or.inr ⟨k, rfl⟩) h⟩

theorem boolean (key : String) (v : PyVal) : ReturnsIff (error_if_not_boolean_ key v) (Boolean v) () := by
  constructor
  · rintro ⟨x, rfl⟩
    simp [error_if_not_boolean_, PyVal.isBool]
  · intro h
    have : v.isBool = false := by
      cases v with
      | num k x => cases k <;> first | rfl | exact absurd ⟨x, rfl⟩ h
      | _ => rfl
    exact ⟨_, by simp only [error_if_not_boolean_, this, if_true]; rfl⟩

theorem pointLike (v : PyVal) (x y : Flt) (hv : DenotesF v x y) : PointLike v := by
  obtain ⟨j, k, h⟩ := hv
  exact ⟨_, _, ⟨_, _, rfl⟩, ⟨_, _, rfl⟩, h⟩

theorem asPoint_eq (v : PyVal) (x y : Flt) (hv : DenotesF v x y) : asPoint v = .ok (x, y) := by
  obtain ⟨j, k, h⟩ := hv
  rcases h with h | h | h <;> subst h <;> rfl

theorem returns_iff_congr {α : Type} {c : Res α} {p q : Prop} {r : α} (h : ReturnsIff c p r) (hpq : p ↔ q) :
    ReturnsIff c q r := ⟨fun hq => h.1 (hpq.2 hq), fun hq => h.2 fun hp => hq (hpq.1 hp)⟩

theorem returns_ok {α : Type} (c : Res α) (r : α) (h : c = .ok r) : ReturnsIff c True r :=
  ⟨fun _ => h, fun h => absurd trivial h⟩

theorem pos_real (v : PyVal) (h : Positive v ∨ IsNan v) : RealNumber v := by
  rcases h with ⟨k, h | ⟨r, -, h⟩⟩ | ⟨k, h⟩ <;> exact ⟨k, _, h⟩

end PyVal2

open PyVal2

/-- C84: with a point as center, `Circle` accepts exactly the positive numbers (and `nan`, see
`C84_nan_counterexample`) as radius and stores the arguments; every other value is a `ValueError`. -/
theorem C84_circle_partial (P r : PyVal) (x y : Flt) (hP : DenotesF P x y) (hr : NotC64 r) :
    ReturnsIff (PyCircle.init P r) (Positive r ∨ IsNan r) ⟨(x, y), r⟩ := by
  unfold PyCircle.init
  rw [eip_accept _ P (pointLike P x y hP), asPoint_eq P x y hP, okU]
  refine returns_iff_congr (bind_check _ _ _ _ _ (number _ r hr) fun h1 => bind_check _ _ _ _ _ (positive _ r h1) fun _ =>
    returns_ok _ _ rfl) ⟨fun h => h.2.1, fun h => ⟨pos_real r h, h, trivial⟩⟩

/-- C84: `Arc`. -/
theorem C84_arc_partial (P r a1 a2 d : PyVal) (x y : Flt) (hP : DenotesF P x y) (hr : NotC64 r) (h1 : NotC64 a1) (h2 : NotC64 a2) :
    ReturnsIff (PyArc.init P r a1 a2 d) ((Positive r ∨ IsNan r) ∧ RealNumber a1 ∧ RealNumber a2 ∧ Boolean d) ⟨(x, y), r, a1, a2, d⟩ := by
  unfold PyArc.init
  rw [eip_accept _ P (pointLike P x y hP), asPoint_eq P x y hP, okU]
  refine returns_iff_congr (bind_check _ _ _ _ _ (number _ r hr) fun k1 => bind_check _ _ _ _ _ (positive _ r k1) fun _ =>
    bind_check _ _ _ _ _ (number _ a1 h1) fun _ => bind_check _ _ _ _ _ (number _ a2 h2) fun _ =>
    bind_check _ _ _ _ _ (boolean _ d) fun _ => returns_ok _ _ rfl)
    ⟨fun h => ⟨h.2.1, h.2.2.1, h.2.2.2.1, h.2.2.2.2.1⟩, fun h => ⟨pos_real r h.1, h.1, h.2.1, h.2.2.1, h.2.2.2, trivial⟩⟩

/-- C84: `Ellipse`.  The order of the two radii is not checked. -/
theorem C84_ellipse_partial (P a b t d : PyVal) (x y : Flt) (hP : DenotesF P x y) (ha : NotC64 a) (hb : NotC64 b) (ht : NotC64 t) :
    ReturnsIff (PyEllipse.init P a b t d) ((Positive a ∨ IsNan a) ∧ (Positive b ∨ IsNan b) ∧ RealNumber t ∧ Boolean d)
      ⟨(x, y), a, b, t, d⟩ := by
  unfold PyEllipse.init
  rw [eip_accept _ P (pointLike P x y hP), asPoint_eq P x y hP, okU]
  refine returns_iff_congr (bind_check _ _ _ _ _ (number _ a ha) fun k1 => bind_check _ _ _ _ _ (positive _ a k1) fun _ =>
    bind_check _ _ _ _ _ (number _ b hb) fun k2 => bind_check _ _ _ _ _ (positive _ b k2) fun _ =>
    bind_check _ _ _ _ _ (number _ t ht) fun _ =>
    bind_check _ _ _ _ _ (boolean _ d) fun _ => returns_ok _ _ rfl)
    ⟨fun h => ⟨h.2.1, h.2.2.2.1, h.2.2.2.2.1, h.2.2.2.2.2.1⟩,
      fun h => ⟨pos_real a h.1, h.1, pos_real b h.2.1, h.2.1, h.2.2.1, h.2.2.2, trivial⟩⟩

/-- C84: `Inversion`, `Rotation`, `ScalingXY`, `Homothety`.  A zero power, factor or ratio is accepted. -/
theorem C84_transformations (P u v d : PyVal) (x y : Flt) (hP : DenotesF P x y) (hu : NotC64 u) (hv : NotC64 v) :
    ReturnsIff (PyInversion.init P u) (RealNumber u) ⟨(x, y), u⟩ ∧
    ReturnsIff (PyRotation.init P u d) (RealNumber u ∧ Boolean d) ⟨(x, y), u, d⟩ ∧
    ReturnsIff (PyScalingXY.init P u v) (RealNumber u ∧ RealNumber v) ⟨(x, y), u, v⟩ ∧
    ReturnsIff (PyHomothety.init P u) (RealNumber u) ⟨(x, y), u⟩ := by
  unfold PyInversion.init PyRotation.init PyScalingXY.init PyHomothety.init
  simp only [eip_accept _ P (pointLike P x y hP), asPoint_eq P x y hP, okU]
  refine ⟨?_, ?_, ?_, ?_⟩
  · exact returns_iff_congr (bind_check _ _ _ _ _ (number _ u hu) fun _ => returns_ok _ _ rfl) (by simp)
  · exact returns_iff_congr (bind_check _ _ _ _ _ (number _ u hu) fun _ =>
      bind_check _ _ _ _ _ (boolean _ d) fun _ => returns_ok _ _ rfl) (by tauto)
  · exact returns_iff_congr (bind_check _ _ _ _ _ (number _ u hu) fun _ =>
      bind_check _ _ _ _ _ (number _ v hv) fun _ => returns_ok _ _ rfl) (by tauto)
  · exact returns_iff_congr (bind_check _ _ _ _ _ (number _ u hu) fun _ => returns_ok _ _ rfl) (by simp)

/-- C84: `Scaling`; a zero direction is accepted. -/
theorem C84_scaling (P Q s : PyVal) (x y z t : Flt) (hP : DenotesF P x y) (hQ : DenotesF Q z t) (hs : NotC64 s) :
    ReturnsIff (PyScaling.init P Q s) (RealNumber s) ⟨(x, y), (z, t), s⟩ := by
  unfold PyScaling.init
  rw [eip_accept _ P (pointLike P x y hP), eiv_accept _ Q (pointLike Q z t hQ), asPoint_eq P x y hP, asPoint_eq Q z t hQ, okU, okU]
  exact returns_iff_congr (bind_check _ _ _ _ _ (number _ s hs) fun _ => returns_ok _ _ rfl) (by simp)

theorem PyVal2.outside_iff (bound : ℝ) (v : PyVal) (hv : RealNumber v) : v.outside bound = false ↔ StrictlyBetween bound v := by
  obtain ⟨k, x, rfl⟩ := hv
  cases x with
  | fin x =>
    simp only [PyVal.outside, decide_eq_false_iff_not, not_or, not_le, ge_iff_le]
    constructor
    · rintro ⟨h1, h2⟩
      exact ⟨k, Or.inr ⟨x, h1, h2, rfl⟩⟩
    · rintro ⟨j, h | ⟨z, h1, h2, h⟩⟩
      · simp at h
      · simp at h
        rw [h.2]; exact ⟨h1, h2⟩
  | nan => exact ⟨fun _ => ⟨k, Or.inl rfl⟩, fun _ => rfl⟩
  | _ => simp [PyVal.outside, StrictlyBetween]

/-- C84: `Shear` accepts exactly the positive ratios and the angles strictly between -90 and 90 degrees, given in the
chosen unit; `nan` passes both checks. -/
theorem C84_shear_partial (P Q r a : PyVal) (d : Bool) (x y z t : Flt) (hP : DenotesF P x y) (hQ : DenotesF Q z t) (hr : NotC64 r) (ha : NotC64 a) :
    ReturnsIff (PyShear.init P Q r a (boolVal d)) ((Positive r ∨ IsNan r) ∧ StrictlyBetween (if d = true then 90 else Real.pi / 2) a)
      ⟨(x, y), (z, t), r, a, boolVal d⟩ := by
  unfold PyShear.init
  rw [eip_accept _ P (pointLike P x y hP), eip_accept _ Q (pointLike Q z t hQ), asPoint_eq P x y hP, asPoint_eq Q z t hQ, okU, okU]
  have hd : (boolVal d).isTrue = d := by cases d <;> simp [boolVal, PyVal.isTrue]
  rw [hd]
  have sb : StrictlyBetween (if d = true then 90 else Real.pi / 2) a → RealNumber a := by
    rintro ⟨k, h | ⟨x, -, -, h⟩⟩ <;> exact ⟨k, _, h⟩
  refine returns_iff_congr (p := RealNumber r ∧ (Positive r ∨ IsNan r) ∧ RealNumber a ∧ Boolean (boolVal d) ∧
        StrictlyBetween (if d = true then 90 else Real.pi / 2) a) ?_
    ⟨fun h => ⟨h.2.1, h.2.2.2.2⟩, fun h => ⟨pos_real r h.1, h.1, sb h.2, ⟨_, rfl⟩, h.2⟩⟩
  refine bind_check _ _ _ _ _ (number _ r hr) fun k1 => bind_check _ _ _ _ _ (positive _ r k1) fun _ => ?_
  refine bind_check _ _ _ _ _ (number _ a ha) fun k2 => bind_check _ _ _ _ _ (boolean _ (boolVal d)) fun _ => ?_
  have ho := PyVal2.outside_iff (if d = true then 90 else Real.pi / 2) a k2
  constructor
  · intro h
    rw [if_neg (by rw [ho.2 h]; simp)]
    rfl
  · intro h
    have : a.outside (if d = true then 90 else Real.pi / 2) = true := by
      cases hb : a.outside (if d = true then 90 else Real.pi / 2)
      · exact absurd (ho.1 hb) h
      · rfl
    exact ⟨_, by rw [if_pos this]⟩

/-- C84: `Shear` rejects a `degrees` which is not a Boolean. -/
theorem C84_shear_degrees (P Q r a d : PyVal) (x y z t : Flt) (hP : DenotesF P x y) (hQ : DenotesF Q z t) (hr : NotC64 r)
    (ha : NotC64 a) (hd : ¬ Boolean d) : ∃ msg, PyShear.init P Q r a d = .error (.valueError msg) := by
  unfold PyShear.init
  rw [eip_accept _ P (pointLike P x y hP), eip_accept _ Q (pointLike Q z t hQ), asPoint_eq P x y hP, asPoint_eq Q z t hQ, okU, okU]
  refine bind_unit_cases _ _ ?_ (bind_unit_cases _ _ (eipos_cases _ r) (bind_unit_cases _ _ (einum_cases _ a)
    (bind_unit_error _ _ ((boolean _ d).2 hd))))
  exact einum_cases _ r

/-- C84: `Line` rejects equal points, also when coordinates are infinite. -/
theorem C84_line_equal (P Q eA eB : PyVal) (x y : Flt) (hP : DenotesF P x y) (hQ : DenotesF Q x y) (hx : x ≠ .nan) (hy : y ≠ .nan) :
    PyLine.init P Q eA eB = .error (.valueError "`A` and `B` must be distinct.") := by
  unfold PyLine.init
  rw [eip_accept _ P (pointLike P x y hP), eip_accept _ Q (pointLike Q x y hQ), asPoint_eq P x y hP, asPoint_eq Q x y hQ]
  have cl : ∀ z : Flt, z ≠ .nan → z.close z := by
    intro z hz
    cases z with
    | fin x => exact npClose_refl x
    | nan => exact absurd rfl hz
    | _ => trivial
  have : allcloseF (x, y) (x, y) := ⟨cl x hx, cl y hy⟩
  simp only [bind, Except.bind]
  rw [if_pos this]

/-- C84 fails: `nan` passes as a radius, as an angle of a shear, and a line through twice the same point with a `nan`
coordinate is accepted. -/
theorem C84_nan_counterexample :
    (∃ c, PyCircle.init (.tuple [.num .int (.fin 0), .num .int (.fin 0)]) (.num .float .nan) = .ok c) ∧
    (∃ l, PyLine.init (.tuple [.num .float .nan, .num .int (.fin 0)]) (.tuple [.num .float .nan, .num .int (.fin 0)])
      (boolVal true) (boolVal true) = .ok l) ∧
    (∃ s, PyShear.init (.tuple [.num .int (.fin 0), .num .int (.fin 0)]) (.tuple [.num .int (.fin 1), .num .int (.fin 0)])
      (.num .int (.fin 1)) (.num .float .nan) (boolVal true) = .ok s) := by
  refine ⟨⟨_, (C84_circle_partial _ _ _ _ ⟨_, _, Or.inl rfl⟩ (by intro z; simp)).1 (Or.inr ⟨_, rfl⟩)⟩, ?_,
    ⟨_, (C84_shear_partial _ _ _ _ true _ _ _ _ ⟨_, _, Or.inl rfl⟩ ⟨_, _, Or.inl rfl⟩ (by intro z; simp) (by intro z; simp)).1
      ⟨Or.inl ⟨_, Or.inr ⟨1, one_pos, rfl⟩⟩, _, Or.inl rfl⟩⟩⟩
  have hd : DenotesF (.tuple [.num .float .nan, .num .int (.fin 0)]) .nan (.fin 0) := ⟨_, _, Or.inl rfl⟩
  refine ⟨⟨(.nan, .fin 0), (.nan, .fin 0), boolVal true, boolVal true⟩, ?_⟩
  unfold PyLine.init
  rw [eip_accept _ _ (pointLike _ _ _ hd), eip_accept _ _ (pointLike _ _ _ hd), asPoint_eq _ _ _ hd]
  simp only [bind, Except.bind]
  rw [if_neg (by simp [allcloseF, Flt.close])]

/-- C84: `-inf` (a Python or numpy float) is treated as `inf` by the three methods that accept `inf`. -/
theorem C84_minus_inf (k : NumKind) (hk : k = .float ∨ k = .npFloat64) (x : Flt) (hx : x = .pinf ∨ x = .ninf)
    (iota : Inversion) (f : Mobius) (R : Reflection) :
    iota.invertPy (.num k x) = .ok (.fin iota.pole) ∧ R.transformPy (.num k x) = .ok .inf ∧
    f.transformPy (.num k x) = f.transform .inf := by
  have h : (PyVal.num k x).is_inf_ = true := by
    rcases hk with rfl | rfl <;> rcases hx with rfl | rfl <;> rfl
  simp only [Inversion.invertPy, Reflection.transformPy, Mobius.transformPy, h, if_true]
  exact ⟨rfl, rfl, trivial⟩

/-- C84: `Circle.point_from_angle` returns the point with the given angle, for every finite number except a `Decimal`
in degrees. -/
theorem C84_point_from_angle_partial (c : Circle) (k : NumKind) (a : ℝ) (d : Bool) (h : k ≠ .decimal ∨ d = false) :
    c.point_from_anglePy (.num k (.fin a)) (boolVal d) =
      .ok ⟨c.center.x + c.radius * Real.cos (if d = true then a * (Real.pi / 180) else a),
        c.center.y + c.radius * Real.sin (if d = true then a * (Real.pi / 180) else a)⟩ := by
  unfold Circle.point_from_anglePy
  rw [(number "alpha" (.num k (.fin a)) (by intro z; simp)).1 ⟨k, _, rfl⟩, (boolean "degrees" (boolVal d)).1 ⟨_, rfl⟩]
  have hd : (boolVal d).isTrue = d := by cases d <;> simp [boolVal, PyVal.isTrue]
  rw [hd]
  cases d with
  | false => rfl
  | true =>
    have hk : k ≠ .decimal := by simpa using h
    have : (PyVal.num k (.fin a)).degToRad = .ok (.num .float (.fin (a * (Real.pi / 180)))) := by
      cases k <;> first | rfl | exact absurd rfl hk
    rw [if_pos rfl, this]
    rfl

/-- C84: an infinite angle passes the check for numbers and is a `ValueError` (of `math.cos`), in radians and in degrees, except for a `Decimal` in
degrees (`TypeError`). -/
theorem C84_infinite_angle (c : Circle) (l : Line) (k : NumKind) (x : Flt) (hx : x = .pinf ∨ x = .ninf) (d : Bool)
    (h : k ≠ .decimal ∨ d = false) (P : PyVal) (O : Pt) (hP : DenotesPoint P O) :
    c.point_from_anglePy (.num k x) (boolVal d) = .error (.valueError "math domain error") ∧
    l.rotatePy (.num k x) P (boolVal d) = .error (.valueError "math domain error") := by
  have hd : (boolVal d).isTrue = d := by cases d <;> simp [boolVal, PyVal.isTrue]
  unfold Circle.point_from_anglePy Line.rotatePy
  rw [(number "alpha" (.num k x) (by intro z; simp)).1 ⟨k, _, rfl⟩, (boolean "degrees" (boolVal d)).1 ⟨_, rfl⟩,
    eip_accept _ P (denotes_pointLike P O hP), asPoint_denotes P O hP, hd]
  cases d with
  | false => rcases hx with rfl | rfl <;> exact ⟨rfl, rfl⟩
  | true =>
    have hk : k ≠ .decimal := by simpa using h
    rcases hx with rfl | rfl <;> cases k <;> first | exact absurd rfl hk | exact ⟨rfl, rfl⟩

/-- C84 fails: a `Decimal` is accepted by the checks, but the conversion to radians raises `TypeError`. -/
theorem C84_decimal_counterexample (c : Circle) (l : Line) (a : ℝ) (P : PyVal) (O : Pt) (hP : DenotesPoint P O) :
    c.point_from_anglePy (.num .decimal (.fin a)) (boolVal true) = .error .typeError ∧
    l.rotatePy (.num .decimal (.fin a)) P (boolVal true) = .error .typeError := by
  have hd : (boolVal true).isTrue = true := by simp [boolVal, PyVal.isTrue]
  unfold Circle.point_from_anglePy Line.rotatePy
  simp only [(number "alpha" (.num .decimal (.fin a)) (by intro z; simp)).1 ⟨_, _, rfl⟩, (boolean "degrees" (boolVal true)).1 ⟨_, rfl⟩,
    eip_accept _ P (denotes_pointLike P O hP), asPoint_denotes P O hP, hd, if_true]
  exact ⟨rfl, rfl⟩

/-- C84: `Line.rotate` accepts a number, a point and a Boolean, and computes the rotation of the real model. -/
theorem C84_rotate_partial (l : Line) (k : NumKind) (a : ℝ) (d : Bool) (h : k ≠ .decimal ∨ d = false) (P : PyVal) (O : Pt)
    (hP : DenotesPoint P O) : l.rotatePy (.num k (.fin a)) P (boolVal d) = l.rotate a O d := by
  unfold Line.rotatePy
  rw [(number "alpha" (.num k (.fin a)) (by intro z; simp)).1 ⟨k, _, rfl⟩, (boolean "degrees" (boolVal d)).1 ⟨_, rfl⟩,
    eip_accept _ P (denotes_pointLike P O hP), asPoint_denotes P O hP]
  have hd : (boolVal d).isTrue = d := by cases d <;> simp [boolVal, PyVal.isTrue]
  rw [hd]
  cases d with
  | false => rfl
  | true =>
    have hk : k ≠ .decimal := by simpa using h
    have : (PyVal.num k (.fin a)).degToRad = .ok (.num .float (.fin (a * (Real.pi / 180)))) := by
      cases k <;> first | rfl | exact absurd rfl hk
    simp only [bind, Except.bind, if_true, this]
    rfl

/-- C84: the numbers of points: an integer (or `True`) that is positive is accepted, the path has that many points;
everything else is a `ValueError`. -/
theorem C84_path (a : Arc) (e : Ellipse) (v : PyVal) (hint : ∀ k x, v = .num k x → (k = .int ∨ k = .bool) → ∃ n : ℤ, x = .fin n) :
    (∀ n : ℤ, 0 < n → (v = .num .int (.fin n) ∨ v = .num .bool (.fin n)) →
      ∃ p q, a.pathPy v = .ok p ∧ p.length = n ∧ e.pathPy v = .ok q ∧ q.length = n) ∧
    ((¬ ∃ n : ℤ, 0 < n ∧ (v = .num .int (.fin n) ∨ v = .num .bool (.fin n))) →
      (∃ m, a.pathPy v = .error (.valueError m)) ∧ ∃ m, e.pathPy v = .error (.valueError m)) := by
  constructor
  · intro n hn hv
    have hn' : ¬ n ≤ 0 := not_le.2 hn
    have hi : v.isInt = true := by rcases hv with rfl | rfl <;> rfl
    have hw : ∀ {α : Type} (body : ℤ → Res α), withCount v body = body n := by
      intro α body
      have hp : (0 : ℝ) < n := by exact_mod_cast hn
      unfold withCount
      rw [hi]
      have hpos := (positive "n_points" v (by rcases hv with rfl | rfl <;> exact ⟨_, _, rfl⟩)).1
        (by rcases hv with rfl | rfl <;> exact Or.inl ⟨_, Or.inr ⟨n, hp, rfl⟩⟩)
      rw [if_neg (by simp), hpos]
      rcases hv with rfl | rfl <;> simp [bind, Except.bind]
    have hl : ((n.toNat : ℕ) : ℤ) = n := Int.toNat_of_nonneg hn.le
    unfold Arc.pathPy Ellipse.pathPy
    rw [hw, hw]
    unfold Arc.path Ellipse.path
    rw [if_neg hn', if_neg hn']
    exact ⟨_, _, rfl, by simpa using hl, rfl, by simpa using hl⟩
  · intro hv
    have hw : ∀ {α : Type} (body : ℤ → Res α), ∃ m, withCount v body = .error (.valueError m) := by
      intro α body
      unfold withCount
      by_cases hi : v.isInt = false
      · rw [if_pos hi]; exact ⟨_, rfl⟩
      · rw [if_neg hi]
        obtain ⟨k, x, rfl, hk⟩ : ∃ k x, v = .num k x ∧ (k = .int ∨ k = .bool) := by
          cases v with
          | num k x => cases k <;> simp_all [PyVal.isInt]
          | _ => simp [PyVal.isInt] at hi
        obtain ⟨n, rfl⟩ := hint k x rfl hk
        refine bind_unit_error _ _ ((positive "n_points" _ ⟨_, _, rfl⟩).2 ?_)
        rintro (⟨j, h | ⟨r, hr, h⟩⟩ | ⟨j, h⟩)
        · simp at h
        · simp at h
          rw [← h.2] at hr
          refine hv ⟨n, by exact_mod_cast hr, ?_⟩
          rcases hk with rfl | rfl
          · exact Or.inl rfl
          · exact Or.inr rfl
        · simp at h
    exact ⟨hw _, hw _⟩

/-- Concrete cases: `Ellipse((1, 2), 3, 2.0, 30)` is accepted, `Ellipse((1, 2), 3, 2.0, 30, 1)` is not. -/
example : ∃ e, PyEllipse.init (.tuple [.num .int (.fin 1), .num .int (.fin 2)]) (.num .int (.fin 3)) (.num .float (.fin 2))
    (.num .int (.fin 30)) (boolVal true) = .ok e :=
  ⟨_, (C84_ellipse_partial _ _ _ _ _ _ _ ⟨_, _, Or.inl rfl⟩ (by intro z; simp) (by intro z; simp) (by intro z; simp)).1
    ⟨Or.inl ⟨_, Or.inr ⟨3, by norm_num, rfl⟩⟩, Or.inl ⟨_, Or.inr ⟨2, by norm_num, rfl⟩⟩, ⟨_, _, rfl⟩, ⟨_, rfl⟩⟩⟩

example : ∃ m, PyEllipse.init (.tuple [.num .int (.fin 1), .num .int (.fin 2)]) (.num .int (.fin 3)) (.num .float (.fin 2))
    (.num .int (.fin 30)) (.num .int (.fin 1)) = .error (.valueError m) :=
  (C84_ellipse_partial _ _ _ _ _ _ _ ⟨_, _, Or.inl rfl⟩ (by intro z; simp) (by intro z; simp) (by intro z; simp)).2
    (by rintro ⟨-, -, -, x, h⟩; simp at h)

/-- The point `(1, 2)` and some numbers, for the cases below. -/
theorem Ex.pt12 : DenotesF (.tuple [.num .int (.fin 1), .num .int (.fin 2)]) (.fin 1) (.fin 2) := ⟨_, _, Or.inl rfl⟩

theorem Ex.num (k : NumKind) (x : Flt) : NotC64 (.num k x) := by intro z; simp

/-- `Circle((1, 2), inf)` is accepted, `Circle((1, 2), 0)` is not; an arc needs a Boolean. -/
example : (∃ c, PyCircle.init (.tuple [.num .int (.fin 1), .num .int (.fin 2)]) (.num .float .pinf) = .ok c) ∧
    (∃ m, PyCircle.init (.tuple [.num .int (.fin 1), .num .int (.fin 2)]) (.num .int (.fin 0)) = .error (.valueError m)) ∧
    (∃ m, PyArc.init (.tuple [.num .int (.fin 1), .num .int (.fin 2)]) (.num .int (.fin 1)) (.num .int (.fin 0))
      (.num .int (.fin 90)) .none = .error (.valueError m)) := by
  refine ⟨⟨_, (C84_circle_partial _ _ _ _ Ex.pt12 (Ex.num _ _)).1 (Or.inl ⟨_, Or.inl rfl⟩)⟩,
    (C84_circle_partial _ _ _ _ Ex.pt12 (Ex.num _ _)).2 ?_,
    (C84_arc_partial _ _ _ _ _ _ _ Ex.pt12 (Ex.num _ _) (Ex.num _ _) (Ex.num _ _)).2 ?_⟩
  · rintro (⟨k, h | ⟨r, hr, h⟩⟩ | ⟨k, h⟩)
    · simp at h
    · simp at h; linarith [h.2]
    · simp at h
  · rintro ⟨-, -, -, x, h⟩; simp at h

/-- `Inversion((1, 2), -5)` is accepted, `Rotation((1, 2), "90")` is not; `Scaling` wants a number too. -/
example : (∃ c, PyInversion.init (.tuple [.num .int (.fin 1), .num .int (.fin 2)]) (.num .int (.fin (-5))) = .ok c) ∧
    (∃ m, PyRotation.init (.tuple [.num .int (.fin 1), .num .int (.fin 2)]) (.str (some (.fin 90))) (boolVal true) =
      .error (.valueError m)) ∧
    (∃ m, PyScaling.init (.tuple [.num .int (.fin 1), .num .int (.fin 2)])
      (.tuple [.num .int (.fin 1), .num .int (.fin 2)]) .none = .error (.valueError m)) := by
  refine ⟨⟨_, (C84_transformations _ _ (.num .int (.fin 0)) (boolVal true) _ _ Ex.pt12 (Ex.num _ _) (Ex.num _ _)).1.1
      ⟨_, _, rfl⟩⟩,
    (C84_transformations _ (.str (some (.fin 90))) (.num .int (.fin 0)) _ _ _ Ex.pt12 (by intro z; simp) (Ex.num _ _)).2.1.2 ?_,
    (C84_scaling _ _ _ _ _ _ _ Ex.pt12 Ex.pt12 (by intro z; simp)).2 ?_⟩
  · rintro ⟨⟨k, x, h⟩, -⟩; simp at h
  · rintro ⟨k, x, h⟩; simp at h

/-- A shear by 45 degrees is accepted, by 45 radians it is not, and with `degrees=1` it is not. -/
example : (∃ s, PyShear.init (.tuple [.num .int (.fin 1), .num .int (.fin 2)])
      (.tuple [.num .int (.fin 1), .num .int (.fin 2)]) (.num .int (.fin 1)) (.num .int (.fin 45)) (boolVal true) = .ok s) ∧
    (∃ m, PyShear.init (.tuple [.num .int (.fin 1), .num .int (.fin 2)])
      (.tuple [.num .int (.fin 1), .num .int (.fin 2)]) (.num .int (.fin 1)) (.num .int (.fin 45)) (boolVal false) =
      .error (.valueError m)) ∧
    (∃ m, PyShear.init (.tuple [.num .int (.fin 1), .num .int (.fin 2)])
      (.tuple [.num .int (.fin 1), .num .int (.fin 2)]) (.num .int (.fin 1)) (.num .int (.fin 45)) (.num .int (.fin 1)) =
      .error (.valueError m)) := by
  refine ⟨⟨_, (C84_shear_partial _ _ _ _ true _ _ _ _ Ex.pt12 Ex.pt12 (Ex.num _ _) (Ex.num _ _)).1
      ⟨Or.inl ⟨_, Or.inr ⟨1, by norm_num, rfl⟩⟩, _, Or.inr ⟨45, by norm_num, by norm_num, rfl⟩⟩⟩,
    (C84_shear_partial _ _ _ _ false _ _ _ _ Ex.pt12 Ex.pt12 (Ex.num _ _) (Ex.num _ _)).2 ?_,
    C84_shear_degrees _ _ _ _ _ _ _ _ _ Ex.pt12 Ex.pt12 (Ex.num _ _) (Ex.num _ _) (by rintro ⟨x, h⟩; simp at h)⟩
  rintro ⟨-, k, h | ⟨x, -, h2, h⟩⟩
  · simp at h
  · simp at h
    rw [← h.2] at h2
    have := Real.pi_le_four
    simp at h2
    linarith

/-- A line through a point and the same point is refused, even at infinity. -/
example : PyLine.init (.tuple [.num .float .pinf, .num .int (.fin 2)]) (.list [.num .npFloat64 .pinf, .num .int (.fin 2)])
    (boolVal true) (boolVal true) = .error (.valueError "`A` and `B` must be distinct.") :=
  C84_line_equal _ _ _ _ .pinf (.fin 2) ⟨_, _, Or.inl rfl⟩ ⟨_, _, Or.inr (Or.inl rfl)⟩ (by simp) (by simp)

/-- `invert(-inf)` is the pole; an infinite angle is a `ValueError`; the point at 180 degrees with an integer angle. -/
example : (⟨⟨1, 2⟩, 5⟩ : Inversion).invertPy (.num .float .ninf) = .ok (.fin ⟨1, 2⟩) ∧
    (⟨⟨1, 2⟩, 5⟩ : Circle).point_from_anglePy (.num .float .pinf) (boolVal true) = .error (.valueError "math domain error") ∧
    (⟨⟨1, 2⟩, 5⟩ : Circle).point_from_anglePy (.num .int (.fin 180)) (boolVal true) = .ok ⟨-4, 2⟩ ∧
    (⟨⟨0, 0⟩, ⟨1, 0⟩, true, true⟩ : Line).rotatePy (.num .int (.fin 90)) (.list [.num .int (.fin 0), .num .int (.fin 0)])
      (boolVal true) = (⟨⟨0, 0⟩, ⟨1, 0⟩, true, true⟩ : Line).rotate 90 ⟨0, 0⟩ true := by
  refine ⟨(C84_minus_inf .float (Or.inl rfl) .ninf (Or.inr rfl) ⟨⟨1, 2⟩, 5⟩ ⟨1⟩ ⟨⟨⟨0, 0⟩, ⟨1, 0⟩, true, true⟩⟩).1,
    (C84_infinite_angle ⟨⟨1, 2⟩, 5⟩ ⟨⟨0, 0⟩, ⟨1, 0⟩, true, true⟩ .float .pinf (Or.inl rfl) true (Or.inl (by simp))
      (.list [.num .int (.fin 0), .num .int (.fin 0)]) ⟨0, 0⟩ ⟨_, _, Or.inr (Or.inl rfl)⟩).1, ?_,
    C84_rotate_partial _ _ _ _ (Or.inl (by simp)) _ ⟨0, 0⟩ ⟨_, _, Or.inr (Or.inl rfl)⟩⟩
  rw [C84_point_from_angle_partial _ _ _ _ (Or.inl (by simp)), if_pos rfl,
    show (180 : ℝ) * (Real.pi / 180) = Real.pi by ring]
  congr 1
  ext <;> norm_num
