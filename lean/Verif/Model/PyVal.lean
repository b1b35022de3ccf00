import Verif.Model.Line
import Verif.Model.Circle
import Verif.Model.Triangle
import Verif.Model.Ellipse
import Verif.Model.Inversion
import Verif.Model.Mobius
import Verif.Model.Transforms

/-!
# Python values and the argument checks of `internal.py`

The rest of the model takes points and numbers that were already validated.  Here the arguments are arbitrary
Python values, and the checks made at the beginning of the constructors and methods are modelled.

Simplifications: subclasses of `tuple`, `list` and of the number types are identified with their base class;
an integer too large for a float is not distinguished (the real code raises `OverflowError`); attributes that are
numbers are kept as floats.
-/

open Classical
noncomputable section

/-- A float: a real number (finite float), an infinity or `nan`. -/
inductive Flt where
  | fin (x : ℝ)
  | pinf
  | ninf
  | nan

/-- The types registered in `numbers.Number` which are not complex.  `npInteger`: all numpy integer scalars;
`npFloat64` is a subclass of `float`, `npFloating` stands for the other numpy float scalars. -/
inductive NumKind where
  | int | bool | float | fraction | decimal | npInteger | npFloat64 | npFloating
deriving DecidableEq

/-- Python values, as far as the argument checks can tell them apart. -/
inductive PyVal where
  /-- a number of a real type -/
  | num (k : NumKind) (x : Flt)
  /-- a Python `complex` or its subclass `np.complex128` -/
  | complex (z : ℂ)
  /-- `np.complex64`, `np.clongdouble`: registered in `numbers.Number`, not subclasses of `complex` -/
  | npComplex (z : ℂ)
  /-- `np.bool_`: not registered in `numbers.Number` -/
  | npBool (b : Bool)
  /-- a string; `parsed` is the float it denotes, if any -/
  | str (parsed : Option Flt)
  | none
  | tuple (l : List PyVal)
  | list (l : List PyVal)
  /-- a numpy array: its shape and its entries in row-major order -/
  | ndarray (shape : List ℕ) (data : List PyVal)
  /-- anything else: functions, sets, dictionaries, geometric objects... -/
  | other

namespace PyVal

/-- A numpy array has as many entries as its shape says. -/
def Wf : PyVal → Prop
  | .ndarray shape data => data.length = shape.prod
  | _ => True

/-- `isinstance(x, numbers.Number)`. -/
def isNumber : PyVal → Bool
  | .num _ _ => true
  | .complex _ => true
  | .npComplex _ => true
  | _ => false

/-- `isinstance(x, complex)`. -/
def isComplex : PyVal → Bool
  | .complex _ => true
  | _ => false

/-- `isinstance(x, bool)`. -/
def isBool : PyVal → Bool
  | .num .bool _ => true
  | _ => false

/-- internal.py 15-16 `is_number_`. -/
def is_number_ (x : PyVal) : Bool := x.isNumber && !x.isComplex

/-- internal.py 9-10 `is_inf_`: `isinstance(x, float) and isinf(x)`; `isinf` also holds for `-inf`. -/
def is_inf_ : PyVal → Bool
  | .num .float .pinf => true
  | .num .float .ninf => true
  | .num .npFloat64 .pinf => true
  | .num .npFloat64 .ninf => true
  | _ => false

/-- internal.py 39-40 `is_vector_`. -/
def is_vector_ : PyVal → Bool
  | .tuple _ => true
  | .list _ => true
  | .ndarray shape _ => shape.length == 1
  | _ => false

/-- `len(P)`: a `TypeError` for the values without length (never reached behind `is_vector_`). -/
def len : PyVal → Res ℕ
  | .tuple l => .ok l.length
  | .list l => .ok l.length
  | .ndarray (n :: _) _ => .ok n
  | _ => .error .typeError

/-- `P[i]` for a vector. -/
def item (i : ℕ) : PyVal → Res PyVal
  | .tuple l => (l[i]?).elim (.error .typeError) .ok
  | .list l => (l[i]?).elim (.error .typeError) .ok
  | .ndarray _ data => (data[i]?).elim (.error .typeError) .ok
  | _ => .error .typeError

/-- internal.py 45-46 `is_point_`: `and` stops at the first false operand. -/
def is_point_ (P : PyVal) : Res Bool :=
  if P.is_vector_ = false then .ok false
  else do
    let n ← P.len
    if n ≠ 2 then .ok false
    else do
      let a ← P.item 0
      if a.is_number_ = false then .ok false
      else do
        let b ← P.item 1
        .ok b.is_number_

/-- `x <= 0` for a number.  `nan <= 0` is false; numpy compares complex scalars lexicographically. -/
def le0 : PyVal → Bool
  | .num _ (.fin x) => decide (x ≤ 0)
  | .num _ .ninf => true
  | .npComplex z => decide (z.re < 0 ∨ z.re = 0 ∧ z.im ≤ 0)
  | _ => false

/-- One entry of `np.asarray(·, dtype=float)`.  The imaginary part of a numpy complex scalar is discarded with a
warning, `None` becomes `nan`, a string is parsed. -/
def toFlt : PyVal → Res Flt
  | .num _ x => .ok x
  | .npComplex z => .ok (.fin z.re)
  | .npBool b => .ok (.fin (if b = true then 1 else 0))
  | .str (some x) => .ok x
  | .str Option.none => .error (.valueError "could not convert string to float")
  | .none => .ok .nan
  | _ => .error .typeError

end PyVal

/-- internal.py 18-23 `error_if_not_number_`. -/
def error_if_not_number_ (key : String) (x : PyVal) : Res Unit :=
  if x.is_number_ = false then .error (.valueError ("`" ++ key ++ "` is not a real number.")) else .ok ()

/-- internal.py 25-30 `error_if_not_positive_`. -/
def error_if_not_positive_ (key : String) (x : PyVal) : Res Unit :=
  if x.le0 = true then .error (.valueError ("`" ++ key ++ "` is not positive.")) else .ok ()

/-- internal.py 32-37 `error_if_not_boolean_`. -/
def error_if_not_boolean_ (key : String) (x : PyVal) : Res Unit :=
  if x.isBool = false then .error (.valueError ("`" ++ key ++ "` must be `True` or `False`.")) else .ok ()

/-- internal.py 48-55 `error_if_not_point_`. -/
def error_if_not_point_ (key : String) (P : PyVal) : Res Unit := do
  if (← P.is_point_) = false then .error (.valueError ("`" ++ key ++ "` is not a point.")) else .ok ()

/-- internal.py 57-62 `error_if_not_vector_` (it calls `is_point_`). -/
def error_if_not_vector_ (key : String) (P : PyVal) : Res Unit := do
  if (← P.is_point_) = false then .error (.valueError ("`" ++ key ++ "` is not a vector.")) else .ok ()

/-- A stored point: a float array with two entries. -/
abbrev FPt := Flt × Flt

/-- `np.asarray(P, dtype=float)` for a value that passed `error_if_not_point_`. -/
def asPoint (P : PyVal) : Res FPt := do
  let a ← P.item 0
  let b ← P.item 1
  let x ← a.toFlt
  let y ← b.toFlt
  return (x, y)

/-- One coordinate of `np.isclose`: `nan` is close to nothing, an infinity only to itself. -/
def Flt.close : Flt → Flt → Prop
  | .fin a, .fin b => npClose a b
  | .pinf, .pinf => True
  | .ninf, .ninf => True
  | _, _ => False

/-- `np.allclose` on two stored points. -/
def allcloseF (P Q : FPt) : Prop := P.1.close Q.1 ∧ P.2.close Q.2

/-! ## Constructors -/

/-- geometry.py 54-68: a `Line` with unrestricted attributes. -/
structure PyLine where
  A : FPt
  B : FPt
  extendA : PyVal
  extendB : PyVal

/-- geometry.py 60-68 `Line.__init__`.  `extendA` and `extendB` are not checked. -/
def PyLine.init (A B extendA extendB : PyVal) : Res PyLine := do
  error_if_not_point_ "A" A
  error_if_not_point_ "B" B
  let A' ← asPoint A
  let B' ← asPoint B
  if allcloseF A' B' then .error (.valueError "`A` and `B` must be distinct.")
  else .ok ⟨A', B', extendA, extendB⟩

/-- geometry.py 357-366: a `Circle` with unrestricted attributes. -/
structure PyCircle where
  center : FPt
  radius : PyVal

/-- geometry.py 361-366 `Circle.__init__`. -/
def PyCircle.init (center radius : PyVal) : Res PyCircle := do
  error_if_not_point_ "center" center
  error_if_not_number_ "radius" radius
  error_if_not_positive_ "radius" radius
  let O ← asPoint center
  return ⟨O, radius⟩

/-- geometry.py 857-876: an `Arc` with unrestricted attributes. -/
structure PyArc where
  center : FPt
  radius : PyVal
  alpha1 : PyVal
  alpha2 : PyVal
  degrees : PyVal

/-- geometry.py 865-876 `Arc.__init__`. -/
def PyArc.init (center radius alpha1 alpha2 degrees : PyVal) : Res PyArc := do
  error_if_not_point_ "center" center
  error_if_not_number_ "radius" radius
  error_if_not_positive_ "radius" radius
  error_if_not_number_ "alpha1" alpha1
  error_if_not_number_ "alpha2" alpha2
  error_if_not_boolean_ "degrees" degrees
  let O ← asPoint center
  return ⟨O, radius, alpha1, alpha2, degrees⟩

/-- geometry.py 939-959: an `Ellipse` with unrestricted attributes. -/
structure PyEllipse where
  center : FPt
  rmajor : PyVal
  rminor : PyVal
  alpha : PyVal
  degrees : PyVal

/-- geometry.py 947-959 `Ellipse.__init__`. -/
def PyEllipse.init (center rmajor rminor alpha degrees : PyVal) : Res PyEllipse := do
  error_if_not_point_ "center" center
  error_if_not_number_ "rmajor" rmajor
  error_if_not_positive_ "rmajor" rmajor
  error_if_not_number_ "rminor" rminor
  error_if_not_positive_ "rminor" rminor
  error_if_not_number_ "alpha" alpha
  error_if_not_boolean_ "degrees" degrees
  let O ← asPoint center
  return ⟨O, rmajor, rminor, alpha, degrees⟩

/-- geometry.py 1488-1498: an `Inversion` with unrestricted attributes. -/
structure PyInversion where
  pole : FPt
  power : PyVal

/-- geometry.py 1494-1498 `Inversion.__init__`. -/
def PyInversion.init (pole power : PyVal) : Res PyInversion := do
  error_if_not_point_ "pole" pole
  error_if_not_number_ "power" power
  let O ← asPoint pole
  return ⟨O, power⟩

/-- geometry.py 1735-1748: a `Triangle` with unrestricted attributes. -/
structure PyTriangle where
  A : FPt
  B : FPt
  C : FPt

/-- geometry.py 1742-1748 `Triangle.__init__`. -/
def PyTriangle.init (A B C : PyVal) : Res PyTriangle := do
  error_if_not_point_ "A" A
  error_if_not_point_ "B" B
  error_if_not_point_ "C" C
  let A' ← asPoint A
  let B' ← asPoint B
  let C' ← asPoint C
  return ⟨A', B', C'⟩

/-- geometry.py 2850-2864: a `Rotation` with unrestricted attributes. -/
structure PyRotation where
  center : FPt
  theta : PyVal
  degrees : PyVal

/-- geometry.py 2858-2864 `Rotation.__init__`. -/
def PyRotation.init (center theta degrees : PyVal) : Res PyRotation := do
  error_if_not_point_ "center" center
  error_if_not_number_ "theta" theta
  error_if_not_boolean_ "degrees" degrees
  let O ← asPoint center
  return ⟨O, theta, degrees⟩

/-- geometry.py 3013-3063: a `Shear` with unrestricted attributes. -/
structure PyShear where
  vertex : FPt
  vector : FPt
  ratio : PyVal
  angle : PyVal
  degrees : PyVal

/-- `angle <= -bound or angle >= bound` (geometry.py 3054, 3057) for a number. -/
def PyVal.outside (bound : ℝ) : PyVal → Bool
  | .num _ (.fin x) => decide (x ≤ -bound ∨ x ≥ bound)
  | .num _ .pinf => true
  | .num _ .ninf => true
  | .npComplex z => decide ((z.re < -bound ∨ z.re = -bound ∧ z.im ≤ 0) ∨ (z.re > bound ∨ z.re = bound ∧ z.im ≥ 0))
  | _ => false

/-- Truth value of a Boolean. -/
def PyVal.isTrue : PyVal → Bool
  | .num .bool (.fin x) => decide (x ≠ 0)
  | _ => false

/-- geometry.py 3036-3063 `Shear.__init__`. -/
def PyShear.init (vertex vector ratio angle degrees : PyVal) : Res PyShear := do
  error_if_not_point_ "vertex" vertex
  error_if_not_point_ "vector" vector
  error_if_not_number_ "ratio" ratio
  error_if_not_positive_ "ratio" ratio
  error_if_not_number_ "angle" angle
  error_if_not_boolean_ "degrees" degrees
  if angle.outside (if degrees.isTrue = true then 90 else Real.pi / 2) = true then
    .error (.valueError "`angle` must be strictly between -90 degrees and 90 degrees.")
  else do
    let O ← asPoint vertex
    let v ← asPoint vector
    return ⟨O, v, ratio, angle, degrees⟩

/-- geometry.py 3132-3150: a `ScalingXY` with unrestricted attributes. -/
structure PyScalingXY where
  center : FPt
  sx : PyVal
  sy : PyVal

/-- geometry.py 3137-3149 `ScalingXY.__init__`. -/
def PyScalingXY.init (center sx sy : PyVal) : Res PyScalingXY := do
  error_if_not_point_ "center" center
  error_if_not_number_ "sx" sx
  error_if_not_number_ "sy" sy
  let O ← asPoint center
  return ⟨O, sx, sy⟩

/-- geometry.py 3202-3215: a `Homothety` with unrestricted attributes. -/
structure PyHomothety where
  center : FPt
  scale : PyVal

/-- geometry.py 3206-3215 `Homothety.__init__`. -/
def PyHomothety.init (center scale : PyVal) : Res PyHomothety := do
  error_if_not_point_ "center" center
  error_if_not_number_ "scale" scale
  let O ← asPoint center
  return ⟨O, scale⟩

/-- geometry.py 3278-3307: a `Scaling` with unrestricted attributes. -/
structure PyScaling where
  center : FPt
  direction : FPt
  scale : PyVal

/-- geometry.py 3295-3307 `Scaling.__init__`. -/
def PyScaling.init (center direction scale : PyVal) : Res PyScaling := do
  error_if_not_point_ "center" center
  error_if_not_vector_ "direction" direction
  error_if_not_number_ "scale" scale
  let O ← asPoint center
  let v ← asPoint direction
  return ⟨O, v, scale⟩

/-! ## Methods that take points -/

/-- A stored point with finite coordinates as a point of the plane; the other ones are outside the real model. -/
def FPt.toPt : FPt → Res Pt
  | (.fin x, .fin y) => .ok ⟨x, y⟩
  | _ => .error .nonFinite

/-- The prologue `error_if_not_point_(key=v)` followed by a computation on the coordinates. -/
def withPoint {α : Type} (key : String) (v : PyVal) (body : Pt → Res α) : Res α := do
  error_if_not_point_ key v
  let P ← asPoint v
  body (← FPt.toPt P)

/-- geometry.py 169-205 `Line.includes` (with `strict`, `checkCollinear` given). -/
def Line.includesPy (l : Line) (M : PyVal) (strict checkCollinear : Bool) : Res Bool :=
  withPoint "M" M fun M => .ok (l.includes M strict checkCollinear)

/-- geometry.py 207-227 `Line.perpendicular`. -/
def Line.perpendicularPy (l : Line) (M : PyVal) (extendH extendM : Bool) : Res Line :=
  withPoint "M" M fun M => l.perpendicular M extendH extendM

/-- geometry.py 229-241 `Line.projection`. -/
def Line.projectionPy (l : Line) (M : PyVal) : Res (Option Pt) :=
  withPoint "M" M fun M => .ok (l.projection M)

/-- geometry.py 243-252 `Line.distance`. -/
def Line.distancePy (l : Line) (M : PyVal) : Res ℝ := withPoint "M" M l.distance

/-- geometry.py 254-263 `Line.reflection`. -/
def Line.reflectionPy (l : Line) (M : PyVal) : Res Pt := withPoint "M" M l.reflection

/-- geometry.py 291-300 `Line.translate`. -/
def Line.translatePy (l : Line) (v : PyVal) : Res Line := withPoint "v" v l.translate

/-- geometry.py 390-402 `Circle.includes`. -/
def Circle.includesPy (c : Circle) (P : PyVal) : Res Prop := withPoint "P" P fun P => .ok (c.includes P)

/-- geometry.py 404-416 `Circle.contains`. -/
def Circle.containsPy (c : Circle) (P : PyVal) : Res Prop := withPoint "P" P fun P => .ok (c.contains P)

/-- geometry.py 529-539 `Circle.power`. -/
def Circle.powerPy (c : Circle) (M : PyVal) : Res ℝ := withPoint "M" M fun M => .ok (c.power M)

/-- geometry.py 1124-1135 `Ellipse.includes`. -/
def Ellipse.includesPy (e : Ellipse) (P : PyVal) : Res Prop := withPoint "P" P fun P => .ok (e.includes P)

/-- geometry.py 1137-1147 `Ellipse.contains`. -/
def Ellipse.containsPy (e : Ellipse) (P : PyVal) : Res Prop := withPoint "P" P fun P => .ok (e.contains P)

/-- geometry.py 1816-1828 `Triangle.contains`. -/
def Triangle.containsPy (T : Triangle) (M : PyVal) : Res Prop := withPoint "M" M fun M => .ok (T.contains M)

/-- geometry.py 2801-2818 `Projection.project`. -/
def Projection.projectPy (p : Projection) (M : PyVal) : Res Pt := withPoint "M" M p.project

/-- geometry.py 646-659 `circleAB`. -/
def circleABPy (A B : PyVal) : Res Circle := do
  error_if_not_point_ "A" A
  error_if_not_point_ "B" B
  let A' ← asPoint A
  let B' ← asPoint B
  circleAB (← FPt.toPt A') (← FPt.toPt B')

/-- geometry.py 661-674 `circleOA`. -/
def circleOAPy (O A : PyVal) : Res Circle := do
  error_if_not_point_ "A" A
  error_if_not_point_ "O" O
  let O' ← asPoint O
  let A' ← asPoint A
  circleOA (← FPt.toPt O') (← FPt.toPt A')

/-- geometry.py 2616-2636 `cross_ratio`. -/
def cross_ratioPy (A B C D : PyVal) : Res ℂ := do
  error_if_not_point_ "A" A
  error_if_not_point_ "B" B
  error_if_not_point_ "C" C
  error_if_not_point_ "D" D
  let A' ← asPoint A
  let B' ← asPoint B
  let C' ← asPoint C
  let D' ← asPoint D
  cross_ratio (← FPt.toPt A') (← FPt.toPt B') (← FPt.toPt C') (← FPt.toPt D')

/-- geometry.py 1508-1518 `Inversion.invert`: `inf` is tested before the point check. -/
def Inversion.invertPy (iota : Inversion) (M : PyVal) : Res XPt :=
  if M.is_inf_ = true then .ok (iota.invert .inf)
  else withPoint "M" M fun M => .ok (iota.invert (.fin M))

/-- geometry.py 2425-2442 `Mobius.transform`: `inf` is tested before the point check. -/
def Mobius.transformPy (f : Mobius) (P : PyVal) : Res XPt :=
  if P.is_inf_ = true then f.transform .inf
  else withPoint "P" P fun P => f.transform (.fin P)

/-- geometry.py 2704-2719 `Reflection.transform`: `inf` is tested before the point check. -/
def Reflection.transformPy (R : Reflection) (P : PyVal) : Res XPt :=
  if P.is_inf_ = true then R.transform .inf
  else withPoint "P" P fun P => R.transform (.fin P)

/-! ## Methods that take a point or a matrix of points -/

/-- `np.asarray(M, dtype=float)` for a sequence of entries (one dimension). -/
def asRow (l : List PyVal) : Res (List Flt) := l.mapM PyVal.toFlt

/-- All entries finite: the real model applies. -/
def finRow (l : List Flt) : Res (List ℝ) := l.mapM fun x =>
  match x with
  | .fin x => .ok x
  | _ => .error .nonFinite

/-- Is the value a sequence itself (then the array has more than one dimension, or is ragged)? -/
def PyVal.isSeq : PyVal → Bool
  | .tuple _ => true
  | .list _ => true
  | .ndarray _ _ => true
  | _ => false

/-- geometry.py 2883-2893 (and 3106-3116, 3167-3177, 3232-3242, 3343-3353), for a flat sequence `M`: `np.asarray` in
a `try` block, then `reshape((1, 2))`.  Only flat sequences are treated. -/
def flatPoint (l : List PyVal) : Res (List Flt) :=
  match asRow l with
  | .error _ => .error (.valueError "Invalid `M` argument.")
  | .ok r => if r.length = 2 then .ok r else .error (.valueError "cannot reshape array into shape (1,2)")

/-! ## Methods that take angles and numbers of points -/

/-- `isinstance(x, int)`: a `bool` is an `int`. -/
def PyVal.isInt : PyVal → Bool
  | .num .int _ => true
  | .num .bool _ => true
  | _ => false

/-- `alpha *= pi/180` for a number: a `Decimal` cannot be multiplied by a float. -/
def PyVal.degToRad : PyVal → Res PyVal
  | .num .decimal _ => .error .typeError
  | .num _ (.fin x) => .ok (.num .float (.fin (x * (Real.pi / 180))))
  | .num _ x => .ok (.num .float x)
  | .npComplex z => .ok (.npComplex (z * ((Real.pi / 180 : ℝ) : ℂ)))
  | _ => .error .typeError

/-- The argument of `math.cos` and `math.sin` (internal.py 136-137 `unit_vector_`): an infinity is a domain error,
`nan` is outside the real model. -/
def PyVal.toAngle : PyVal → Res ℝ
  | .num _ (.fin x) => .ok x
  | .num _ .nan => .error .nonFinite
  | .num _ _ => .error (.valueError "math domain error")
  | .npComplex z => .ok z.re
  | _ => .error .typeError

/-- geometry.py 438-450 `Circle.point_from_angle`. -/
def Circle.point_from_anglePy (c : Circle) (alpha degrees : PyVal) : Res Pt := do
  error_if_not_number_ "alpha" alpha
  error_if_not_boolean_ "degrees" degrees
  let a ← if degrees.isTrue = true then alpha.degToRad else .ok alpha
  let a ← a.toAngle
  .ok (c.point_from_angle a false)

/-- geometry.py 265-289 `Line.rotate`. -/
def Line.rotatePy (l : Line) (alpha O degrees : PyVal) : Res Line := do
  error_if_not_number_ "alpha" alpha
  error_if_not_point_ "O" O
  error_if_not_boolean_ "degrees" degrees
  let O ← asPoint O
  let a ← if degrees.isTrue = true then alpha.degToRad else .ok alpha
  let a ← a.toAngle
  l.rotate a (← FPt.toPt O) false

/-- The prologue of the methods with a number of points (geometry.py 426-428, 897-899, 1003-1005): an integer, then
a positive one. -/
def withCount {α : Type} (n_points : PyVal) (body : ℤ → Res α) : Res α := do
  if n_points.isInt = false then .error (.valueError "`n_points` must be an integer.")
  else do
    error_if_not_positive_ "n_points" n_points
    match n_points with
    | .num _ (.fin x) => body ⌊x⌋
    | _ => .error .typeError

/-- geometry.py 890-917 `Arc.path`. -/
def Arc.pathPy (a : Arc) (n_points : PyVal) : Res (List Pt) := withCount n_points a.path

/-- geometry.py 996-1016 `Ellipse.path`. -/
def Ellipse.pathPy (e : Ellipse) (n_points : PyVal) : Res (List Pt) := withCount n_points e.path

end
