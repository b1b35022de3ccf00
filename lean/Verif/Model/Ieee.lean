import Verif.Model.FloatDecide

/-!
# Infinities, nan and overflow

The functions of this file have the rounding of `Verif/Model/FloatGeom.lean` and the special values of IEEE 754 as well: a result whose
rounding exceeds the largest double is an infinity, an invalid operation gives nan, and every comparison with nan is false.  The sign of
zero is not modelled: no function below divides by zero.
-/

open Classical
noncomputable section

/-- The values of a Python or numpy float: nan, the two infinities, the finite numbers. -/
inductive F64 where
  | nan
  | inf (negative : Bool)
  | fin (x : ℝ)

/-- The largest finite double. -/
def maxDouble : ℝ := 2 ^ 1024 - 2 ^ 971

/-- The rounding of a real number to a float, with overflow. -/
def flo (x : ℝ) : F64 := if |fl x| ≤ maxDouble then .fin (fl x) else .inf (decide (x < 0))

namespace F64

/-- A value that is a float: the finite ones are doubles not exceeding the largest. -/
def Valid : F64 → Prop
  | nan => True
  | inf _ => True
  | fin x => IsDouble x ∧ |x| ≤ maxDouble

/-- `-x`. -/
def neg : F64 → F64
  | nan => nan
  | inf s => inf (!s)
  | fin x => fin (-x)

/-- `x + y`. -/
def add : F64 → F64 → F64
  | nan, _ => nan
  | _, nan => nan
  | inf s, inf t => if s = t then inf s else nan
  | inf s, fin _ => inf s
  | fin _, inf t => inf t
  | fin x, fin y => flo (x + y)

/-- `x - y`. -/
def sub (x y : F64) : F64 := add x (neg y)

/-- `x * y`. -/
def mul : F64 → F64 → F64
  | nan, _ => nan
  | _, nan => nan
  | inf s, inf t => inf (s ^^ t)
  | inf s, fin y => if y = 0 then nan else inf (s ^^ decide (y < 0))
  | fin x, inf t => if x = 0 then nan else inf (decide (x < 0) ^^ t)
  | fin x, fin y => flo (x * y)

/-- `x / y` for `y` other than zero; the quotient by zero, which depends on the sign of zero, is not used. -/
def div : F64 → F64 → F64
  | nan, _ => nan
  | _, nan => nan
  | inf _, inf _ => nan
  | inf s, fin y => inf (s ^^ decide (y < 0))
  | fin _, inf _ => fin 0
  | fin x, fin y => flo (x / y)

/-- The fused operation `x * y + z`. -/
def fma : F64 → F64 → F64 → F64
  | fin x, fin y, fin z => flo (x * y + z)
  | fin _, fin _, z => z
  | x, y, z => add (mul x y) z

/-- `abs(x)`. -/
def abs : F64 → F64
  | nan => nan
  | inf _ => inf false
  | fin x => fin |x|

/-- `sqrt(x)` of numpy. -/
def sqrt : F64 → F64
  | nan => nan
  | inf s => if s then nan else inf false
  | fin x => if x < 0 then nan else fin (fl (Real.sqrt x))

/-- `x == y`. -/
def eq : F64 → F64 → Prop
  | inf s, inf t => s = t
  | fin x, fin y => x = y
  | _, _ => False

/-- `x < y`. -/
def lt : F64 → F64 → Prop
  | nan, _ => False
  | _, nan => False
  | inf s, inf t => s = true ∧ t = false
  | inf s, fin _ => s = true
  | fin _, inf t => t = false
  | fin x, fin y => x < y

/-- `x <= y`. -/
def le (x y : F64) : Prop := lt x y ∨ eq x y

end F64

open F64

/-- A point: an array of two floats. -/
structure PtI where
  x : F64
  y : F64

/-- The point with finite coordinates. -/
def PtI.of (P : Pt) : PtI := ⟨.fin P.x, .fin P.y⟩

/-- Subtraction of two arrays of length two. -/
def subI (P Q : PtI) : PtI := ⟨sub P.x Q.x, sub P.y Q.y⟩

/-- internal.py 84-87 `dot_`. -/
def vdotI (k : Fma) (u v : PtI) : F64 :=
  match k with
  | .none => add (mul u.x v.x) (mul u.y v.y)
  | .first => fma u.x v.x (mul u.y v.y)
  | .second => fma u.y v.y (mul u.x v.x)

/-- internal.py 78-79 `distance_`. -/
def distanceI (k : Fma) (A B : PtI) : F64 := sqrt (vdotI k (subI B A) (subI B A))

/-- `math.isclose` with the default tolerances. -/
def iscloseI (a b : F64) : Prop :=
  eq a b ∨ (match a, b with
    | .fin x, .fin y =>
      le (abs (sub (.fin y) (.fin x))) (abs (mul (flo (1 / 10 ^ 9)) (.fin y))) ∨
        le (abs (sub (.fin y) (.fin x))) (abs (mul (flo (1 / 10 ^ 9)) (.fin x)))
    | _, _ => False)

/-- internal.py 6-7 `approx_equal_`. -/
def approx_equalI (x y : F64) : Prop := iscloseI x y ∨ iscloseI (add x (.fin 1)) (add y (.fin 1))

/-- `np.isclose` with the default tolerances: the comparison with the tolerance where the second argument is finite, or equality. -/
def npCloseI (a b : F64) : Prop :=
  (match b with
    | .fin y => le (abs (sub a (.fin y))) (add (flo (1 / 10 ^ 8)) (mul (flo (1 / 10 ^ 5)) (.fin |y|)))
    | _ => False) ∨ eq a b

/-- `np.allclose` of two points. -/
def allcloseI (P Q : PtI) : Prop := npCloseI P.x Q.x ∧ npCloseI P.y Q.y

/-- A circle whose center and radius are any floats. -/
structure CircleI where
  center : PtI
  radius : F64

/-- The circle with finite data. -/
def CircleI.of (c : Circle) : CircleI := ⟨.of c.center, .fin c.radius⟩

/-- geometry.py 361-366 `Circle.__init__`, with internal.py 23-28 `error_if_not_positive_`; every float is a number and every array of two
floats is a point, so the other checks succeed. -/
def mkCircleI (center : PtI) (radius : F64) : Res CircleI :=
  if le radius (.fin 0) then .error (.valueError "`radius` is not positive.") else .ok ⟨center, radius⟩

/-- geometry.py 404-416 `Circle.contains`. -/
def CircleI.contains (k : Fma) (c : CircleI) (P : PtI) : Prop :=
  le (vdotI k (subI P c.center) (subI P c.center)) (mul c.radius c.radius)

/-- geometry.py 390-402 `Circle.includes`. -/
def CircleI.includes (k : Fma) (c : CircleI) (P : PtI) : Prop :=
  approx_equalI (vdotI k (subI P c.center) (subI P c.center)) (mul c.radius c.radius)

/-- geometry.py 529-539 `Circle.power`. -/
def CircleI.power (k : Fma) (c : CircleI) (M : PtI) : F64 :=
  sub (vdotI k (subI M c.center) (subI M c.center)) (mul c.radius c.radius)

/-- geometry.py 376-388 `Circle.is_equal`. -/
def CircleI.is_equal (c1 c2 : CircleI) : Prop := approx_equalI c1.radius c2.radius ∧ allcloseI c1.center c2.center

/-- A line through two points whose coordinates are any floats. -/
structure LineI where
  A : PtI
  B : PtI

/-- The line with finite data. -/
def LineI.of (l : Line) : LineI := ⟨.of l.A, .of l.B⟩

/-- geometry.py 60-68 `Line.__init__`. -/
def mkLineI (A B : PtI) : Res LineI := if allcloseI A B then .error (.valueError "`A` and `B` must be distinct.") else .ok ⟨A, B⟩

/-- internal.py 89-90 `det2x2_`, of the rows `(a, b)` and `(c, d)`. -/
def det2x2I (a b c d : F64) : F64 := sub (mul a d) (mul c b)

/-- geometry.py 135-153 `Line.is_parallel`. -/
def LineI.is_parallel (l1 l2 : LineI) : Prop :=
  lt (abs (det2x2I (sub l1.A.x l1.B.x) (sub l1.A.y l1.B.y) (sub l2.A.x l2.B.x) (sub l2.A.y l2.B.y))) (.fin (1 / 2 ^ 26))

/-- internal.py 95-108 `line_line_intersection_`, applied to two lines. -/
def LineI.intersection (l1 l2 : LineI) : Option PtI :=
  let dx1 := sub l1.A.x l1.B.x
  let dx2 := sub l2.A.x l2.B.x
  let dy1 := sub l1.A.y l1.B.y
  let dy2 := sub l2.A.y l2.B.y
  let D := det2x2I dx1 dy1 dx2 dy2
  if eq D (.fin 0) then none
  else
    let D1 := det2x2I l1.A.x l1.A.y l1.B.x l1.B.y
    let D2 := det2x2I l2.A.x l2.A.y l2.B.x l2.B.y
    some ⟨div (det2x2I D1 dx1 D2 dx2) D, div (det2x2I D1 dy1 D2 dy2) D⟩

/-- geometry.py 155-166 `Line.is_perpendicular`. -/
def LineI.is_perpendicular (k : Fma) (l1 l2 : LineI) : Prop :=
  approx_equalI (vdotI k (subI l1.B l1.A) (subI l2.B l2.A)) (.fin 0)

/-- A triangle whose vertices have any floats as coordinates. -/
structure TriangleI where
  A : PtI
  B : PtI
  C : PtI

/-- The triangle with finite data. -/
def TriangleI.of (T : Triangle) : TriangleI := ⟨.of T.A, .of T.B, .of T.C⟩

/-- geometry.py 1805-1814 `Triangle.orientation`. -/
def TriangleI.orientation (T : TriangleI) : ℤ :=
  let val := sub (mul (sub T.B.y T.A.y) (sub T.C.x T.B.x)) (mul (sub T.B.x T.A.x) (sub T.C.y T.B.y))
  if eq val (.fin 0) then 0 else if lt (.fin 0) val then 1 else -1

end
