import Verif.Model.Basic

/-!
# Model of the `Line` and `Circle` objects and constructors, geometry.py
-/

open Classical
noncomputable section

/-- geometry.py 54-68: attributes of a `Line`. -/
@[ext] structure Line where
  A : Pt
  B : Pt
  extendA : Bool
  extendB : Bool

/-- geometry.py 60-68 `Line.__init__` on two valid points. -/
def mkLine (A B : Pt) (extendA : Bool := true) (extendB : Bool := true) : Res Line :=
  if allclose A B then .error (.valueError "`A` and `B` must be distinct.")
  else .ok ⟨A, B, extendA, extendB⟩

/-- geometry.py 60-68 `Line.__init__` when an argument may be `inf` (rejected by `error_if_not_point_`). -/
def mkLineX (A B : XPt) (extendA : Bool := true) (extendB : Bool := true) : Res Line :=
  match A, B with
  | .fin A, .fin B => mkLine A B extendA extendB
  | .inf, _ => .error (.valueError "`A` is not a point.")
  | .fin _, .inf => .error (.valueError "`B` is not a point.")

/-- geometry.py 357-366: attributes of a `Circle`. -/
@[ext] structure Circle where
  center : Pt
  radius : ℝ

/-- geometry.py 361-366 `Circle.__init__` on a valid point and a number. -/
def mkCircle (center : Pt) (radius : ℝ) : Res Circle :=
  if radius ≤ 0 then .error (.valueError "`radius` is not positive.")
  else .ok ⟨center, radius⟩

/-- Invariant established by `Line.__init__` (geometry.py 65-66): the defining points are not `np.allclose`. -/
def Line.Valid (l : Line) : Prop := ¬ allclose l.A l.B

/-- Invariant established by `Circle.__init__` (geometry.py 364): the radius is positive. -/
def Circle.Valid (c : Circle) : Prop := 0 < c.radius

/-- geometry.py 854-871: attributes of an `Arc`. -/
@[ext] structure Arc where
  center : Pt
  radius : ℝ
  alpha1 : ℝ
  alpha2 : ℝ
  degrees : Bool

/-- geometry.py 865-876 `Arc.__init__` on valid arguments. -/
def mkArc (center : Pt) (radius alpha1 alpha2 : ℝ) (degrees : Bool := true) : Res Arc :=
  if radius ≤ 0 then .error (.valueError "`radius` is not positive.")
  else .ok ⟨center, radius, alpha1, alpha2, degrees⟩

/-- geometry.py 939-958: attributes of an `Ellipse`. -/
@[ext] structure Ellipse where
  center : Pt
  rmajor : ℝ
  rminor : ℝ
  alpha : ℝ
  degrees : Bool

/-- geometry.py 947-959 `Ellipse.__init__` on valid arguments.  `rmajor ≥ rminor` is not checked by the code. -/
def mkEllipse (center : Pt) (rmajor rminor alpha : ℝ) (degrees : Bool := true) : Res Ellipse :=
  if rmajor ≤ 0 then .error (.valueError "`rmajor` is not positive.")
  else if rminor ≤ 0 then .error (.valueError "`rminor` is not positive.")
  else .ok ⟨center, rmajor, rminor, alpha, degrees⟩

/-- Invariant established by `Ellipse.__init__`. -/
def Ellipse.Valid (e : Ellipse) : Prop := 0 < e.rmajor ∧ 0 < e.rminor

/-- The angle of the ellipse in radians: `alpha *= pi/180` if `degrees` (e.g. geometry.py 1012-1013). -/
def Ellipse.rad (e : Ellipse) : ℝ := if e.degrees = true then e.alpha * (Real.pi / 180) else e.alpha

/-- geometry.py 1735-1748: attributes of a `Triangle`; `__init__` does no check beyond the points. -/
@[ext] structure Triangle where
  A : Pt
  B : Pt
  C : Pt

/-- geometry.py 1488-1498: attributes of an `Inversion`; `__init__` accepts every power. -/
@[ext] structure Inversion where
  pole : Pt
  power : ℝ

/-- A `Circle` or a `Line` object. -/
inductive GCircle where
  | circle (c : Circle)
  | line (l : Line)

/-- The class name of a generalized circle object. -/
def GCircle.className : GCircle → String
  | .circle _ => "Circle"
  | .line _ => "Line"

/-- The second argument given to Python's `isinstance`: a class, or (by mistake) a string. -/
inductive IsinstanceArg where
  | cls (name : String)
  | str (s : String)

/-- Python's `isinstance`: the answer for a class, `TypeError` ("arg 2 must be a type, ...") for a string. -/
def pyIsinstance (objClass : String) : IsinstanceArg → Res Bool
  | .cls n => .ok (objClass == n)
  | .str _ => .error .typeError

end
