import Verif.Model.FloatLineEq
import Verif.Model.FloatGeom
import Verif.Model.Ellipse

/-!
# Equation of an ellipse and membership in double precision

The operations are those of Python on single doubles: every operation is rounded. The square `x**2` is taken as the rounded square.
-/

open Classical
noncomputable section

/-- geometry.py 1104-1106 (`alpha *= pi/180`) in double precision: the angle of the ellipse in radians. -/
def Ellipse.radF (e : Ellipse) : ℝ := if e.degrees = true then fl (e.alpha * fl (piF / 180)) else e.alpha

/-- geometry.py 1095-1122 `Ellipse.equation` in double precision, with the functions `cos` and `sin` of the library. -/
def Ellipse.equationF (M : MathLib) (e : Ellipse) : Coeffs :=
  let a2 := fl (e.rmajor * e.rmajor)
  let b2 := fl (e.rminor * e.rminor)
  let alpha := e.radF
  let x := e.center.x
  let y := e.center.y
  let sine := M.sin alpha
  let cosine := M.cos alpha
  let sine2 := fl (sine * sine)
  let cosine2 := fl (1 - sine2)
  let A := fl (fl (a2 * sine2) + fl (b2 * cosine2))
  let B := fl (fl (fl (2 * fl (b2 - a2)) * sine) * cosine)
  let C := fl (fl (a2 * cosine2) + fl (b2 * sine2))
  ⟨A, B, C, fl (fl (fl (-2 * A) * x) - fl (B * y)), fl (fl (-B * x) - fl (fl (2 * C) * y)),
    fl (fl (fl (fl (fl (A * x) * x) + fl (fl (B * x) * y)) + fl (fl (C * y) * y)) - fl (a2 * b2))⟩

/-- `A*x*x + B*x*y + C*y*y + D*x + E*y + F`, geometry.py 1134 and 1147, in double precision. -/
def Coeffs.evalF (q : Coeffs) (P : Pt) : ℝ :=
  fl (fl (fl (fl (fl (fl (fl (q.A * P.x) * P.x) + fl (fl (q.B * P.x) * P.y)) + fl (fl (q.C * P.y) * P.y)) + fl (q.D * P.x)) + fl (q.E * P.y)) + q.F)

/-- geometry.py 1124-1135 `Ellipse.includes` in double precision. -/
def Ellipse.includesF (M : MathLib) (e : Ellipse) (P : Pt) : Prop := iscloseF 1 (fl ((e.equationF M).evalF P + 1))

/-- geometry.py 1137-1147 `Ellipse.contains` in double precision. -/
def Ellipse.containsF (M : MathLib) (e : Ellipse) (P : Pt) : Prop := (e.equationF M).evalF P ≤ 0

end
