import Verif.Model.Triangle
import Verif.Model.FloatConstruct

/-!
# The angles of a triangle in double precision

The function `acos` of the C library is a parameter: nothing is assumed about it here, the theorems assume a bound of its error on
`[-1, 1]`.  The quotient of two doubles is rounded, and a quotient outside of `[-1, 1]` raises the domain error of `math.acos`.
-/

open Classical
noncomputable section

/-- internal.py 81-82 `vlength_` in double precision. -/
def vlengthF (k : Fma) (v : Pt) : ℝ := fl (Real.sqrt (vdotF k v v))

/-- `math.acos` of a double, with the values of the C library. -/
def pyAcosF (acosF : ℝ → ℝ) (x : ℝ) : Res ℝ :=
  if x < -1 ∨ 1 < x then .error (.valueError "math domain error") else .ok (acosF x)

/-- Division of two numbers of numpy in double precision: the division by zero does not give a finite number. -/
def npDivF (x y : ℝ) : Res ℝ := if y = 0 then .error .nonFinite else .ok (fl (x / y))

/-- geometry.py 1840-1852 `Triangle.angleA` in double precision. -/
def Triangle.angleAF (k : Fma) (acosF : ℝ → ℝ) (T : Triangle) : Res ℝ := do
  let AC := subF T.C T.A
  let AB := subF T.B T.A
  let q ← npDivF (vdotF k AC AB) (vlengthF k AC)
  let q ← npDivF q (vlengthF k AB)
  pyAcosF acosF q

/-- geometry.py 1854-1866 `Triangle.angleB` in double precision. -/
def Triangle.angleBF (k : Fma) (acosF : ℝ → ℝ) (T : Triangle) : Res ℝ := do
  let BC := subF T.C T.B
  let BA := subF T.A T.B
  let q ← npDivF (vdotF k BC BA) (vlengthF k BC)
  let q ← npDivF q (vlengthF k BA)
  pyAcosF acosF q

/-- geometry.py 1868-1880 `Triangle.angleC` in double precision. -/
def Triangle.angleCF (k : Fma) (acosF : ℝ → ℝ) (T : Triangle) : Res ℝ := do
  let CA := subF T.A T.C
  let CB := subF T.B T.C
  let q ← npDivF (vdotF k CA CB) (vlengthF k CB)
  let q ← npDivF q (vlengthF k CA)
  pyAcosF acosF q

end
