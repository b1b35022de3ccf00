import Verif.Spec.Plane
import Mathlib.Analysis.SpecialFunctions.Complex.Arg
import Mathlib.Analysis.SpecialFunctions.Trigonometric.Inverse
import Mathlib.Algebra.Order.Floor.Ring

/-!
# Model of `planegeometry/internal.py` (numeric helpers) and of the Python runtime conventions

Simplification used everywhere: a finite Python/numpy float is a real number, arithmetic is exact.
-/

open Classical

/-- Python exceptions as values.  `nonFinite` is a pseudo error: the real code does not raise but goes on with
`inf`/`nan` values (numpy scalar division by zero).  `diverges` is a pseudo error: the real code never returns. -/
inductive Err where
  | valueError (msg : String)
  | typeError
  | zeroDivision
  | attributeError
  | linAlgError
  | nonFinite
  | diverges
deriving DecidableEq

abbrev Res (α : Type) := Except Err α

noncomputable section

/-! ## Python runtime -/

/-- `math.atan2(y, x)` (C library): principal argument of `x + i y`, and `0` at the origin. -/
def atan2 (y x : ℝ) : ℝ := Complex.arg ⟨x, y⟩

/-- Python float `x % m` for `m > 0`: the representative of `x` in `[0, m)`. -/
def pyMod (x m : ℝ) : ℝ := x - m * ⌊x / m⌋

/-- `math.sqrt`: raises `ValueError` ("math domain error") for negative arguments. -/
def pySqrt (x : ℝ) : Res ℝ :=
  if x < 0 then .error (.valueError "math domain error") else .ok (Real.sqrt x)

/-- `math.acos`: raises `ValueError` ("math domain error") outside `[-1, 1]`. -/
def pyAcos (x : ℝ) : Res ℝ :=
  if x < -1 ∨ 1 < x then .error (.valueError "math domain error") else .ok (Real.arccos x)

/-- Python float division: raises `ZeroDivisionError`. -/
def pyDiv (x y : ℝ) : Res ℝ := if y = 0 then .error .zeroDivision else .ok (x / y)

/-- numpy scalar division: a zero denominator gives `inf` or `nan` and a warning. -/
def npDiv (x y : ℝ) : Res ℝ := if y = 0 then .error .nonFinite else .ok (x / y)

/-- `math.isclose(x, y)` with the default `rel_tol = 1e-9`, `abs_tol = 0.0`. -/
def isclose (x y : ℝ) : Prop := |x - y| ≤ 1 / 10 ^ 9 * max |x| |y|

/-- One coordinate of `np.isclose(a, b)` with the default `rtol = 1e-5`, `atol = 1e-8`.  Asymmetric in `a`, `b`. -/
def npClose (a b : ℝ) : Prop := |a - b| ≤ 1 / 10 ^ 8 + 1 / 10 ^ 5 * |b|

/-- `np.allclose(P, Q)` on two points. -/
def allclose (P Q : Pt) : Prop := npClose P.x Q.x ∧ npClose P.y Q.y

/-! ## internal.py -/

/-- internal.py 6-7 `approx_equal_`. -/
def approx_equal_ (x y : ℝ) : Prop := isclose x y ∨ isclose (x + 1) (y + 1)

/-- internal.py 74-76: `sepsilon_ = sqrt(np.finfo(float).eps) = sqrt(2^-52) = 2^-26`. -/
def sepsilon_ : ℝ := 1 / 2 ^ 26

/-- internal.py 84-87 `dot_` with two arguments. -/
def dot_ (u v : Pt) : ℝ := u.x * v.x + u.y * v.y

/-- internal.py 84-87 `dot_` with one argument. -/
def dot1_ (u : Pt) : ℝ := dot_ u u

/-- internal.py 81-82 `vlength_` (`np.linalg.norm` of a vector). -/
def vlength_ (v : Pt) : ℝ := Real.sqrt (v.x * v.x + v.y * v.y)

/-- internal.py 78-79 `distance_`. -/
def distance_ (A B : Pt) : ℝ := vlength_ (B - A)

/-- internal.py 89-90 `det2x2_`; rows given by their two entries. -/
def det2x2_ (a0 a1 b0 b1 : ℝ) : ℝ := a0 * b1 - b0 * a1

/-- internal.py 95-108 `line_line_intersection_`; `none` is Python's `None`. -/
def line_line_intersection_ (P1 P2 Q1 Q2 : Pt) : Option Pt :=
  let dx1 := P1.x - P2.x
  let dx2 := Q1.x - Q2.x
  let dy1 := P1.y - P2.y
  let dy2 := Q1.y - Q2.y
  let D := det2x2_ dx1 dy1 dx2 dy2
  if D = 0 then none
  else
    let D1 := det2x2_ P1.x P1.y P2.x P2.y
    let D2 := det2x2_ Q1.x Q1.y Q2.x Q2.y
    some ((⟨det2x2_ D1 dx1 D2 dx2, det2x2_ D1 dy1 D2 dy2⟩ : Pt) / D)

/-- Result type of the intersection functions: `None`, one point, or a list of two points. -/
inductive PtRes where
  | none
  | one (P : Pt)
  | two (P Q : Pt)

/-- internal.py 110-133 `circle_line_intersection_`.  The numpy divisions by `dr2` are by a nonzero number for
every `Line` object (its defining points are distinct). -/
def circle_line_intersection_ (A1 A2 : Pt) (r : ℝ) : PtRes :=
  let dx := A2.x - A1.x
  let dy := A2.y - A1.y
  let dr2 := dx * dx + dy * dy
  let D := det2x2_ A1.x A1.y A2.x A2.y
  let Delta := r * r * dr2 - D * D
  if Delta < 0 then .none
  else if Delta < sepsilon_ then .one ((D / dr2) • (⟨dy, -dx⟩ : Pt))
  else
    let sgn : ℝ := if dy < 0 then -1 else 1
    let Ddy := D * dy
    let sqrtDelta := Real.sqrt Delta
    let I1 : Pt := ⟨Ddy + sgn * dx * sqrtDelta, -D * dx + |dy| * sqrtDelta⟩
    let I2 : Pt := ⟨Ddy - sgn * dx * sqrtDelta, -D * dx - |dy| * sqrtDelta⟩
    .two (I1 / dr2) (I2 / dr2)

/-- internal.py 136-137 `unit_vector_`. -/
def unit_vector_ (beta : ℝ) : Pt := ⟨Real.cos beta, Real.sin beta⟩

/-- internal.py 139-149 `ellipse_points_` for one value of `t` (the code is vectorised over `t`). -/
def ellipse_point_ (t : ℝ) (O : Pt) (a b alpha : ℝ) : Pt :=
  let x := a * Real.cos t
  let y := b * Real.sin t
  let cosalpha := Real.cos alpha
  let sinalpha := Real.sin alpha
  ⟨O.x + cosalpha * x - sinalpha * y, O.y + sinalpha * x + cosalpha * y⟩

/-- internal.py 151-157 `circle_points_` for one value of `t`. -/
def circle_point_ (t : ℝ) (O : Pt) (r : ℝ) : Pt := ⟨O.x + r * Real.cos t, O.y + r * Real.sin t⟩

/-- internal.py 159-171 `collinear_`.  The final division is by a positive number when the three points are
pairwise not `allclose`. -/
def collinear_ (A B C : Pt) (tol : ℝ := 0) : Prop :=
  if allclose A B ∨ allclose A C ∨ allclose B C then True
  else
    let AB := B - A
    let AC := C - A
    let re := AB.x * AC.x + AB.y * AC.y
    let im := AB.x * AC.y - AB.y * AC.x
    let re2 := re * re
    re2 / (re2 + im * im) ≥ 1 - tol

/-- A point of the plane as a complex number: `complex(*P)`. -/
def toC (P : Pt) : ℂ := ⟨P.x, P.y⟩

/-- internal.py 173-174 `from_complex_`. -/
def from_complex_ (z : ℂ) : Pt := ⟨z.re, z.im⟩

/-- internal.py 176-179 `mod2_`. -/
def mod2_ (z : ℂ) : ℝ := z.re * z.re + z.im * z.im

/-- A point or Python's float `inf` used as the point at infinity (`is_inf_`, internal.py 9-10). -/
inductive XPt where
  | fin (P : Pt)
  | inf

end
