import Verif.Model.Objects
import Verif.Model.Float64

/-!
# Some functions of the library in double precision

Coordinates and radii are doubles; every operation is rounded by `fl`.  Python's `complex` product and the scalar products of numpy
scalars are rounded operation by operation.  `np.vdot` and `np.linalg.norm` call the BLAS routine `ddot`, which may or may not fuse
a multiplication with the addition: all the possibilities are allowed.
-/

open Classical
noncomputable section

/-- How `ddot` evaluates a sum of two products: no fused operation, or one of the products fused with the addition. -/
inductive Fma where
  | none
  | first
  | second

/-- internal.py 84-87 `dot_` in double precision. -/
def vdotF (k : Fma) (u v : Pt) : ℝ :=
  match k with
  | .none => fl (fl (u.x * v.x) + fl (u.y * v.y))
  | .first => fl (u.x * v.x + fl (u.y * v.y))
  | .second => fl (fl (u.x * v.x) + u.y * v.y)

/-- Subtraction of two arrays of length two. -/
def subF (P Q : Pt) : Pt := ⟨fl (P.x - Q.x), fl (P.y - Q.y)⟩

/-- internal.py 78-79 `distance_` in double precision: the square root is correctly rounded. -/
def distanceF (k : Fma) (A B : Pt) : ℝ := fl (Real.sqrt (vdotF k (subF B A) (subF B A)))

/-- geometry.py 404-416 `Circle.contains` in double precision. -/
def Circle.containsF (k : Fma) (c : Circle) (P : Pt) : Prop :=
  vdotF k (subF P c.center) (subF P c.center) ≤ fl (c.radius * c.radius)

/-- geometry.py 529-539 `Circle.power` in double precision. -/
def Circle.powerF (k : Fma) (c : Circle) (M : Pt) : ℝ :=
  fl (vdotF k (subF M c.center) (subF M c.center) - fl (c.radius * c.radius))

/-- `math.isclose` in double precision, with `rel_tol = 1e-9` (as a double) and `abs_tol = 0`. -/
def iscloseF (a b : ℝ) : Prop :=
  a = b ∨ |fl (b - a)| ≤ |fl (fl (1 / 10 ^ 9) * b)| ∨ |fl (b - a)| ≤ |fl (fl (1 / 10 ^ 9) * a)|

/-- internal.py 6-7 `approx_equal_` in double precision. -/
def approx_equalF (x y : ℝ) : Prop := iscloseF x y ∨ iscloseF (fl (x + 1)) (fl (y + 1))

/-- geometry.py 390-402 `Circle.includes` in double precision. -/
def Circle.includesF (k : Fma) (c : Circle) (P : Pt) : Prop :=
  approx_equalF (vdotF k (subF P c.center) (subF P c.center)) (fl (c.radius * c.radius))

/-- geometry.py 438-450 `Circle.point_from_angle` in double precision, for an angle in radians whose cosine and sine are computed as
`cosa` and `sina`. -/
def Circle.point_from_angleF (c : Circle) (cosa sina : ℝ) : Pt :=
  ⟨fl (c.center.x + fl (c.radius * cosa)), fl (c.center.y + fl (c.radius * sina))⟩

/-- geometry.py 1805-1814 `Triangle.orientation` in double precision. -/
def Triangle.orientationF (T : Triangle) : ℤ :=
  let val := fl (fl (fl (T.B.y - T.A.y) * fl (T.C.x - T.B.x)) - fl (fl (T.B.x - T.A.x) * fl (T.C.y - T.B.y)))
  if val = 0 then 0 else if val > 0 then 1 else -1

/-- The real part of `z1.conjugate() * z2` in double precision. -/
def reF (AB AC : Pt) : ℝ := fl (fl (AB.x * AC.x) - fl (-AB.y * AC.y))

/-- The imaginary part of `z1.conjugate() * z2` in double precision. -/
def imF (AB AC : Pt) : ℝ := fl (fl (AB.x * AC.y) + fl (-AB.y * AC.x))

/-- The quotient `re2 / (re2 + im*im)` of `Triangle.flatness` (geometry.py 1769-1775) and `collinear_` (internal.py 159-166) in double
precision; `none` when the denominator is zero. -/
def flatF (A B C : Pt) : Option ℝ :=
  let AB := subF B A
  let AC := subF C A
  let re := reF AB AC
  let re2 := fl (re * re)
  let im := imF AB AC
  let d := fl (re2 + fl (im * im))
  if d = 0 then none else some (fl (re2 / d))

/-- `np.isclose` in double precision: the tolerances are the doubles nearest to 1e-8 and 1e-5. -/
def npClose64 (a b : ℝ) : Prop := |fl (a - b)| ≤ fl (fl (1 / 10 ^ 8) + fl (fl (1 / 10 ^ 5) * |b|))

/-- `np.allclose` of two points in double precision. -/
def allclose64 (P Q : Pt) : Prop := npClose64 P.x Q.x ∧ npClose64 P.y Q.y

/-- internal.py 159-171 `collinear_` with the default tolerance 0, in double precision; the division is between Python floats. -/
def collinear64 (A B C : Pt) : Res Prop :=
  if allclose64 A B ∨ allclose64 A C ∨ allclose64 B C then .ok True
  else match flatF A B C with
    | none => .error .zeroDivision
    | some f => .ok (f ≥ 1)

end
