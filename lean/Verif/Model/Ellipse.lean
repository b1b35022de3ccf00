import Verif.Model.Arc
import Verif.Model.Circle
import Mathlib.LinearAlgebra.Matrix.NonsingularInverse
import Mathlib.Analysis.SpecialFunctions.Trigonometric.Arctan

/-!
# Model of class `Ellipse`, geometry.py 939-1481 (random points are in `Model/Random.lean`)

`np.linalg.eigvals` and `np.linalg.eigh` are modelled by contract: the result is an argument of the model function and
the theorems quantify over every result that meets the contract (`IsEigvals`, `IsEigh`).
-/

open Classical
noncomputable section

/-- The dictionary returned by `Ellipse.equation`: `Ax² + Bxy + Cy² + Dx + Ey + F = 0`. -/
@[ext] structure Coeffs where
  A : ℝ
  B : ℝ
  C : ℝ
  D : ℝ
  E : ℝ
  F : ℝ

/-- `A*x*x + B*x*y + C*y*y + D*x + E*y + F`, geometry.py 1134 and 1147. -/
def Coeffs.eval (q : Coeffs) (P : Pt) : ℝ :=
  q.A * P.x * P.x + q.B * P.x * P.y + q.C * P.y * P.y + q.D * P.x + q.E * P.y + q.F

/-- An argument that may be an `Ellipse` or a `Circle` object. -/
inductive EllArg where
  | ell (e : Ellipse)
  | circ (c : Circle)

namespace Ellipse

/-- geometry.py 973-994 `Ellipse.is_equal` with an `Ellipse` argument. -/
def is_equal (e ell2 : Ellipse) : Prop :=
  let alpha1 := if e.degrees = true then e.alpha else e.alpha * (180 / Real.pi)
  let alpha2 := if ell2.degrees = true then ell2.alpha else ell2.alpha * (180 / Real.pi)
  npClose e.center.x ell2.center.x ∧ npClose e.center.y ell2.center.y ∧ npClose e.rmajor ell2.rmajor ∧
    npClose e.rminor ell2.rminor ∧ npClose (pyMod alpha1 180) (pyMod alpha2 180)

/-- geometry.py 996-1016 `Ellipse.path`: the list of rows. -/
def path (e : Ellipse) (n_points : ℤ) : Res (List Pt) :=
  if n_points ≤ 0 then .error (.valueError "`n_points` is not positive.")
  else
    let alpha := if e.degrees = true then e.alpha * Real.pi / 180 else e.alpha
    .ok ((List.range n_points.toNat).map fun (i : ℕ) =>
      ellipse_point_ (linspace 0 (2 * Real.pi) (n_points.toNat + 1) i) e.center e.rmajor e.rminor alpha)

/-- `np.arctan2(y, 1/np.tan(x))` for `y > 0`.  `1/np.tan(x)` is `cos x / sin x`; for `sin x = 0` numpy's `1/0.` is
`inf`, and `arctan2(y, inf) = 0`.  (Where the exact tangent is infinite, the float tangent is huge and its inverse is
the float nearest to the exact cotangent `0`.) -/
def np_arctan2_cot (y x : ℝ) : ℝ := if Real.sin x = 0 then 0 else atan2 y (Real.cos x / Real.sin x)

/-- geometry.py 1037-1069 `Ellipse.point_from_angle` for one angle (the code is vectorised over `theta`). -/
def point_from_angle (e : Ellipse) (theta : ℝ) (degrees : Bool := true) : Pt :=
  let alpha := if e.degrees = true then e.alpha * (Real.pi / 180) else e.alpha
  let theta := if degrees = true then theta * (Real.pi / 180) else theta
  let theta_mod_2pi := pyMod theta (2 * Real.pi)
  let sgn : ℝ := if theta_mod_2pi ≤ sepsilon_ then 2 * 1 - 1 else 2 * 0 - 1
  let theta_eps := theta + sepsilon_ * sgn
  let t := np_arctan2_cot (e.rmajor / e.rminor) theta_mod_2pi + theta_eps - pyMod theta_eps Real.pi
  ellipse_point_ t e.center e.rmajor e.rminor alpha

/-- geometry.py 1071-1093 `Ellipse.normal`. -/
def normal (e : Ellipse) (t : ℝ) : Res Pt :=
  let a := e.rmajor
  let b := e.rminor
  let alpha := if e.degrees = true then e.alpha * (Real.pi / 180) else e.alpha
  let cosalpha := Real.cos alpha
  let sinalpha := Real.sin alpha
  let x := -a * Real.sin t
  let y := b * Real.cos t
  let v : Pt := ⟨sinalpha * x + cosalpha * y, -cosalpha * x + sinalpha * y⟩
  if vlength_ v = 0 then .error .nonFinite else .ok (v / vlength_ v)

/-- geometry.py 1095-1122 `Ellipse.equation`. -/
def equation (e : Ellipse) : Coeffs :=
  let a2 := e.rmajor ^ 2
  let b2 := e.rminor ^ 2
  let alpha := if e.degrees = true then e.alpha * (Real.pi / 180) else e.alpha
  let x := e.center.x
  let y := e.center.y
  let sine := Real.sin alpha
  let cosine := Real.cos alpha
  let sine2 := sine * sine
  let cosine2 := 1 - sine2
  let A := a2 * sine2 + b2 * cosine2
  let B := 2 * (b2 - a2) * sine * cosine
  let C := a2 * cosine2 + b2 * sine2
  ⟨A, B, C, -2 * A * x - B * y, -B * x - 2 * C * y, A * x * x + B * x * y + C * y * y - a2 * b2⟩

/-- geometry.py 1124-1135 `Ellipse.includes`. -/
def includes (e : Ellipse) (P : Pt) : Prop := isclose 1 (e.equation.eval P + 1)

/-- geometry.py 1137-1147 `Ellipse.contains`. -/
def contains (e : Ellipse) (P : Pt) : Prop := e.equation.eval P ≤ 0

/-- geometry.py 1149-1161 `Ellipse.shape_matrix`. -/
def shape_matrix (e : Ellipse) : Res (Matrix (Fin 2) (Fin 2) ℝ) :=
  let q := e.equation
  let X := !![q.A, q.B / 2, q.D / 2; q.B / 2, q.C, q.E / 2; q.D / 2, q.E / 2, q.F]
  let den := q.A * q.C - q.B * q.B / 4
  if den = 0 then .error .nonFinite
  else
    let K := -Matrix.det X / den
    if K = 0 then .error .nonFinite
    else .ok !![X 0 0 / K, X 0 1 / K; X 1 0 / K, X 1 1 / K]

/-- geometry.py 1163-1178 `Ellipse.theta2t`.  Here `tan` is `math.tan` and the division is Python's: for `tan = 0` it
raises `ZeroDivisionError`. -/
def theta2t (e : Ellipse) (theta : ℝ) (degrees : Bool := true) : Res ℝ :=
  let theta := if degrees = true then theta * (Real.pi / 180) else theta
  let theta_mod_2pi := pyMod theta (2 * Real.pi)
  let sgn : ℝ := if theta_mod_2pi < sepsilon_ then 1 else -1
  let theta_eps := theta + sgn * sepsilon_
  if Real.sin theta_mod_2pi = 0 then .error .zeroDivision
  else .ok (atan2 (e.rmajor / e.rminor) (Real.cos theta_mod_2pi / Real.sin theta_mod_2pi) + theta_eps -
    pyMod theta_eps Real.pi)

/-- geometry.py 1180-1203 `Ellipse.diameter` with `conjugate=False`. -/
def diameter (e : Ellipse) (t : ℝ) : Res Line :=
  let alpha := if e.degrees = true then e.alpha * (Real.pi / 180) else e.alpha
  mkLine (ellipse_point_ t e.center e.rmajor e.rminor alpha)
    (ellipse_point_ (t + Real.pi) e.center e.rmajor e.rminor alpha) false false

/-- geometry.py 1180-1203 `Ellipse.diameter` with `conjugate=True`. -/
def diameters (e : Ellipse) (t : ℝ) : Res (Line × Line) := do
  let alpha := if e.degrees = true then e.alpha * (Real.pi / 180) else e.alpha
  let l ← mkLine (ellipse_point_ t e.center e.rmajor e.rminor alpha)
    (ellipse_point_ (t + Real.pi) e.center e.rmajor e.rminor alpha) false false
  let l' ← mkLine (ellipse_point_ (t + Real.pi / 2) e.center e.rmajor e.rminor alpha)
    (ellipse_point_ (t - Real.pi / 2) e.center e.rmajor e.rminor alpha) false false
  return (l, l')

/-- Contract of `np.linalg.eigvals` on a 2x2 matrix with real eigenvalues: the roots of the characteristic
polynomial, in any order. -/
def IsEigvals (M : Matrix (Fin 2) (Fin 2) ℝ) (ev : ℝ × ℝ) : Prop :=
  ev.1 + ev.2 = M 0 0 + M 1 1 ∧ ev.1 * ev.2 = M 0 0 * M 1 1 - M 0 1 * M 1 0

/-- geometry.py 1214-1241 `Ellipse.from_equation`; `eigvals` is the result of `np.linalg.eigvals(M)`. -/
def from_equation (A B C D E F : ℝ) (eigvals : ℝ × ℝ) : Res Ellipse :=
  if A * C ≤ 0 ∨ B * B - 4 * A * C ≥ 0 ∨ D * D + E * E ≤ 4 * (A + C) * F then
    .error (.valueError "These parameters do not define an ellipse.")
  else
    let Q := !![2 * A, B, D; B, 2 * C, E; D, E, 2 * F]
    if Matrix.det Q = 0 then .error (.valueError "These parameters do not define an ellipse.")
    else
      let M0 := !![F, D / 2, E / 2; D / 2, A, B / 2; E / 2, B / 2, C]
      let M := !![A, B / 2; B / 2, C]
      let detM0 := Matrix.det M0
      let detM := Matrix.det M
      do
        let qa ← npDiv (-detM0) (detM * eigvals.1)
        let a ← pySqrt qa
        let qb ← npDiv (-detM0) (detM * eigvals.2)
        let b ← pySqrt qb
        let xy : Pt := ⟨B * E - 2 * C * D, B * D - 2 * A * E⟩
        let phi : ℝ := if A = C then 0 else
          if |C| > |A| then Real.arctan (B / (A - C)) / 2 else Real.pi / 2 - Real.arctan (-B / (A - C)) / 2
        mkEllipse (xy / (4 * A * C - B * B)) (max a b) (min a b) (pyMod (phi * 180 / Real.pi) 180)

/-- The matrix `M` given to `np.linalg.eigvals` in `from_equation`, geometry.py 1233-1234. -/
def eqMatrix (A B C : ℝ) : Matrix (Fin 2) (Fin 2) ℝ := !![A, B / 2; B / 2, C]

/-- geometry.py 1243-1288 `Ellipse.equation_from_five_points`: row `i` of the matrix `M`. -/
def fiveRow (P : Pt) : Fin 6 → ℝ := ![P.x * P.x, P.x * P.y, P.y * P.y, P.x, P.y, 1]

/-- `np.linalg.det(M[:, cols])` for the 5x6 matrix `M` of `equation_from_five_points`. -/
def fiveDet (P : Fin 5 → Pt) (cols : Fin 5 → Fin 6) : ℝ :=
  Matrix.det (Matrix.of fun i j => fiveRow (P i) (cols j))

/-- geometry.py 1243-1288 `Ellipse.equation_from_five_points`.  `np.unique(P, axis=0).shape != P.shape` means that two
rows are equal. -/
def equation_from_five_points (P : Fin 5 → Pt) : Res Coeffs :=
  if ¬ Function.Injective P then .error (.valueError "The five points are not distinct.")
  else
    let A := fiveDet P ![1, 2, 3, 4, 5]
    let B := -fiveDet P ![0, 2, 3, 4, 5]
    let C := fiveDet P ![0, 1, 3, 4, 5]
    if B * B - 4 * A * C ≥ 0 then .error (.valueError "The five points do not lie on an ellipse.")
    else
      let D := -fiveDet P ![0, 1, 2, 4, 5]
      let E := fiveDet P ![0, 1, 2, 3, 5]
      let F := -fiveDet P ![0, 1, 2, 3, 4]
      .ok ⟨A, B, C, D, E, F⟩

/-- geometry.py 1290-1304 `Ellipse.from_five_points`. -/
def from_five_points (P : Fin 5 → Pt) (eigvals : ℝ × ℝ) : Res Ellipse := do
  let q ← equation_from_five_points P
  from_equation q.A q.B q.C q.D q.E q.F eigvals

/-- Result of `np.linalg.eigh` on a 2x2 matrix: eigenvalues, and the columns of the matrix of eigenvectors. -/
structure Eigh where
  val0 : ℝ
  val1 : ℝ
  vec0 : Pt
  vec1 : Pt

/-- Contract of `np.linalg.eigh` on a 2x2 matrix `S`: only the lower triangle of `S` is used; the eigenvalues are in
ascending order, the eigenvectors are orthonormal. -/
structure IsEigh (S : Matrix (Fin 2) (Fin 2) ℝ) (e : Eigh) : Prop where
  order : e.val0 ≤ e.val1
  eig0x : S 0 0 * e.vec0.x + S 1 0 * e.vec0.y = e.val0 * e.vec0.x
  eig0y : S 1 0 * e.vec0.x + S 1 1 * e.vec0.y = e.val0 * e.vec0.y
  eig1x : S 0 0 * e.vec1.x + S 1 0 * e.vec1.y = e.val1 * e.vec1.x
  eig1y : S 1 0 * e.vec1.x + S 1 1 * e.vec1.y = e.val1 * e.vec1.y
  unit0 : e.vec0.x ^ 2 + e.vec0.y ^ 2 = 1
  unit1 : e.vec1.x ^ 2 + e.vec1.y ^ 2 = 1
  orth : e.vec0.x * e.vec1.x + e.vec0.y * e.vec1.y = 0

/-- internal.py 234-247 `ellipse_from_center_and_eigen_` and geometry.py 1306-1321 `Ellipse.from_center_and_matrix`;
`e` is the result of `np.linalg.eigh(S)`. -/
def from_center_and_eigen (center : Pt) (e : Eigh) : Res Ellipse :=
  if e.val0 ≤ 0 ∨ e.val1 ≤ 0 then .error (.valueError "The matrix is not positive.")
  else
    let v := e.vec0
    let alpha := pyMod (atan2 v.y v.x * 180 / Real.pi) 180
    let a := 1 / Real.sqrt e.val0
    let b := 1 / Real.sqrt e.val1
    mkEllipse center a b alpha

/-- geometry.py 1408-1427 `Ellipse.from_boundary3`: center and matrix given to `from_center_and_matrix`; a singular
matrix raises `LinAlgError` in `np.linalg.inv`. -/
def boundary3 (P Q R : Pt) : Res (Pt × Matrix (Fin 2) (Fin 2) ℝ) :=
  let c : Pt := (P + Q + R) / (3 : ℝ)
  let p := P - c
  let q := Q - c
  let r := R - c
  let Sc : Matrix (Fin 3) (Fin 2) ℝ := !![p.x, p.y; q.x, q.y; r.x, r.y]
  let G := Sc.transpose * Sc
  if Matrix.det G = 0 then .error .linAlgError
  else .ok (c, (1.5 : ℝ) • G⁻¹)

/-- geometry.py 1408-1427 `Ellipse.from_boundary3`; `eigh` is the function `np.linalg.eigh`. -/
def from_boundary3 (eigh : Matrix (Fin 2) (Fin 2) ℝ → Eigh) (P Q R : Pt) : Res Ellipse := do
  let (c, F) ← boundary3 P Q R
  from_center_and_eigen c (eigh F)

/-- geometry.py 1323-1406 `Ellipse.from_boundary4`; `argsort` is the permutation given by `np.argsort(-angles)`.
`np.linalg.solve` at 1346 raises `LinAlgError` for a singular matrix; lines 1347-1360 raise nothing (the division at 1360
is numpy's); line 1361 evaluates `np.float`, which does not exist in the numpy versions allowed by `pyproject.toml`
(removed in numpy 1.24), so that an `AttributeError` is raised and lines 1362-1406 are never reached. -/
def from_boundary4 (argsort : (Fin 4 → Pt) → Equiv.Perm (Fin 4)) (points : Fin 4 → Pt) : Res Ellipse :=
  let P : Fin 4 → Pt := fun i => points (argsort points i)
  let A := !![(P 2).x - (P 0).x, (P 1).x - (P 3).x; (P 2).y - (P 0).y, (P 1).y - (P 3).y]
  if Matrix.det A = 0 then .error .linAlgError else .error .attributeError

/-- What `LownerJohnEllipse` uses from numpy: `np.linalg.eigh`, `np.linalg.eigvals`, `np.argsort(-angles)`, and the
random index drawn at each node of the tree of recursive calls (`false`: first recursive call, `true`: second one). -/
structure LJEnv where
  eigh : Matrix (Fin 2) (Fin 2) ℝ → Eigh
  eigvals : Matrix (Fin 2) (Fin 2) ℝ → ℝ × ℝ
  argsort : (Fin 4 → Pt) → Equiv.Perm (Fin 4)
  randint : List Bool → ℕ

/-- geometry.py 1447-1460: the stopping case of `LownerJohnEllipse`; `none` is Python's `None`.  `from_five_points`
receives the rows as arguments: more than five of them is a `TypeError`. -/
def lownerJohnBase (env : LJEnv) (bpoints : List Pt) : Res (Option Ellipse) :=
  match bpoints with
  | [] => .ok none
  | [_] => .ok none
  | [_, _] => .ok none
  | [P, Q, R] => do
    let e ← from_boundary3 env.eigh P Q R
    return some e
  | [P, Q, R, S] => do
    let e ← from_boundary4 env.argsort ![P, Q, R, S]
    return some e
  | [P, Q, R, S, T] => do
    let q ← equation_from_five_points ![P, Q, R, S, T]
    let e ← from_equation q.A q.B q.C q.D q.E q.F (env.eigvals (eqMatrix q.A q.B q.C))
    return some e
  | _ => .error .typeError

/-- geometry.py 1429-1480 `Ellipse.LownerJohnEllipse`; `path` is the position in the tree of recursive calls.  The
recursion is on the number of interior points, so that termination is checked by Lean. -/
def lownerJohn (env : LJEnv) (path : List Bool) (ipoints bpoints : List Pt) : Res (Option Ellipse) :=
  if h : ipoints.length = 0 ∨ bpoints.length ≥ 5 then lownerJohnBase env bpoints
  else
    have hlt : env.randint path % ipoints.length < ipoints.length := Nat.mod_lt _ (by omega)
    let i := env.randint path % ipoints.length
    let p := ipoints[i]'hlt
    let ipoints_wo_p := ipoints.eraseIdx i
    do
      let ellipse ← lownerJohn env (path ++ [false]) ipoints_wo_p bpoints
      match ellipse with
      | some e =>
        if e.contains p then return some e
        else lownerJohn env (path ++ [true]) ipoints_wo_p (bpoints ++ [p])
      | none => lownerJohn env (path ++ [true]) ipoints_wo_p (bpoints ++ [p])
termination_by ipoints.length
decreasing_by all_goals (rw [List.length_eraseIdx_of_lt hlt]; omega)

end Ellipse

end
