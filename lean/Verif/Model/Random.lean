import Verif.Model.Ellipse
import Verif.Model.Triangle

/-!
# Model of the random samplers, internal.py 181-230, geometry.py 418-435, 1018-1037, 2102-2119

The random generator is a parameter: the theorems quantify over everything it may return.  A matrix of points with n rows
is the list of its rows.
-/

open Classical
noncomputable section

/-- What one call of the numpy generator may return, for the calls made by the samplers: `np.random.normal(size=(2, n))`
(the list of the columns), `np.random.rand(n)` (two calls in `runif_in_triangle_`), `np.random.uniform(lo, hi, size=n)`. -/
structure Gen where
  normal : (n : ℕ) → Fin n → Pt
  rand : (n : ℕ) → Fin n → ℝ
  rand' : (n : ℕ) → Fin n → ℝ
  uniform : (lo hi : ℝ) → (n : ℕ) → Fin n → ℝ

/-- The contract of numpy: `rand` is in [0, 1) and `uniform` in the closed interval (the rounding may give the upper
bound).  `normal` is arbitrary. -/
def Gen.Valid (g : Gen) : Prop :=
  (∀ n j, 0 ≤ g.rand n j ∧ g.rand n j < 1) ∧ (∀ n j, 0 ≤ g.rand' n j ∧ g.rand' n j < 1) ∧
    ∀ lo hi n j, lo ≤ hi → lo ≤ g.uniform lo hi n j ∧ g.uniform lo hi n j ≤ hi

/-- internal.py 181-184 `runif_on_circle_`; `r` is a number or an array of n numbers.  A zero column gives NaN. -/
def runif_on_circle_ (g : Gen) (n : ℕ) (r : Fin n → ℝ) : Res (Fin n → Pt) :=
  let sims := g.normal n
  let norms := fun j => vlength_ (sims j)
  if ∃ j, norms j = 0 then .error .nonFinite
  else .ok fun j => (r j • sims j) / norms j

/-- internal.py 186-187 `runif_in_circle_`. -/
def runif_in_circle_ (g : Gen) (n : ℕ) (r : ℝ) : Res (Fin n → Pt) := do
  let out ← runif_on_circle_ g n (fun j => Real.sqrt (g.rand n j))
  return fun j => r • out j

/-- `np.linalg.cholesky(A)` of a 2x2 matrix: the lower triangular factor, computed from the lower triangle of `A`;
`LinAlgError` if the matrix is not positive definite. -/
def cholesky2 (A : Matrix (Fin 2) (Fin 2) ℝ) : Res (Matrix (Fin 2) (Fin 2) ℝ) :=
  if A 0 0 ≤ 0 then .error .linAlgError
  else
    let l00 := Real.sqrt (A 0 0)
    let l10 := A 1 0 / l00
    let d := A 1 1 - l10 * l10
    if d ≤ 0 then .error .linAlgError
    else .ok !![l00, 0; l10, Real.sqrt d]

/-- `np.linalg.solve(U, X)` on the columns of a 2 x n matrix. -/
def solveCols (U : Matrix (Fin 2) (Fin 2) ℝ) (n : ℕ) (X : Fin n → Pt) : Res (Fin n → Pt) :=
  if Matrix.det U = 0 then .error .linAlgError
  else .ok fun j =>
    let v := U⁻¹.mulVec ![(X j).x, (X j).y]
    ⟨v 0, v 1⟩

/-- internal.py 189-192 `runif_on_ellipse_`. -/
def runif_on_ellipse_ (g : Gen) (n : ℕ) (A : Matrix (Fin 2) (Fin 2) ℝ) : Res (Fin n → Pt) := do
  let L ← cholesky2 A
  let U := L.transpose
  let X ← runif_on_circle_ g n (fun _ => 1)
  solveCols U n X

/-- internal.py 194-197 `runif_in_ellipse_`. -/
def runif_in_ellipse_ (g : Gen) (n : ℕ) (A : Matrix (Fin 2) (Fin 2) ℝ) : Res (Fin n → Pt) := do
  let L ← cholesky2 A
  let U := L.transpose
  let X ← runif_in_circle_ g n 1
  solveCols U n X

/-- internal.py 199-218: the body of the loop of `runif_on_triangle_` for the drawn number `u`.  The divisions are numpy
divisions. -/
def onTriangleRow (A B C : Pt) (u : ℝ) : Res Pt :=
  let l1 := distance_ A B
  let l2 := distance_ B C
  let l3 := distance_ C A
  if u ≤ l1 then do
    let s ← npDiv (l1 - u) l1
    let t ← npDiv u l1
    return s • A + t • B
  else if u ≤ l1 + l2 then do
    let s ← npDiv (l2 - u + l1) l2
    let t ← npDiv (u - l1) l2
    return s • B + t • C
  else do
    let s ← npDiv (l3 - u + l1 + l2) l3
    let t ← npDiv (u - l1 - l2) l3
    return s • C + t • A

/-- internal.py 199-219 `runif_on_triangle_`: the list of the rows. -/
def runif_on_triangle_ (g : Gen) (n : ℕ) (A B C : Pt) : Res (List Pt) :=
  let l1 := distance_ A B
  let l2 := distance_ B C
  let l3 := distance_ C A
  let r := g.uniform 0 (l1 + l2 + l3) n
  (List.ofFn r).mapM (onTriangleRow A B C)

/-- internal.py 221-232 `runif_in_triangle_`. -/
def runif_in_triangle_ (g : Gen) (n : ℕ) (A B C : Pt) : Fin n → Pt :=
  let r1 := g.rand n
  let r2 := fun j => Real.sqrt (g.rand' n j)
  let a := fun j => 1 - r2 j
  let b := fun j => r2 j * (1 - r1 j)
  let c := fun j => r1 j * r2 j
  fun j => ⟨A.x * a j + B.x * b j + C.x * c j, A.y * a j + B.y * b j + C.y * c j⟩

/-- `runif_..._(n, ...) + center`, as the list of rows. -/
def rowsPlus {n : ℕ} (out : Fin n → Pt) (center : Pt) : List Pt := List.ofFn fun j => out j + center

/-- geometry.py 418-435 `Circle.random_points`, `n_points` an integer. -/
def Circle.random_points (c : Circle) (g : Gen) (n_points : ℤ) (where_ : String := "in") : Res (List Pt) :=
  if n_points ≤ 0 then .error (.valueError "`n_points` is not positive.")
  else if where_ = "in" then do return rowsPlus (← runif_in_circle_ g n_points.toNat c.radius) c.center
  else if where_ = "on" then do return rowsPlus (← runif_on_circle_ g n_points.toNat (fun _ => c.radius)) c.center
  else .error (.valueError "The `where` argument must be `'in'` or `'on'`.")

/-- geometry.py 1018-1035 `Ellipse.random_points`, `n_points` an integer. -/
def Ellipse.random_points (e : Ellipse) (g : Gen) (n_points : ℤ) (where_ : String := "in") : Res (List Pt) :=
  if n_points ≤ 0 then .error (.valueError "`n_points` is not positive.")
  else do
    let A ← e.shape_matrix
    if where_ = "in" then return rowsPlus (← runif_in_ellipse_ g n_points.toNat A) e.center
    else if where_ = "on" then return rowsPlus (← runif_on_ellipse_ g n_points.toNat A) e.center
    else .error (.valueError "The `where` argument must be `'in'` or `'on'`.")

/-- geometry.py 2102-2117 `Triangle.random_points`, `n_points` an integer. -/
def Triangle.random_points (t : Triangle) (g : Gen) (n_points : ℤ) (where_ : String := "in") : Res (List Pt) :=
  if n_points ≤ 0 then .error (.valueError "`n_points` is not positive.")
  else if where_ = "in" then .ok (List.ofFn (runif_in_triangle_ g n_points.toNat t.A t.B t.C))
  else if where_ = "on" then runif_on_triangle_ g n_points.toNat t.A t.B t.C
  else .error (.valueError "The `where` argument must be `'in'` or `'on'`.")

end
