import Verif.Model.Ellipse
import Mathlib.LinearAlgebra.Matrix.NonsingularInverse
import Mathlib.Analysis.SpecialFunctions.Pow.Real
import Mathlib.Data.Fin.VecNotation

/-!
# Model of the whole of `Ellipse.from_boundary4`, geometry.py 1323-1406

With the numpy of `poetry.lock` the method stops at line 1361, where it evaluates `np.float` (`Ellipse.from_boundary4` in
`Model/Ellipse`).  This file models the method with `np.float` being `float`, as it is for numpy before 1.24 and as it
would be after the obvious repair.  Every other line is the one of the code.
-/

open Classical
noncomputable section

namespace Boundary4

/-- What the method uses from numpy: `np.argsort`, `np.roots` (of a polynomial of degree 3, leading coefficient first),
`np.linalg.eigh`. -/
structure Env where
  argsort : (Fin 4 → ℝ) → Equiv.Perm (Fin 4)
  roots : ℝ → ℝ → ℝ → ℝ → List ℂ
  eigh : Matrix (Fin 2) (Fin 2) ℝ → Ellipse.Eigh

/-- Contracts: `np.argsort(v)` puts the entries in ascending order (nothing is assumed about ties); `np.roots` returns
the complex roots of the polynomial with their multiplicities, in any order; `np.linalg.eigh` as in `Model/Ellipse`. -/
structure Env.Ok (env : Env) : Prop where
  argsort : ∀ (v : Fin 4 → ℝ) (i j : Fin 4), i ≤ j → v (env.argsort v i) ≤ v (env.argsort v j)
  roots : ∀ c0 c1 c2 c3 : ℝ, c0 ≠ 0 → ∀ z : ℂ,
    (c0 : ℂ) * z ^ 3 + c1 * z ^ 2 + c2 * z + c3 = c0 * ((env.roots c0 c1 c2 c3).map fun r => z - r).prod
  eigh : ∀ S, Ellipse.IsEigh S (env.eigh S)

/-- `M.dot(points.T).T` for one row of `points`. -/
def mdot (M : Matrix (Fin 2) (Fin 2) ℝ) (P : Pt) : Pt := ⟨M 0 0 * P.x + M 0 1 * P.y, M 1 0 * P.x + M 1 1 * P.y⟩

/-- `np.linalg.solve` raises `LinAlgError` for a singular matrix. -/
def solve {n : ℕ} (A : Matrix (Fin n) (Fin n) ℝ) (b : Fin n → ℝ) : Res (Fin n → ℝ) :=
  if A.det = 0 then .error .linAlgError else .ok (A⁻¹.mulVec b)

/-- geometry.py 1338-1341: the points in descending order of their angles around their mean. -/
def sorted (env : Env) (points : Fin 4 → Pt) : Fin 4 → Pt :=
  let mean : Pt := (points 0 + points 1 + points 2 + points 3) / (4 : ℝ)
  let angles : Fin 4 → ℝ := fun i => atan2 (points i - mean).y (points i - mean).x
  fun i => points (env.argsort (fun k => -angles k) i)

/-- geometry.py 1343-1347: `diag_intersect`. -/
def diagIntersect (P : Fin 4 → Pt) : Res Pt := do
  let A := !![(P 2).x - (P 0).x, (P 1).x - (P 3).x; (P 2).y - (P 0).y, (P 1).y - (P 3).y]
  let s ← solve A ![(P 1).x - (P 0).x, (P 1).y - (P 0).y]
  return P 0 + s 0 • (P 2 - P 0)

/-- geometry.py 1352-1356: `rot_mat`. -/
def rotMat (P : Fin 4 → Pt) : Matrix (Fin 2) (Fin 2) ℝ :=
  let AC := P 2 - P 0
  let theta := atan2 AC.y AC.x
  !![Real.cos theta, Real.sin theta; -Real.sin theta, Real.cos theta]

/-- geometry.py 1359-1361: `shear_mat`; the division is numpy's. -/
def shearMat (P : Fin 4 → Pt) : Res (Matrix (Fin 2) (Fin 2) ℝ) := do
  let m ← npDiv ((P 1).x - (P 3).x) ((P 3).y - (P 1).y)
  return !![1, m; 0, 1]

/-- geometry.py 1364-1367: `stretch_mat`; for `d = 0` the power `d ** -.25` is not finite. -/
def stretchMat (P : Fin 4 → Pt) : Res (Matrix (Fin 2) (Fin 2) ℝ) := do
  let b : Fin 4 → ℝ := fun i => vlength_ (P i)
  let d ← npDiv (b 1 * b 3) (b 2 * b 0)
  if d ≤ 0 then .error .nonFinite
  else return !![d ^ (1 / 4 : ℝ), 0; 0, d ^ (-(1 / 4) : ℝ)]

/-- numpy's comparison of complex numbers is lexicographic. -/
def ltC (z w : ℂ) : Prop := z.re < w.re ∨ (z.re = w.re ∧ z.im < w.im)

/-- geometry.py 1370-1381: the swing angle `theta`.  `rts[0]` raises `IndexError` if there is no root in the interval;
this exception is represented by `valueError "index"`. -/
def swing (env : Env) (P : Fin 4 → Pt) : Res ℝ :=
  let a : Fin 4 → ℝ := fun i => vlength_ (P i)
  let c0 := -4 * a 1 ^ 2 * a 2 * a 0
  let c1 := -4 * a 1 * (a 2 - a 0) * (a 1 ^ 2 - a 2 * a 0)
  let c2 := 3 * a 1 ^ 2 * (a 1 ^ 2 + a 2 ^ 2) - 8 * a 1 ^ 2 * a 2 * a 0 + 3 * (a 1 ^ 2 + a 2 ^ 2) * a 0 ^ 2
  let c3 := c1 / 2
  let rts := env.roots c0 c1 c2 c3
  match rts.filter fun z => decide (ltC (-1) z ∧ ltC z 1) with
  | [] => .error (.valueError "index")
  | z :: _ => .ok (Real.arcsin z.re)

/-- geometry.py 1383-1386: `D_mat`; `** -.5` and `** .5` of a positive cosine. -/
def dMat (theta : ℝ) : Matrix (Fin 2) (Fin 2) ℝ :=
  !![Real.cos theta ^ (-(1 / 2) : ℝ), Real.sin theta * Real.cos theta ^ (-(1 / 2) : ℝ); 0, Real.cos theta ^ (1 / 2 : ℝ)]

/-- geometry.py 1389-1397: `circle_c` and `circle_r`. -/
def circle (P : Fin 4 → Pt) : Res (Pt × ℝ) := do
  let A := !![-2 * (P 0).x, -2 * (P 0).y, 1; -2 * (P 1).x, -2 * (P 1).y, 1; -2 * (P 2).x, -2 * (P 2).y, 1]
  let b := ![-((P 0).x ^ 2 + (P 0).y ^ 2), -((P 1).x ^ 2 + (P 1).y ^ 2), -((P 2).x ^ 2 + (P 2).y ^ 2)]
  let s ← solve A b
  let r ← pySqrt (s 0 ^ 2 + s 1 ^ 2 - s 2)
  return (⟨s 0, s 1⟩, r)

/-- geometry.py 1343-1404: from the sorted points to `ellipse_c` and `ellipse_F`; the division by `circle_r ** 2` is
numpy's. -/
def centerForm (env : Env) (P : Fin 4 → Pt) : Res (Pt × Matrix (Fin 2) (Fin 2) ℝ) := do
  let X ← diagIntersect P
  let P1 : Fin 4 → Pt := fun i => P i - X
  let rot := rotMat P1
  let P2 : Fin 4 → Pt := fun i => mdot rot (P1 i)
  let shear ← shearMat P2
  let P3 : Fin 4 → Pt := fun i => mdot shear (P2 i)
  let stretch ← stretchMat P3
  let P4 : Fin 4 → Pt := fun i => mdot stretch (P3 i)
  let theta ← swing env P4
  let D := dMat theta
  let P5 : Fin 4 → Pt := fun i => mdot D (P4 i)
  let (c, r) ← circle P5
  let T := D * stretch * shear * rot
  let w ← solve T ![c.x, c.y]
  if r ^ 2 = 0 then .error .nonFinite
  else return (⟨w 0, w 1⟩ + X, (1 / r ^ 2) • (T.transpose * T))

/-- geometry.py 1323-1406 `Ellipse.from_boundary4` with `np.float` being `float`. -/
def from_boundary4 (env : Env) (points : Fin 4 → Pt) : Res Ellipse := do
  let (c, F) ← centerForm env (sorted env points)
  Ellipse.from_center_and_eigen c (env.eigh F)

end Boundary4

end
