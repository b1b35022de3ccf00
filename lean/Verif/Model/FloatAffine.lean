import Verif.Model.FloatCircumcircle
import Verif.Model.FloatTransforms

/-!
# `Affine.inverse` and the guard against singular maps in double precision

Same conventions as in `Verif.Model.FloatCircumcircle`: `np.linalg.det` of a 2 × 2 array is the factorisation `dgetrf` with partial pivoting followed by
`sign * exp(log|u11| + log|u22|)`, and `np.linalg.inv` solves a system for each column of the identity with `dgesv`.
-/

open Classical
noncomputable section

/-- `sign * exp(logdet)` for the diagonal of `U`; `sg` is the sign of the permutation. -/
def expDet22 (lg ex : ℝ → ℝ) (sg x y : ℝ) : ℝ :=
  (if y < 0 then -1 else 1) * ((if x < 0 then -1 else 1) * sg) * ex (fl (fl (0 + lg |x|) + lg |y|))

/-- The factorisation of a 2 × 2 array, when the first pivot is in the row `(p, q)`; the other row is `(r, s)`. -/
def luDet22 (k : Lu) (lg ex : ℝ → ℝ) (sg p q r s : ℝ) : ℝ :=
  if p = 0 then 0
  else
    let u := msubF k s (quoF k r p) q
    if u = 0 then 0 else expDet22 lg ex sg p u

/-- `np.linalg.det` of a 2 × 2 array. -/
def det22F (k : Lu) (lg ex : ℝ → ℝ) (A : Matrix (Fin 2) (Fin 2) ℝ) : ℝ :=
  if |A 1 0| ≤ |A 0 0| then luDet22 k lg ex 1 (A 0 0) (A 0 1) (A 1 0) (A 1 1)
  else luDet22 k lg ex (-1) (A 1 0) (A 1 1) (A 0 0) (A 0 1)

/-- The two substitutions of `dgesv` for the array with rows `(p, q, e)`, `(r, s, f)`, `(0, 0, 1)` and the right-hand side `(y1, y2, y3)`, in the order of
the pivots.  The last row is not changed by the elimination: its multipliers and its part of the products are zero and its pivot is 1. -/
def solveF (k : Lu) (p q e r s f y1 y2 y3 : ℝ) : Pt :=
  let l := quoF k r p
  let u := msubF k s l q
  let x2 := quoF k (msubF k (msubF k y2 l y1) (msubF k f l e) y3) u
  ⟨quoF k (lastF k y1 e y3 q x2) p, x2⟩

/-- The first two rows of `np.linalg.inv` for the array with rows `(p, q, e)`, `(r, s, f)`, `(0, 0, 1)`, when the first pivot is `p`; `swap` says that
`dgetrf` has exchanged the rows, so that the two first columns of the identity are exchanged.  A zero pivot raises `LinAlgError`. -/
def invF (k : Lu) (swap : Bool) (p q e r s f : ℝ) : Res Affine :=
  if p = 0 ∨ msubF k s (quoF k r p) q = 0 then .error .linAlgError
  else
    let c1 := solveF k p q e r s f 1 0 0
    let c2 := solveF k p q e r s f 0 1 0
    let c3 := solveF k p q e r s f 0 0 1
    .ok (if swap = true then ⟨!![c2.x, c1.x; c2.y, c1.y], c3⟩ else ⟨!![c1.x, c2.x; c1.y, c2.y], c3⟩)

/-- geometry.py 2149-2157 `Affine.inverse` in double precision; `none` is Python's `None`.  The factorisation inside of `np.linalg.inv` (`k'`) need not
round like the one inside of `np.linalg.det` (`k`). -/
def Affine.inverseF (k k' : Lu) (lg ex : ℝ → ℝ) (f : Affine) : Res (Option Affine) :=
  if det22F k lg ex f.A = 0 then .ok none
  else do
    let g ← if |f.A 1 0| ≤ |f.A 0 0| then invF k' false (f.A 0 0) (f.A 0 1) f.b.x (f.A 1 0) (f.A 1 1) f.b.y
      else invF k' true (f.A 1 0) (f.A 1 1) f.b.y (f.A 0 0) (f.A 0 1) f.b.x
    return some g

/-- geometry.py 2185-2196 `Affine.transform_line` in double precision: the guard, and the images of the two points. -/
def Affine.lineImageF (k : Lu) (kx ky : Fma) (lg ex : ℝ → ℝ) (f : Affine) (P Q : Pt) : Option (Pt × Pt) :=
  if det22F k lg ex f.A = 0 then none else some (f.transformF kx ky P, f.transformF kx ky Q)

end
