import Verif.Model.Gasket

/-!
# Model of `examples/ApollonianGasket.py`, lines 5-30: the starting circles, the inversions and the first children

`n`, `phi`, `shift` and the circle `c0` are constants in the script; here they are arguments.
-/

open Classical
noncomputable section

namespace Gasket

/-- `circles0[j]`, used as a circle.  The list has `n + 1` elements and `j ≤ n`, so that there is no `IndexError`; the functions called by the script
raise `ValueError` for a `Line`. -/
def nthCircle (circles0 : List GCircle) (j : ℕ) : Res Circle :=
  match circles0[j]? with
  | some (.circle c) => .ok c
  | _ => .error (.valueError "not a `Circle` object.")

/-- examples/ApollonianGasket.py 11-15: `inversions[i]`. -/
def fixing (c0 : Circle) (circles0 : List GCircle) (n i : ℕ) : Res Inversion := do
  let a ← nthCircle circles0 i
  let b ← nthCircle circles0 ((i + 1) % n)
  Inversion.from_fixing_three_circles c0 a b

/-- examples/ApollonianGasket.py 5-18: `circles0` and `inversions`.  `from_swapping_two_circles` returns `None` for congruent tangent circles; the
attribute `invert_circle` of `None` is then used by `children`. -/
def start (c0 : Circle) (n : ℕ) (phi shift : ℝ) : Res (List GCircle × List Inversion) := do
  let circles0 := (← SteinerChain c0 n phi shift).circles
  let inversions ← (List.range n).mapM (fixing c0 circles0 n)
  match Inversion.from_swapping_two_circles c0 (← nthCircle circles0 n) with
  | some iota => return (circles0, inversions ++ [iota])
  | none => .error .attributeError

/-- examples/ApollonianGasket.py 22-27: the loop over `j` for one `i`, with `iota` the inversion number `i`. -/
def firstOf (circles0 : List GCircle) (n : ℕ) (iota : Inversion) (i : ℕ) : Res (List (GCircle × ℕ)) :=
  ((List.range (n + 1)).filter fun j => j ≠ i ∧ j ≠ (i + 1) % n).mapM fun j => do
    let c ← nthCircle circles0 j
    return (← iota.invert_circle c, i)

/-- examples/ApollonianGasket.py 20-27: `circles1`. -/
def first (circles0 : List GCircle) (inversions : List Inversion) (n : ℕ) : Res (List (GCircle × ℕ)) := do
  let rows ← (inversions.take n).zipIdx.mapM fun p => firstOf circles0 n p.1 p.2
  return rows.flatten

/-- examples/ApollonianGasket.py 49-53: the circles of `allCircles[d + 1]`, with the numbers of their inversions. -/
def apollonian (c0 : Circle) (n : ℕ) (phi shift : ℝ) (d : ℕ) : Res (List (GCircle × ℕ)) := do
  let (circles0, inversions) ← start c0 n phi shift
  let circles1 ← first circles0 inversions n
  generation inversions circles1 d

end Gasket
