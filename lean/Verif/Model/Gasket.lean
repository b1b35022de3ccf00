import Verif.Model.Circle

/-!
# Model of the gaskets of the examples

`examples/ApollonianGasket.py` 33-53; the same function `children` is in `ApollonianGasketMobius.py` and
`ApollonianGasket_animation.py`, it is `iteration` in `MalfattiApollonian.py` 25-34 and, with two parallel lists in place of a
list of pairs, `children` in `triangularCircularGasket.py`.
-/

open Classical
noncomputable section

namespace Gasket

/-- geometry.py 1520-1534: `invert_circle` applied to what an earlier `invert_circle` returned, a circle or a line. -/
def invertG (iota : Inversion) : GCircle → Res GCircle
  | .circle c => iota.invert_circle c
  | .line _ => .error (.valueError "`circ` must be a `Circle` object.")

/-- examples/ApollonianGasket.py 39-45: the inner loop, over the pairs `(inversions[j], j)`. -/
def childrenOf (g : GCircle) (k : ℕ) : List (Inversion × ℕ) → Res (List (GCircle × ℕ))
  | [] => return []
  | (iota, j) :: rest =>
    if j ≠ k then do
      let circle ← invertG iota g
      let more ← childrenOf g k rest
      return (circle, j) :: more
    else childrenOf g k rest

/-- examples/ApollonianGasket.py 35-46 `children`: the outer loop. -/
def children (inversions : List Inversion) : List (GCircle × ℕ) → Res (List (GCircle × ℕ))
  | [] => return []
  | (g, k) :: rest => do
    let here ← childrenOf g k inversions.zipIdx
    let more ← children inversions rest
    return here ++ more

/-- examples/ApollonianGasket.py 49-53: `allCircles[d+1]`, from the first generation `circles1`. -/
def generation (inversions : List Inversion) (circles1 : List (GCircle × ℕ)) : ℕ → Res (List (GCircle × ℕ))
  | 0 => return circles1
  | d + 1 => do
    let g ← generation inversions circles1 d
    children inversions g

end Gasket
