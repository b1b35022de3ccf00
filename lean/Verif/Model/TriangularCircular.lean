import Verif.Model.CircularGasket
import Verif.Model.TriangularGasket

/-!
# Model of the whole picture of `examples/triangularCircularGasket.py` and `examples/triangularCircularGasket_animation.py`

The functions `innerSoddyCircle`, `side_circle_circle`, `side_side_circle` and `new_holes` (lines 26-101 and 136-158) are those of
`triangularApollonianGasket.py` up to the form in which the center is handed to pyvista, so their models are those of `Model/TriangularGasket`.
Simplifications as there: a sphere is the circle it is drawn for, colors and the triangle itself are dropped.
-/

noncomputable section

namespace TriCircular

open TriGasket CircularGasket

/-- examples/triangularCircularGasket.py 229-255 `drawTriangularGasket`: as in `triangularApollonianGasket.py`, but the Malfatti circles are not drawn. -/
def drawHoles (A B C : Pt) (depth : ℕ) : Res (List Circle) := do
  match ← (⟨A, B, C⟩ : Triangle).malfatti_circles with
  | none => .error .typeError
  | some m =>
    let holes ← first A B C m.cA m.cB m.cC
    passes depth (holes.map Step.drawn) holes

/-- examples/triangularCircularGasket.py 265-281 and examples/triangularCircularGasket_animation.py 266-285 (one frame), with `depth2 = d + 1`: the circles
drawn.  In the first script the three `phi` are the same. -/
def picture (A B C : Pt) (depth n1 n2 n3 d : ℕ) (phi1 phi2 phi3 shift : ℝ) : Res (List Circle) := do
  match ← (⟨A, B, C⟩ : Triangle).malfatti_circles with
  | none => .error .typeError
  | some m =>
    let holes ← drawHoles A B C depth
    let g1 ← drawCircularGasket m.cA n1 d phi1 shift
    let g2 ← drawCircularGasket m.cB n2 d phi2 shift
    let g3 ← drawCircularGasket m.cC n3 d phi3 shift
    return holes ++ g1.flatten ++ g2.flatten ++ g3.flatten

/-- examples/triangularCircularGasket_animation.py 274: the values of `shift_`. -/
def frames : List ℝ := (List.range 90).map fun i : ℕ => (i : ℝ) / 90

end TriCircular
