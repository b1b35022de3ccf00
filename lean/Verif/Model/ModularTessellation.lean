import Verif.Model.Mobius
import Verif.Model.Farey

/-!
# Model of the scripts `examples/ModularTessellation.py` and `examples/ModularTessellation_animation.py`

`eig` is the function `np.linalg.eig` used by `gpower`.  The figure is the list of the circles added to the axes, in order; colors, files and the
limits of the axes are left out.  The scripts change the arrays of `transfos` in place: a step returns the array it leaves behind.
-/

open Classical
noncomputable section

namespace Modular

/-- ModularTessellation.py 7. -/
def T : Mobius := ⟨!![0, -1; 1, 0]⟩

/-- ModularTessellation.py 8. -/
def U : Mobius := ⟨!![1, 1; 0, 1]⟩

/-- ModularTessellation.py 9. -/
def R : Mobius := U.compose T

/-- ModularTessellation.py 11-12 `Rt`. -/
def Rt (eig : Matrix (Fin 2) (Fin 2) ℂ → Mobius.Eig) (t : ℝ) : Res Mobius := R.gpower eig t

/-- ModularTessellation.py 15; the name in the script is `I`. -/
def circI : Circle := ⟨⟨0, 3 / 2⟩, 1 / 2⟩

/-- ModularTessellation.py 16. -/
def TI : Res GCircle := T.transform_circle circI

/-- ModularTessellation.py 19. -/
def Phi : Mobius := ⟨!![Complex.I, 1; 1, Complex.I]⟩

/-- ModularTessellation.py 22-28 `draw_circle`: a `Line` has no attribute `center`. -/
def draw_circle : GCircle → Res Circle
  | .circle c => .ok c
  | .line _ => .error .attributeError

/-- An argument of `Mobius.transform_circle` must have the attributes of a circle. -/
def transform_any (A : Mobius) : GCircle → Res GCircle
  | .circle c => A.transform_circle c
  | .line _ => .error .attributeError

/-- ModularTessellation.py 33-37: the body of `draw_pair` after the composition with `T`. -/
def draw_two (eig : Matrix (Fin 2) (Fin 2) ℂ → Mobius.Eig) (ti : GCircle) (M : Mobius) (u : ℝ) : Res (List Circle) := do
  let A := (M.compose (← Rt eig u)).compose Phi
  let c1 ← draw_circle (← A.transform_circle circI)
  let c2 ← draw_circle (← transform_any A ti)
  return [c1, c2]

/-- ModularTessellation.py 30-39 `draw_pair`, with the recursive call, which has `compose=True` and makes no further call. -/
def draw_pair (eig : Matrix (Fin 2) (Fin 2) ℂ → Mobius.Eig) (ti : GCircle) (M : Mobius) (u : ℝ) : Res (List Circle) := do
  let l1 ← draw_two eig ti M u
  let l2 ← draw_two eig ti (M.compose T) u
  return l1 ++ l2

/-- `geom.Mobius(transfo)`: a complex copy of an integer array. -/
def ofInt (m : Matrix (Fin 2) (Fin 2) ℤ) : Mobius := ⟨m.map fun k => (k : ℂ)⟩

/-- `np.fill_diagonal(m, (x, y))`. -/
def fill_diagonal (m : Matrix (Fin 2) (Fin 2) ℤ) (x y : ℤ) : Matrix (Fin 2) (Fin 2) ℤ := !![x, m 0 1; m 1 0, y]

/-- ModularTessellation.py 49-65: one turn of the loop: the circles drawn and the final content of the array. -/
def turn (eig : Matrix (Fin 2) (Fin 2) ℂ → Mobius.Eig) (ti : GCircle) (u : ℝ) (transfo : Matrix (Fin 2) (Fin 2) ℤ) :
    Res (List Circle × Matrix (Fin 2) (Fin 2) ℤ) := do
  let M := ofInt transfo
  let l1 ← draw_pair eig ti M u
  let M := M.inverse
  let l2 ← draw_pair eig ti M u
  let transfo := fill_diagonal transfo (-transfo 0 0) (-transfo 1 1)
  let M := ofInt transfo
  let l3 ← draw_pair eig ti M u
  let M := M.inverse
  let l4 ← draw_pair eig ti M u
  let d0 := transfo 0 0
  let d1 := transfo 1 1
  if d0 ≠ d1 then
    let transfo := fill_diagonal transfo d1 d0
    let M := ofInt transfo
    let l5 ← draw_pair eig ti M u
    let M := M.inverse
    let l6 ← draw_pair eig ti M u
    return (l1 ++ l2 ++ l3 ++ l4 ++ l5 ++ l6, transfo)
  else return (l1 ++ l2 ++ l3 ++ l4, transfo)

/-- ModularTessellation.py 49-65: the loop; the circles of the figure and the arrays left behind. -/
def figure (eig : Matrix (Fin 2) (Fin 2) ℂ → Mobius.Eig) (ti : GCircle) (u : ℝ) (transfos : List (Matrix (Fin 2) (Fin 2) ℤ)) :
    Res (List Circle × List (Matrix (Fin 2) (Fin 2) ℤ)) := do
  let l ← transfos.mapM (turn eig ti u)
  return ((l.map Prod.fst).flatten, l.map Prod.snd)

/-- ModularTessellation.py: the whole script, with `n` and `u` of lines 41 and 47. -/
def script (eig : Matrix (Fin 2) (Fin 2) ℂ → Mobius.Eig) (n : ℤ) (u : ℝ) : Res (List Circle) := do
  let ti ← TI
  let transfos ← unimodular_matrices n
  let (l, _) ← figure eig ti u transfos
  return l

/-- ModularTessellation_animation.py 47-66: the loop over the frames; the arrays changed by one frame are those of the next one. -/
def frames (eig : Matrix (Fin 2) (Fin 2) ℂ → Mobius.Eig) (ti : GCircle) : List ℝ → List (Matrix (Fin 2) (Fin 2) ℤ) → Res (List (List Circle))
  | [], _ => .ok []
  | u :: us, transfos => do
    let (l, transfos) ← figure eig ti u transfos
    let ls ← frames eig ti us transfos
    return l :: ls

/-- ModularTessellation_animation.py: the frames for the list `us` of line 45. -/
def animation (eig : Matrix (Fin 2) (Fin 2) ℂ → Mobius.Eig) (n : ℤ) (us : List ℝ) : Res (List (List Circle)) := do
  let ti ← TI
  let transfos ← unimodular_matrices n
  frames eig ti us transfos

end Modular

end
