import Verif.Model.Circle
import Verif.Model.Line
import Verif.Model.Inversion
import Verif.Model.UniqueWith

/-!
# Model of `examples/Inversions.py`

Five circles, the images of each by the inversions in the others, and so on for three generations.

Simplifications.  The lists `gen1`, `gen2`, `gen3` are allocated with their length and filled by a counter `k` under a `while` loop which is
passed once; the model builds the list of the same entries in the same order (their number is part of the theorems).  The loop of generation 1
compares `i` with the index `j` of the circle, the later loops with the third component of the entry: the model gives an entry of generation 0
its index as third component.  A value `None` of `invert_line` that would reach `unique_with` stops the model with an error (Python would raise
only when it compares two of them).  The drawing with matplotlib is left out; what is drawn is the final list.
-/

namespace Inversions
noncomputable section
open Classical Real

/-- examples/Inversions.py 38, 52, 67: an entry `(gcircle, generation, i)` of a generation. -/
structure Entry where
  g : Option GCircle
  gen : ℕ
  last : ℕ

/-- examples/Inversions.py 38-39: the circles of generation 0. -/
def circles : Res (List Circle) := do
  let four ← [0, π / 2, π, 3 * π / 2].mapM fun beta => mkCircle ⟨cos beta, sin beta⟩ 1
  let big ← mkCircle ⟨0, 0⟩ 2
  return four ++ [big]

/-- examples/Inversions.py 50-52, 63-69, 80-86: the image of one entry by the inversion in one of the circles.  `invert_line` rejects `None`. -/
def invertEntry (circ : Circle) (G : Option GCircle) : Res (Option GCircle) :=
  let iota : Inversion := ⟨circ.center, circ.radius ^ 2⟩
  match G with
  | some (.circle c) => do return some (← iota.invert_circle c)
  | some (.line l) => iota.invert_line l
  | none => .error (.valueError "`line` must be a `Line` object.")

/-- examples/Inversions.py 42-53, 56-70, 73-87: the next generation. -/
def next (gen0 : List Circle) (n : ℕ) (prev : List Entry) : Res (List Entry) :=
  (prev.flatMap fun e => (gen0.zipIdx.filter fun ci => decide (e.last ≠ ci.2)).map fun ci => (e, ci)).mapM fun p => do
    let g ← invertEntry p.2.1 p.1.g
    return ⟨g, n, p.2.2⟩

/-- examples/Inversions.py 38-87: the generations. -/
def generation (gen0 : List Circle) : ℕ → Res (List Entry)
  | 0 => .ok (gen0.zipIdx.map fun cj => ⟨some (.circle cj.1), 0, cj.2⟩)
  | n + 1 => do next gen0 (n + 1) (← generation gen0 n)

/-- examples/Inversions.py 90: the comparison given to `unique_with`. -/
def same (g1 g2 : GCircle × ℕ) : Bool :=
  match g1.1, g2.1 with
  | .circle c, .circle d => decide (c.is_equal d)
  | .line l, .line m => decide (l.is_equal m)
  | _, _ => false

/-- The first two components of an entry. -/
def entry (e : Entry) : Res (GCircle × ℕ) :=
  match e.g with
  | some g => .ok (g, e.gen)
  | none => .error .attributeError

/-- examples/Inversions.py 37-90: the list `gcircles` before the call of `unique_with`. -/
def gcircles : Res (List (GCircle × ℕ)) := do
  let gen0 ← circles
  let g0 ← generation gen0 0
  let g1 ← generation gen0 1
  let g2 ← generation gen0 2
  let g3 ← generation gen0 3
  (g0 ++ g1 ++ g2 ++ g3).mapM entry

/-- examples/Inversions.py 37-90: the list `gcircles` which is drawn. -/
def script : Res (List (GCircle × ℕ)) := do
  let L ← gcircles
  match UniqueWith.unique_with L same with
  | some r => return r.2
  | none => .error .typeError

end
end Inversions
