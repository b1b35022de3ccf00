import Mathlib.GroupTheory.FreeGroup.Reduce
import Mathlib.Data.Set.Image

/-!
# Spec: the circles of a Schottky group

For a letter `x` there are a map `e x` and a set `C x` (a circle).  The reduced word `x₁ … xₙ` has the set `e x₁ (e x₂ (… (C xₙ)))`: the circles of the
`n`-th generation.
-/

namespace Spec

variable {α X : Type*}

/-- The inverse letter. -/
def invLetter (x : α × Bool) : α × Bool := (x.1, !x.2)

/-- The circle of a word. -/
def genSet (e : α × Bool → X → X) (C : α × Bool → Set X) : List (α × Bool) → Set X
  | [] => ∅
  | [x] => C x
  | x :: y :: t => e x '' genSet e C (y :: t)

/-- A word is reduced: no letter is followed by its inverse. -/
def Reduced (t : List (α × Bool)) : Prop := t.IsChain fun x y => y ≠ invLetter x

end Spec
