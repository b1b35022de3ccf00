import Mathlib.Data.List.Basic

/-!
# Model of `unique_with` of `examples/Inversions.py` (and of the same function in `examples/Schottky.py`)

The list is changed in place by `del`, so the model carries the pair `(L, size)` of the two variables; `none` stands for an
`IndexError`.  The comparison `f` is a function without effects.
-/

namespace UniqueWith

variable {α : Type*}

/-- examples/Inversions.py 11-16: the `while` loop for given `i`, from the values `L`, `size`, `j` of the variables. -/
def scan (f : α → α → Bool) (i : ℕ) (L : List α) (size j : ℕ) : Option (List α × ℕ) :=
  if j < size then
    match L[i]?, L[j]? with
    | some x, some y => if f x y then scan f i (L.eraseIdx j) (size - 1) j else scan f i L size (j + 1)
    | _, _ => none
  else some (L, size)
termination_by size - j

/-- examples/Inversions.py 9-16: the `for` loop; `range(size-1)` is evaluated once, before the loop. -/
def loop (f : α → α → Bool) : List ℕ → List α × ℕ → Option (List α × ℕ)
  | [], s => some s
  | i :: is, (L, size) => do
    let s ← scan f i L size (i + 1)
    loop f is s

/-- examples/Inversions.py 7-17 `unique_with`: the state of the argument list after the call, and the result. -/
def unique_with (L : List α) (f : α → α → Bool) : Option (List α × List α) := do
  let size := L.length
  let (L', size') ← loop f (List.range (size - 1)) (L, size)
  return (L', L'.take size')

end UniqueWith
