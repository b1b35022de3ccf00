import Verif.Model.Basic
import Mathlib.Data.Finset.Sort
import Mathlib.Data.List.Lex
import Mathlib.Data.Rat.Lemmas
import Mathlib.LinearAlgebra.Matrix.Notation

/-!
# Model of `farey_`, `farey_stack_`, internal.py 62-72, and of `unimodular_matrices`, geometry.py 2639-2655

Integers are unbounded (Python `int`).
-/

open Classical
noncomputable section

/-- internal.py 64-67 `farey_`: `Fraction`s are rational numbers, a set comprehension is a `Finset`. -/
def farey_ (n : ℤ) : List ℚ :=
  [(0 : ℚ)] ++ (((Finset.Ico (1 : ℤ) (n + 1)).biUnion fun k =>
    (Finset.Ico (1 : ℤ) (k + 1)).image fun m : ℤ => (m : ℚ) / (k : ℚ))).sort (· ≤ ·)

/-- internal.py 69-72 `farey_stack_`: the concatenations `lists[i] + lists[i+1]` for `i` in `range(len(lists)-1)` are those
of the list and its tail. -/
def farey_stack_ (n : ℤ) : List (List ℤ) :=
  let fractions := farey_ n
  let lists := fractions.map fun f => [(f.den : ℤ), f.num]
  List.zipWith (· ++ ·) lists lists.tail

/-- `np.unique(out, axis=0)`: the rows without duplicates, in lexicographic order. -/
def uniqueRows (l : List (List ℤ)) : List (List ℤ) := l.toFinset.sort (· ≤ ·)

/-- `arr.reshape((2,2), order="F")`: column-major. -/
def reshapeF (r : List ℤ) : Matrix (Fin 2) (Fin 2) ℤ :=
  !![r.getD 0 0, r.getD 2 0; r.getD 1 0, r.getD 3 0]

/-- geometry.py 2639-2655 `unimodular_matrices` for an integer `n`. -/
def unimodular_matrices (n : ℤ) : Res (List (Matrix (Fin 2) (Fin 2) ℤ)) :=
  if n < 1 then .error (.valueError "`n` must be at least one.")
  else
    let I2 : Matrix (Fin 2) (Fin 2) ℤ := 1
    if n = 1 then .ok [I2]
    else
      let out := (List.range n.toNat).map fun (i : ℕ) => farey_stack_ ((i : ℤ) + 1)
      let out := uniqueRows out.flatten
      .ok ([I2] ++ out.map reshapeF)

end
