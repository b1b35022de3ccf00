import Verif.Spec.Plane
import Mathlib.Data.Int.Log
import Mathlib.Algebra.Order.Floor.Ring
import Mathlib.Algebra.Ring.Parity

/-!
# Double precision arithmetic

The functions of this file and of `Model/FloatGeom.lean` do not use the idealisation of floats as real numbers: every operation is
followed by the rounding of IEEE 754 binary64 (round to nearest, ties to even, gradual underflow).  Overflow is not modelled: the
exponent has no upper bound.
-/

open Classical
noncomputable section

/-- The nearest integer; the even one of the two in case of a tie. -/
def roundEven (x : ℝ) : ℤ :=
  if x - ⌊x⌋ < 1 / 2 then ⌊x⌋
  else if 1 / 2 < x - ⌊x⌋ then ⌊x⌋ + 1
  else if Even ⌊x⌋ then ⌊x⌋ else ⌊x⌋ + 1

/-- The exponent of the last of the 53 bits; at least -1074. -/
def ulpExp (x : ℝ) : ℤ := max (Int.log 2 |x| - 52) (-1074)

/-- The rounding of a real number to a double. -/
def fl (x : ℝ) : ℝ := roundEven (x / 2 ^ ulpExp x) * 2 ^ ulpExp x

/-- The doubles (without an upper bound on the exponent). -/
def IsDouble (x : ℝ) : Prop := ∃ m e : ℤ, -1074 ≤ e ∧ |m| ≤ 2 ^ 53 ∧ x = m * 2 ^ e

end
