import Verif.Model.Apollonian
import Verif.Model.Mobius
import Mathlib.Analysis.SpecialFunctions.Pow.Real

/-!
# Model of `examples/ApollonianGasketMobius.py`

Lines 7-54 are those of `ApollonianGasket.py`, modelled in `Verif.Model.Apollonian`.
-/

open Classical
noncomputable section

namespace Gasket

/-- `h**t` for a float `h ≥ 0` and a float `t`. -/
def pyPow (h t : ℝ) : Res ℝ := if h = 0 ∧ t < 0 then .error .zeroDivision else .ok (h ^ t)

/-- Division of a Python complex number by a float. -/
def pyDivC (z : ℂ) (x : ℝ) : Res ℂ := if x = 0 then .error .zeroDivision else .ok (z / (x : ℂ))

/-- examples/ApollonianGasketMobius.py 57-66 `mobius(gamma, t)`. -/
def mobius (gamma : ℂ) (t : ℝ) : Res Mobius := do
  let g := ‖gamma‖
  let h ← pySqrt (1 - g * g)
  let ht ← pyPow h t
  let d2 : ℂ := ht * ((Real.cos (t * Real.pi / 2) : ℝ) + Complex.I * (Real.sin (t * Real.pi / 2) : ℝ))
  let d1 := (starRingEnd ℂ) d2
  let h11 := (d1.re : ℂ) - (← pyDivC (Complex.I * d1.im) h)
  let h12 ← pyDivC (d2.im * gamma) h
  let h21 := (starRingEnd ℂ) h12
  let h22 := (starRingEnd ℂ) h11
  return ⟨!![h11, h12; h21, h22]⟩

/-- examples/ApollonianGasketMobius.py 84-86: one circle of a frame.  `transform_circle` rejects a line, and a line has no attribute `center`, used
by `draw_circle`. -/
def frameCircle (M : Mobius) : GCircle → Res Circle
  | .line _ => .error (.valueError "`circ` must be a `Circle` object.")
  | .circle circ => do
    match ← M.transform_circle circ with
    | .circle cc => return cc
    | .line _ => .error .attributeError

/-- examples/ApollonianGasketMobius.py 82-86: the circles drawn in the frame `t`, from the circles `circles` of the gasket. -/
def frame (gamma : ℂ) (t : ℝ) (circles : List GCircle) : Res (List Circle) := do
  let M ← mobius gamma t
  circles.mapM (frameCircle M)

end Gasket
