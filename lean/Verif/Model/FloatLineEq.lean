import Verif.Model.FloatGeom
import Verif.Model.Line

/-!
# Normal form and equality of lines in double precision

The functions `atan2`, `cos` and `sin` of the library are arguments of the model: their results are not correctly rounded on every platform.
-/

open Classical
noncomputable section

/-- `math.pi`. -/
def piF : ℝ := fl Real.pi

/-- C `fmod x m` for `m > 0`: exact, with the sign of `x`. -/
def fmod (x m : ℝ) : ℝ := if 0 ≤ x then pyMod x m else -pyMod (-x) m

/-- Python `x % m` of floats for `m > 0`: `fmod`, then `m` is added when the result is negative. -/
def pyModF (x m : ℝ) : ℝ := if fmod x m < 0 then fl (fmod x m + m) else fmod x m

/-- The functions of the mathematical library. -/
structure MathLib where
  /-- `math.atan2` -/
  atan2 : ℝ → ℝ → ℝ
  /-- `math.cos` -/
  cos : ℝ → ℝ
  /-- `math.sin` -/
  sin : ℝ → ℝ

/-- geometry.py 88-116 `Line.direction_offset` in double precision. -/
def Line.direction_offsetF (M : MathLib) (l : Line) : ℝ × ℝ :=
  let A := l.A
  let B := l.B
  if A.x = B.x then
    if A.x > 0 then (0, A.x) else (piF, -A.x)
  else
    let x := fl (B.x - A.x)
    let y := fl (B.y - A.y)
    let theta := -M.atan2 x y
    let offset := fl (fl (A.x * M.cos theta) + fl (A.y * M.sin theta))
    if offset < 0 then (pyModF (fl (theta + piF)) (fl (2 * piF)), -offset)
    else (pyModF theta (fl (2 * piF)), offset)

/-- geometry.py 118-133 `Line.is_equal` in double precision. -/
def Line.is_equalF (M : MathLib) (l line2 : Line) : Prop :=
  let do1 := l.direction_offsetF M
  let do2 := line2.direction_offsetF M
  if approx_equalF do1.2 do2.2 then
    approx_equalF (pyModF do1.1 piF) (pyModF do2.1 piF)
  else npClose64 do1.1 do2.1 ∧ npClose64 do1.2 do2.2

end
