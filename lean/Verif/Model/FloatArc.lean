import Verif.Model.FloatLineEq
import Verif.Model.Arc

/-!
# The path of an arc in double precision
-/

open Classical
noncomputable section

/-- geometry.py 904-908: an angle of the arc, in radians, reduced modulo `2*pi`, in double precision. -/
def Arc.angleF (a : Arc) (alpha : ℝ) : ℝ :=
  pyModF (if a.degrees = true then fl (fl (alpha * piF) / 180) else alpha) (fl (2 * piF))

/-- geometry.py 909-911: `dalpha = alpha2 - alpha1`, and `dalpha += 2*pi` if it is negative, in double precision. -/
def Arc.sweepF (a : Arc) : ℝ :=
  let dalpha := fl (a.angleF a.alpha2 - a.angleF a.alpha1)
  if dalpha < 0 then fl (dalpha + fl (2 * piF)) else dalpha

/-- Entry `i` of `np.linspace(0, stop, n)` in double precision: the last entry is `stop`, and the other entries are `i * step`, or
`(i / (n-1)) * stop` when the step is `0`. A single entry is `0`. -/
def linspaceToF (stop : ℝ) (n i : ℕ) : ℝ :=
  if n ≤ 1 then 0
  else if i = n - 1 then stop
  else
    let step := fl (stop / (n - 1 : ℕ))
    if step = 0 then fl (fl ((i : ℝ) / (n - 1 : ℕ)) * stop) else fl (i * step)

/-- geometry.py 890-917 `Arc.path` and internal.py 151-157 `circle_points_` in double precision: row `i` of the result, for `n_points = n`. -/
def Arc.pathPointF (N : MathLib) (a : Arc) (n i : ℕ) : Pt :=
  let t := fl (a.angleF a.alpha1 + linspaceToF a.sweepF n i)
  ⟨fl (a.center.x + fl (a.radius * N.cos t)), fl (a.center.y + fl (a.radius * N.sin t))⟩

end
