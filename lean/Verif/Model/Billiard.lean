import Verif.Model.Affine
import Verif.Model.Ellipse

/-!
# Model of `examples/EllipticalBilliard.py` (and of the same functions in `EllipticalBilliard_animation.py`)

The plotting is dropped.  The ellipse, a global variable of the script, is a parameter.
-/

open Classical
noncomputable section

namespace Billiard

/-- examples/EllipticalBilliard.py 12-13 `reflect` (`np.vdot` of two real vectors). -/
def reflect (incidentDir normalVec : Pt) : Pt := incidentDir - (2 * dot_ normalVec incidentDir) • normalVec

/-- examples/EllipticalBilliard.py 24-31: one pass of the loop of `trajectory` from the variables `P0`, `Q0`: the new
segment and the new values of `P0`, `Q0`.  Indexing `None` raises `TypeError`; if the intersection is a single point then
`inters[0]` is a number, rejected by `Line`. -/
def step (ell : Ellipse) (P0 Q0 : Pt) : Res (Line × Pt × Pt) := do
  let theta := atan2 Q0.y Q0.x
  let t ← ell.theta2t theta false
  let nrmlVec ← ell.normal t
  let v := reflect (Q0 - P0) nrmlVec
  let l ← mkLine Q0 (Q0 + v)
  match ← intersection_ellipse_line (.ell ell) l with
  | .none => .error .typeError
  | .one _ => .error (.valueError "`A` is not a point.")
  | .two I J => do
    let seg ← mkLine I J
    return (seg, Q0, if allclose Q0 I then J else I)

/-- examples/EllipticalBilliard.py 23-31: `k` passes of the loop. -/
def steps (ell : Ellipse) : ℕ → Pt → Pt → Res (List Line)
  | 0, _, _ => return []
  | k + 1, P0, Q0 => do
    let (seg, P1, Q1) ← step ell P0 Q0
    let rest ← steps ell k P1 Q1
    return seg :: rest

/-- examples/EllipticalBilliard.py 17-32 `trajectory(n, P0, v0)` with `n = k + 1` (for `n = 0` the code raises
`IndexError`). -/
def trajectory (ell : Ellipse) (k : ℕ) (P0 v0 : Pt) : Res (List Line) := do
  let L ← mkLine P0 (P0 + v0)
  match ← intersection_ellipse_line (.ell ell) L with
  | .none => .error .typeError
  | .one _ => .error (.valueError "`A` is not a point.")
  | .two I J => do
    let seg ← mkLine I J
    let rest ← steps ell k P0 J
    return seg :: rest

end Billiard
