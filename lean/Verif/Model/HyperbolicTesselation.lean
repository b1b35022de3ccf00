import Verif.Model.Circle
import Verif.Model.Arc
import Verif.Model.Inversion

/-!
# Model of examples/HyperbolicTesselation.py 6-41, 53-60 and examples/HyperbolicTesselation2.py 9-35, 49-53: the vertices

The scripts have the circle `Circle((0,0), 3)` and the angles `[0, 2, 3.8]`.  The radius of the circle of the starting points is the parameter `rho`; it is 1
in both scripts (`(cos(theta), sin(theta))` and `unit_vector_(theta)`).
-/

open Classical
noncomputable section

namespace HypTess

/-- examples/HyperbolicTesselation.py 13-17: the arc through two of the points and the inversion on it.  For opposite points there is a line instead,
which has no attribute `center`. -/
def inversion (circ : Circle) (thetas : Fin 3 → ℝ) (i : Fin 3) : Res Inversion := do
  match ← circ.orthogonal_through_two_points_on_circle (thetas i) (thetas (i + 1)) true with
  | .arc a => return ⟨a.center, a.radius ^ 2⟩
  | _ => .error .attributeError

/-- examples/HyperbolicTesselation.py 21, HyperbolicTesselation2.py 18, with `rho = 1`. -/
def start (rho : ℝ) (thetas : Fin 3 → ℝ) (i : Fin 3) : Pt := rho • unit_vector_ (thetas i)

/-- examples/HyperbolicTesselation.py 23-27: `Ms[1]`. -/
def first (inv : Fin 3 → Inversion) (P : Fin 3 → Pt) : List (XPt × Fin 3) :=
  (List.finRange 3).map fun i => ((inv i).invert (.fin (P (i - 1))), i)

/-- examples/HyperbolicTesselation.py 30-41: from `Ms[d-1]` to `Ms[d]`.  The index `k` grows by 2 for each `j`, so the loop `while` runs once. -/
def next (inv : Fin 3 → Inversion) (prev : List (XPt × Fin 3)) : List (XPt × Fin 3) :=
  prev.flatMap fun p => ((List.finRange 3).filter fun i => decide (i ≠ p.2)).map fun i => ((inv i).invert p.1, i)

/-- `Ms[d+1]`. -/
def level (inv : Fin 3 → Inversion) (P : Fin 3 → Pt) : ℕ → List (XPt × Fin 3)
  | 0 => first inv P
  | d + 1 => next inv (level inv P d)

/-- examples/HyperbolicTesselation.py 58-60, HyperbolicTesselation2.py 52-53: the angle of a point.  `inf` cannot be unpacked. -/
def angleOf : XPt → Res ℝ
  | .fin P => .ok (atan2 P.y P.x)
  | .inf => .error .typeError

/-- The angles computed from `Ms[d+1]`, for the circle, the angles of the first points and the radius `rho`. -/
def angles (circ : Circle) (rho : ℝ) (thetas : Fin 3 → ℝ) (d : ℕ) : Res (List ℝ) := do
  let i0 ← inversion circ thetas 0
  let i1 ← inversion circ thetas 1
  let i2 ← inversion circ thetas 2
  (level ![i0, i1, i2] (start rho thetas) d).mapM fun p => angleOf p.1

end HypTess
