import Verif.Model.Line
import Verif.Model.Triangle

/-!
# Model of class `Inversion`, geometry.py 1488-1684, without `compose` (see `Model/Mobius.lean`) and without the
constructors from circles (see `Model/Circle.lean`)
-/

open Classical
noncomputable section

namespace Inversion

/-- geometry.py 1508-1518 `Inversion.invert`.  The divisor `dot_(pole_M)` is nonzero when `M` is not
`np.allclose` to the pole. -/
def invert (iota : Inversion) (M : XPt) : XPt :=
  match M with
  | .inf => .fin iota.pole
  | .fin M =>
    if allclose iota.pole M then .inf
    else
      let pole_M := M - iota.pole
      .fin (iota.pole + (iota.power / dot1_ pole_M) • pole_M)

/-- geometry.py 1520-1534 `Inversion.invert_circle`. -/
def invert_circle (iota : Inversion) (circ : Circle) : Res GCircle :=
  let c0 := iota.pole
  let k := iota.power
  let c1 := circ.center
  let r1 := circ.radius
  let D1 := (c1.x - c0.x) ^ 2 + (c1.y - c0.y) ^ 2 - r1 * r1
  if |D1| > sepsilon_ then
    let s := k / D1
    do return .circle (← mkCircle (c0 + s • (c1 - c0)) (|s| * r1))
  else
    let Ot := c0 - c1
    let R180 := c1 - Ot
    let R90 : Pt := (⟨-Ot.y, Ot.x⟩ : Pt) + c1
    do return .line (← mkLineX (iota.invert (.fin R180)) (iota.invert (.fin R90)))

/-- geometry.py 1536-1546 `Inversion.invert_line`.  `Triangle(c0, Ap, Bp)` rejects `inf` vertices. -/
def invert_line (iota : Inversion) (line : Line) : Res (Option GCircle) :=
  let c0 := iota.pole
  if collinear_ line.A line.B c0 then .ok (some (.line line))
  else
    match iota.invert (.fin line.A), iota.invert (.fin line.B) with
    | .fin Ap, .fin Bp => do
      match ← (Triangle.mk c0 Ap Bp).circumcircle with
      | none => return none
      | some c => return some (.circle c)
    | .inf, _ => .error (.valueError "`B` is not a point.")
    | .fin _, .inf => .error (.valueError "`C` is not a point.")

/-- geometry.py 1548-1559 `Inversion.invert_gcircle`.  The second argument of the two `isinstance` calls is a string. -/
def invert_gcircle (iota : Inversion) (gcircle : GCircle) : Res (Option GCircle) := do
  if (← pyIsinstance gcircle.className (.str "Circle")) = true then
    match gcircle with
    | .circle c => return some (← iota.invert_circle c)
    | .line _ => .error (.valueError "`circ` must be a `Circle` object.")
  else if (← pyIsinstance gcircle.className (.str "Line")) = true then
    match gcircle with
    | .line l => iota.invert_line l
    | .circle _ => .error (.valueError "`line` must be a `Line` object.")
  else .error (.valueError "`gcircle` must be a `Line` object or a `Circle` object.")

/-- geometry.py 1580-1589 `Inversion.on_circle`. -/
def on_circle (circ : Circle) : Inversion := ⟨circ.center, circ.radius ^ 2⟩

end Inversion

end
