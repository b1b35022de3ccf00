import Verif.Model.FloatGeom
import Verif.Model.Circle

/-!
# The inversion that swaps two circles in double precision
-/

open Classical
noncomputable section

namespace Inversion

/-- The power `abs(dot_(O - c2) - r2*r2)` of geometry.py 1617, 1622, 1644 and 1649, in double precision. -/
def swapPowerF (k : Fma) (O c2 : Pt) (r2 : ℝ) : ℝ := |fl (vdotF k (subF O c2) (subF O c2) - fl (r2 * r2))|

/-- `c1 - a/(1-a) * (c2 - c1)`, geometry.py 1643 and 1646, in double precision. -/
def swapOuterF (c1 c2 : Pt) (a : ℝ) : Pt :=
  let q := fl (a / fl (1 - a))
  ⟨fl (c1.x - fl (q * fl (c2.x - c1.x))), fl (c1.y - fl (q * fl (c2.y - c1.y)))⟩

/-- `c1 + a/(1+a) * (c2 - c1)`, geometry.py 1641 and 1648, in double precision. -/
def swapInnerF (c1 c2 : Pt) (a : ℝ) : Pt :=
  let q := fl (a / fl (1 + a))
  ⟨fl (c1.x + fl (q * fl (c2.x - c1.x))), fl (c1.y + fl (q * fl (c2.y - c1.y)))⟩

/-- geometry.py 1591-1649 `Inversion.from_swapping_two_circles` in double precision; `none` is Python's `None`. -/
def from_swappingF (k : Fma) (circ1 circ2 : Circle) (positive : Bool) : Option Inversion :=
  let c1 := circ1.center
  let r1 := circ1.radius
  let c2 := circ2.center
  let r2 := circ2.radius
  let c1c2 := distanceF k c1 c2
  if r1 = r2 then
    let I : Pt := ⟨fl (fl (c1.x + c2.x) / 2), fl (fl (c1.y + c2.y) / 2)⟩
    if c1c2 < fl (r1 + r2) then some ⟨I, swapPowerF k I c2 r2⟩
    else if c1c2 > fl (r1 + r2) then some ⟨I, -swapPowerF k I c2 r2⟩
    else none
  else
    let inside := max r1 r2 ≥ fl (c1c2 + min r1 r2)
    let inside_tangent := inside ∧ max r1 r2 = fl (c1c2 + min r1 r2)
    let positive' : Prop := positive = true ∨ ((¬ inside ∨ inside_tangent) ∧ c1c2 ≤ fl (r1 + r2))
    let a := fl (r1 / r2)
    if positive' then
      let O := if inside then swapInnerF c1 c2 a else swapOuterF c1 c2 a
      some ⟨O, fl (a * swapPowerF k O c2 r2)⟩
    else
      let O := if inside then swapOuterF c1 c2 a else swapInnerF c1 c2 a
      some ⟨O, fl (-a * swapPowerF k O c2 r2)⟩

end Inversion

end
