import Verif.Model.FloatConstruct
import Verif.Model.FloatLines
import Verif.Model.FloatTransforms

/-!
# Radical axes and images of circles, in double precision

Same conventions as in `Verif.Model.FloatGeom`.
-/

open Classical
noncomputable section

/-- geometry.py 541-559 `Circle.radical_center` in double precision; the array `[inf, inf]` is the pseudo error `nonFinite`, as in
`Circle.radical_center`. -/
def Circle.radical_centerF (k : Fma) (c circ2 : Circle) : Res Pt :=
  let C1 := c.center
  let C2 := circ2.center
  let K := fl (fl (c.radius * c.radius) - fl (circ2.radius * circ2.radius))
  let d := subF C2 C1
  let q := vdotF k d d
  if q = 0 then .error .nonFinite
  else .ok ⟨fl (fl (fl (C1.x + C2.x) / 2) + fl (fl (fl (K / 2) * d.x) / q)), fl (fl (fl (C1.y + C2.y) / 2) + fl (fl (fl (K / 2) * d.y) / q))⟩

/-- geometry.py 561-578 `Circle.radical_axis` in double precision; `none` is Python's `None`. -/
def Circle.radical_axisF (k : Fma) (c circ2 : Circle) : Res (Option Line) :=
  if allclose64 c.center circ2.center then .ok none
  else
    let d := subF circ2.center c.center
    do
      let R ← c.radical_centerF k circ2
      return some (← mkLineF R (addF R ⟨-d.y, d.x⟩) true true)

/-- geometry.py 60-68 `Line.__init__` on points that may be `inf`, in double precision. -/
def mkLineXF (A B : XPt) : Res Line :=
  match A, B with
  | .fin A, .fin B => mkLineF A B true true
  | .inf, _ => .error (.valueError "`A` is not a point.")
  | .fin _, .inf => .error (.valueError "`B` is not a point.")

/-- geometry.py 1520-1534 `Inversion.invert_circle` in double precision; `k1` and `k2` are for the two inversions of the last line.
A square `x**2` is rounded once. -/
def Inversion.invert_circleF (k1 k2 : Fma) (iota : Inversion) (circ : Circle) : Res GCircle :=
  let c0 := iota.pole
  let c1 := circ.center
  let r1 := circ.radius
  let d := subF c1 c0
  let D1 := fl (fl (fl (d.x ^ 2) + fl (d.y ^ 2)) - fl (r1 * r1))
  if |D1| > sepsilon_ then
    let s := fl (iota.power / D1)
    do return .circle (← mkCircleF ⟨fl (c0.x + fl (s * d.x)), fl (c0.y + fl (s * d.y))⟩ (fl (|s| * r1)))
  else
    let Ot := subF c0 c1
    let R180 := subF c1 Ot
    let R90 := addF ⟨-Ot.y, Ot.x⟩ c1
    do
      let P ← iota.invertF k1 R180
      let Q ← iota.invertF k2 R90
      return .line (← mkLineXF P Q)

end
