import Verif.Model.Inversion

/-!
# Model of class `Circle` and of the functions on circles, geometry.py 355-811, of the `Inversion` constructors
from circles, geometry.py 1591-1684, and of the Steiner chains, geometry.py 1688-1731
-/

open Classical
noncomputable section

namespace Circle

/-- geometry.py 376-388 `Circle.is_equal`. -/
def is_equal (c circ2 : Circle) : Prop :=
  approx_equal_ c.radius circ2.radius ∧ allclose c.center circ2.center

/-- geometry.py 390-402 `Circle.includes`. -/
def includes (c : Circle) (P : Pt) : Prop :=
  approx_equal_ (dot1_ (P - c.center)) (c.radius * c.radius)

/-- geometry.py 404-416 `Circle.contains`. -/
def contains (c : Circle) (P : Pt) : Prop :=
  dot1_ (P - c.center) ≤ c.radius * c.radius

/-- geometry.py 438-450 `Circle.point_from_angle`. -/
def point_from_angle (c : Circle) (alpha : ℝ) (degrees : Bool := true) : Pt :=
  let alpha := if degrees = true then alpha * (Real.pi / 180) else alpha
  c.center + c.radius • unit_vector_ alpha

/-- Result of the two `orthogonal_through_two_points_...` methods. -/
inductive OrthRes where
  | circle (c : Circle)
  | arc (a : Arc)
  | line (l : Line)

/-- geometry.py 452-492 `Circle.orthogonal_through_two_points_in_circle`.  Note that the code compares the
distance with `r2 = r*r` (lines 471 and 473). -/
def orthogonal_through_two_points_in_circle (c : Circle) (P1 P2 : Pt) (arc : Bool := false) : Res OrthRes :=
  if allclose P1 P2 then .error (.valueError "`P1` and `P2` must be distinct.")
  else
    let I := c.center
    let r := c.radius
    let r2 := r * r
    if distance_ P1 I ≥ r2 then .error (.valueError "`P1` is not in the interior of the reference circle.")
    else if distance_ P2 I ≥ r2 then .error (.valueError "`P2` is not in the interior of the reference circle.")
    else if collinear_ I P1 P2 then do return .line (← mkLine P1 P2 (!arc) (!arc))
    else
      let iota : Inversion := ⟨I, r2⟩
      match iota.invert (.fin P1), iota.invert (.fin P2) with
      | .fin P1prime, .fin P2prime => do
        let line1 ← mkLine P1 P1prime
        let line2 ← mkLine P2 P2prime
        let perp1 ← line1.perpendicular ((P1 + P1prime) / (2 : ℝ))
        let perp2 ← line2.perpendicular ((P2 + P2prime) / (2 : ℝ))
        match line_line_intersection_ perp1.A perp1.B perp2.A perp2.B with
        | none => .error .typeError
        | some O =>
          if arc = true then
            let theta1 := pyMod (atan2 (P1.y - O.y) (P1.x - O.x)) (2 * Real.pi)
            let theta2 := pyMod (atan2 (P2.y - O.y) (P2.x - O.x)) (2 * Real.pi)
            return .arc (← mkArc O (distance_ O P1) (min theta1 theta2) (max theta1 theta2) false)
          else return .circle (← mkCircle O (distance_ O P1))
      | _, _ => .error (.valueError "`B` is not a point.")

/-- geometry.py 494-527 `Circle.orthogonal_through_two_points_on_circle`.  `cos(dalpha/2)` is nonzero when
`dalpha % pi != 0`. -/
def orthogonal_through_two_points_on_circle (c : Circle) (alpha1 alpha2 : ℝ) (arc : Bool := false) : Res OrthRes :=
  let I := c.center
  let r := c.radius
  let dalpha := alpha1 - alpha2
  if pyMod dalpha Real.pi = 0 then
    let eialpha1 := unit_vector_ alpha1
    let A := I + r • eialpha1
    let B := I - r • eialpha1
    do return .line (← mkLine A B (!arc) (!arc))
  else
    let r0 := r * |Real.tan (dalpha / 2)|
    let IO := r / Real.cos (dalpha / 2)
    let center := I + IO • unit_vector_ ((alpha1 + alpha2) / 2)
    if arc = true then
      let dalpha := pyMod (alpha2 - alpha1) (2 * Real.pi)
      let delta := if dalpha ≥ Real.pi then Real.pi else 0
      let beta1 := -Real.pi / 2 + delta
      let beta2 := beta1 - Real.pi + dalpha
      let theta1 := beta1 + alpha1
      let theta2 := beta2 + alpha1
      do return .arc (← mkArc center r0 (min theta1 theta2) (max theta1 theta2) false)
    else do return .circle (← mkCircle center r0)

/-- geometry.py 529-539 `Circle.power`. -/
def power (c : Circle) (M : Pt) : ℝ := dot1_ (M - c.center) - c.radius * c.radius

/-- geometry.py 541-559 `Circle.radical_center`; for equal centers the code returns the array `[inf, inf]`,
modelled by the pseudo error `nonFinite`. -/
def radical_center (c circ2 : Circle) : Res Pt :=
  let C1 := c.center
  let C2 := circ2.center
  let r1 := c.radius
  let r2 := circ2.radius
  let k := r1 * r1 - r2 * r2
  let C1_C2 := C2 - C1
  let C1C2sqr := dot1_ C1_C2
  if C1C2sqr = 0 then .error .nonFinite
  else .ok ((C1 + C2) / (2 : ℝ) + ((k / 2) • C1_C2) / C1C2sqr)

/-- geometry.py 561-578 `Circle.radical_axis`; `none` is Python's `None`. -/
def radical_axis (c circ2 : Circle) : Res (Option Line) :=
  let C1 := c.center
  let C2 := circ2.center
  if allclose C1 C2 then .ok none
  else
    let d := C2 - C1
    let v : Pt := ⟨-d.y, d.x⟩
    do
      let R ← c.radical_center circ2
      return some (← mkLine R (R + v) true true)

/-- geometry.py 607-620 `Circle.is_orthogonal`. -/
def is_orthogonal (c circ2 : Circle) : Prop :=
  approx_equal_ (dot1_ (c.center - circ2.center)) (c.radius * c.radius + circ2.radius * circ2.radius)

/-- geometry.py 622-644 `Circle.angle`; `none` is Python's `None`. -/
def angle (c circ2 : Circle) : Res (Option ℝ) :=
  let center1 := c.center
  let center2 := circ2.center
  let r1 := c.radius
  let r2 := circ2.radius
  let d2 := dot1_ (center1 - center2)
  if d2 > (r1 + r2) ^ 2 + sepsilon_ ∨ d2 < (r1 - r2) ^ 2 - sepsilon_ then .ok none
  else
    let b1 := 1 / r1
    let b2 := 1 / r2
    let a1 := b1 • center1
    let a2 := b2 • center2
    let bprime1 := r1 * (dot1_ a1 - 1)
    let bprime2 := r2 * (dot1_ a2 - 1)
    let cos_theta := b1 * bprime2 / 2 + b2 * bprime1 / 2 - dot_ a1 a2
    do return some (← pyAcos cos_theta)

/-- geometry.py 580-587 `Circle.as_ellipse`. -/
def as_ellipse (c : Circle) : Res Ellipse := mkEllipse c.center c.radius c.radius 0

end Circle

/-- geometry.py 646-659 `circleAB`. -/
def circleAB (A B : Pt) : Res Circle :=
  if allclose A B then .error (.valueError "`A` and `B` are not distinct.")
  else mkCircle ((A + B) / (2 : ℝ)) (distance_ A B / 2)

/-- geometry.py 661-674 `circleOA`. -/
def circleOA (O A : Pt) : Res Circle :=
  if allclose O A then .error (.valueError "`O` and `A` are not distinct.")
  else mkCircle O (distance_ O A)

/-- geometry.py 677-694 `radical_center` of three circles.  `l1.A` on `None` raises `AttributeError`. -/
def radical_center (circ1 circ2 circ3 : Circle) : Res (Option Pt) := do
  let l1 ← circ1.radical_axis circ2
  let l2 ← circ1.radical_axis circ3
  match l1, l2 with
  | some l1, some l2 => return line_line_intersection_ l1.A l1.B l2.A l2.B
  | _, _ => .error .attributeError

/-- Result of `mid_circles`: one object or a list of two. -/
inductive MidRes where
  | single (g : GCircle)
  | pair (g h : GCircle)

/-- geometry.py 697-763 `mid_circles`. -/
def mid_circles (circ1 circ2 : Circle) : Res MidRes :=
  let r1 := circ1.radius
  let r2 := circ2.radius
  let O1 := circ1.center
  let O2 := circ2.center
  if r1 = r2 then
    if allclose O1 O2 then .ok (.single (.circle circ1))
    else
      let d2 := dot1_ (O1 - O2)
      let sumRadii2 := (r1 + r2) ^ 2
      let I := (O1 + O2) / (2 : ℝ)
      let d := O2 - O1
      let v : Pt := ⟨d.y, -d.x⟩
      do
        let line ← mkLine (I + v) (I - v)
        if d2 < sumRadii2 then
          let c ← mkCircle I (Real.sqrt |dot1_ (I - O2) - r2 * r2|)
          return .pair (.circle c) (.line line)
        else return .single (.line line)
  else
    let d2 := dot1_ (O1 - O2)
    let sumRadii2 := (r1 + r2) ^ 2
    let rho := r1 / r2
    let Iext := O1 - (rho / (1 - rho)) • (O2 - O1)
    let kext := rho * |dot1_ (Iext - O2) - r2 * r2|
    let Iint := O1 + (rho / (1 + rho)) • (O2 - O1)
    let kint := rho * |dot1_ (Iint - O2) - r2 * r2|
    if d2 > sumRadii2 + sepsilon_ then do
      return .single (.circle (← mkCircle Iext (Real.sqrt kext)))
    else if d2 < (r1 - r2) ^ 2 - sepsilon_ then do
      return .single (.circle (← mkCircle Iint (Real.sqrt kint)))
    else if sumRadii2 - d2 < sepsilon_ then do
      return .single (.circle (← mkCircle Iext (Real.sqrt kext)))
    else if d2 - (r1 - r2) ^ 2 < sepsilon_ then do
      return .single (.circle (← mkCircle Iint (Real.sqrt kint)))
    else do
      let c1 ← mkCircle Iext (Real.sqrt kext)
      let c2 ← mkCircle Iint (Real.sqrt kint)
      return .pair (.circle c1) (.circle c2)

/-- geometry.py 766-785 `intersection_circle_line`. -/
def intersection_circle_line (circ : Circle) (line : Line) : PtRes :=
  let C := circ.center
  match circle_line_intersection_ (line.A - C) (line.B - C) circ.radius with
  | .none => .none
  | .one I => .one (I + C)
  | .two I1 I2 => .two (I1 + C) (I2 + C)

/-- Result of `intersection_circle_circle`. -/
inductive CCRes where
  | circle (c : Circle)
  | none
  | one (P : Pt)
  | two (P Q : Pt)

/-- geometry.py 787-821 `intersection_circle_circle`.  For `lsquared = 0` numpy's division gives `inf` or `-inf`, which
`max(min(., 1), -1)` clamps to `1` or `-1` (`0/0` is excluded: equal radii and centers are `is_equal`). -/
def intersection_circle_circle (circ1 circ2 : Circle) : Res CCRes :=
  if circ1.is_equal circ2 then .ok (.circle circ1)
  else
    let r1 := circ1.radius
    let r2 := circ2.radius
    let center1 := circ1.center
    let center2 := circ2.center
    let d2 := dot1_ (center1 - center2)
    let sumRadii2 := (r1 + r2) ^ 2
    if d2 > sumRadii2 + sepsilon_ ∨ d2 < (r1 - r2) ^ 2 - sepsilon_ then .ok .none
    else
      let touch := sumRadii2 - d2 < sepsilon_ ∨ d2 - (r1 - r2) ^ 2 < sepsilon_
      let d := center1 - center2
      let x := d.x
      let y := d.y
      let lsquared := x * x + y * y
      let num := r2 * r2 - r1 * r1 - lsquared
      let cosine :=
        if lsquared = 0 then (if num < 0 then -1 else 1)
        else max (min (num / (r1 * Real.sqrt (4 * lsquared))) 1) (-1)
      do
        let ac ← pyAcos cosine
        let atg2 := atan2 y x
        let theta := atg2 + ac
        let P1 := center1 + r1 • unit_vector_ theta
        if touch then return .one P1
        else
          let theta := atg2 - ac
          return .two P1 (center1 + r1 • unit_vector_ theta)

namespace Inversion

/-- geometry.py 1591-1649 `Inversion.from_swapping_two_circles`; `none` is Python's `None` (touching congruent
circles, unfinished code). -/
def from_swapping_two_circles (circ1 circ2 : Circle) (positive : Bool := true) : Option Inversion :=
  let c1 := circ1.center
  let r1 := circ1.radius
  let c2 := circ2.center
  let r2 := circ2.radius
  let c1c2 := distance_ c1 c2
  if r1 = r2 then
    let I := (c1 + c2) / (2 : ℝ)
    if c1c2 < r1 + r2 then some ⟨I, |dot1_ (I - c2) - r2 * r2|⟩
    else if c1c2 > r1 + r2 then some ⟨I, -|dot1_ (I - c2) - r2 * r2|⟩
    else none
  else
    let inside := max r1 r2 ≥ c1c2 + min r1 r2
    let inside_tangent := inside ∧ max r1 r2 = c1c2 + min r1 r2
    let positive' : Prop :=
      positive = true ∨ ((¬ inside ∨ inside_tangent) ∧ c1c2 ≤ r1 + r2)
    let a := r1 / r2
    if positive' then
      if inside then
        let O := c1 + (a / (1 + a)) • (c2 - c1)
        some ⟨O, a * |dot1_ (O - c2) - r2 * r2|⟩
      else
        let O := c1 - (a / (1 - a)) • (c2 - c1)
        some ⟨O, a * |dot1_ (O - c2) - r2 * r2|⟩
    else if inside then
      let O := c1 - (a / (1 - a)) • (c2 - c1)
      some ⟨O, -a * |dot1_ (O - c2) - r2 * r2|⟩
    else
      let O := c1 + (a / (1 + a)) • (c2 - c1)
      some ⟨O, -a * |dot1_ (O - c2) - r2 * r2|⟩

/-- geometry.py 1651-1665 `Inversion.from_fixing_two_circles`.  For equal centers the pole is the array `[inf, inf]`
(pseudo error `nonFinite`). -/
def from_fixing_two_circles (circ1 circ2 : Circle) : Res Inversion := do
  let O ← circ1.radical_center circ2
  return ⟨O, circ1.power O⟩

/-- geometry.py 1667-1684 `Inversion.from_fixing_three_circles`.  `circ1.power(None)` raises `ValueError`. -/
def from_fixing_three_circles (circ1 circ2 circ3 : Circle) : Res Inversion := do
  match ← _root_.radical_center circ1 circ2 circ3 with
  | none => .error (.valueError "`M` is not a point.")
  | some Rc => return ⟨Rc, circ1.power Rc⟩

end Inversion

/-- geometry.py 1688-1701 `SteinerChain_phi0_`: the chain for `phi = 0`.  The circles of the chain, then the inner
circle. -/
def SteinerChain_phi0_ (c0 : Circle) (n : ℕ) (shift : ℝ) : Res (List Circle) :=
  let R := c0.radius
  let O := c0.center
  let pi_over_n := Real.pi / n
  let sine := Real.sin pi_over_n
  let Cradius := R / (1 + sine)
  let Cside := Cradius * sine
  do
    let chain ← (List.range n).mapM fun (i : ℕ) =>
      let beta := ((i : ℝ) + shift) * 2 * pi_over_n
      let pti := Cradius • unit_vector_ beta + O
      mkCircle pti Cside
    let inner ← mkCircle O (R - 2 * Cside)
    return chain ++ [inner]

/-- The dictionary returned by `SteinerChain`; the elements of `circles` are objects returned by
`Inversion.invert_circle`. -/
structure SteinerRes where
  circles : List GCircle
  ellipse : Ellipse

/-- geometry.py 1703-1731 `SteinerChain`.  `inner.center` on a `Line` raises `AttributeError`. -/
def SteinerChain (c0 : Circle) (n : ℕ) (phi shift : ℝ) : Res SteinerRes :=
  if n = 0 then .error (.valueError "`n` is not positive.")
  else do
    let circles0 ← SteinerChain_phi0_ c0 n shift
    let R := c0.radius
    let O := c0.center
    let circles ←
      if phi ≠ 0 then
        let invphi := 1 / phi
        let I : Pt := (⟨R * invphi, 0⟩ : Pt) + O
        let r2 := R * R * (invphi * invphi - 1)
        let iota : Inversion := ⟨I, r2⟩
        circles0.mapM iota.invert_circle
      else .ok (circles0.map GCircle.circle)
    match circles.getLast? with
    | some (.circle inner) =>
      let O2 := inner.center
      let r := inner.radius
      let c := (O2.x - O.x) / 2
      let a := (r + R) / 2
      let b ← pySqrt (a * a - c * c)
      let ell ← mkEllipse ((O + O2) / (2 : ℝ)) a b 0
      return ⟨circles, ell⟩
    | _ => .error .attributeError

end
