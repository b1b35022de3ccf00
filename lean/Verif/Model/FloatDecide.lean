import Verif.Model.FloatGeom
import Verif.Model.Basic

/-!
# Decisions and intersections in double precision

As in `Verif/Model/FloatGeom.lean`, every operation is rounded by `fl`, and `np.vdot` may use a fused operation.
-/

open Classical
noncomputable section

/-- internal.py 89-90 `det2x2_` in double precision, of the rows `(a, b)` and `(c, d)`. -/
def det2x2F (a b c d : ℝ) : ℝ := fl (fl (a * d) - fl (c * b))

/-- internal.py 95-108 `line_line_intersection_` in double precision. -/
def line_line_intersectionF (P1 P2 Q1 Q2 : Pt) : Option Pt :=
  let dx1 := fl (P1.x - P2.x)
  let dx2 := fl (Q1.x - Q2.x)
  let dy1 := fl (P1.y - P2.y)
  let dy2 := fl (Q1.y - Q2.y)
  let D := det2x2F dx1 dy1 dx2 dy2
  if D = 0 then none
  else
    let D1 := det2x2F P1.x P1.y P2.x P2.y
    let D2 := det2x2F Q1.x Q1.y Q2.x Q2.y
    some ⟨fl (det2x2F D1 dx1 D2 dx2 / D), fl (det2x2F D1 dy1 D2 dy2 / D)⟩

/-- geometry.py 135-153 `Line.is_parallel` in double precision. -/
def Line.is_parallelF (l1 l2 : Line) : Prop :=
  |det2x2F (fl (l1.A.x - l1.B.x)) (fl (l1.A.y - l1.B.y)) (fl (l2.A.x - l2.B.x)) (fl (l2.A.y - l2.B.y))| < 1 / 2 ^ 26

/-- geometry.py 155-166 `Line.is_perpendicular` in double precision. -/
def Line.is_perpendicularF (k : Fma) (l1 l2 : Line) : Prop := approx_equalF (vdotF k (subF l1.B l1.A) (subF l2.B l2.A)) 0

/-- internal.py 110-133 `circle_line_intersection_` in double precision. -/
def circle_line_intersectionF (A1 A2 : Pt) (r : ℝ) : PtRes :=
  let dx := fl (A2.x - A1.x)
  let dy := fl (A2.y - A1.y)
  let dr2 := fl (fl (dx * dx) + fl (dy * dy))
  let D := det2x2F A1.x A1.y A2.x A2.y
  let Delta := fl (fl (fl (r * r) * dr2) - fl (D * D))
  if Delta < 0 then .none
  else if Delta < 1 / 2 ^ 26 then .one ⟨fl (fl (D / dr2) * dy), fl (fl (D / dr2) * -dx)⟩
  else
    let sgn : ℝ := if dy < 0 then -1 else 1
    let Ddy := fl (D * dy)
    let sqrtDelta := fl (Real.sqrt Delta)
    .two
      ⟨fl (fl (Ddy + fl (sgn * dx * sqrtDelta)) / dr2), fl (fl (fl (-D * dx) + fl (|dy| * sqrtDelta)) / dr2)⟩
      ⟨fl (fl (Ddy - fl (sgn * dx * sqrtDelta)) / dr2), fl (fl (fl (-D * dx) - fl (|dy| * sqrtDelta)) / dr2)⟩

/-- The sum of two arrays of length two. -/
def addF (P Q : Pt) : Pt := ⟨fl (P.x + Q.x), fl (P.y + Q.y)⟩

/-- geometry.py 766-785 `intersection_circle_line` in double precision. -/
def intersection_circle_lineF (circ : Circle) (line : Line) : PtRes :=
  match circle_line_intersectionF (subF line.A circ.center) (subF line.B circ.center) circ.radius with
  | .none => .none
  | .one I => .one (addF I circ.center)
  | .two I1 I2 => .two (addF I1 circ.center) (addF I2 circ.center)

/-- geometry.py 376-388 `Circle.is_equal` in double precision. -/
def Circle.is_equalF (c1 c2 : Circle) : Prop := approx_equalF c1.radius c2.radius ∧ allclose64 c1.center c2.center

/-- The kinds of answers of `intersection_circle_circle`: a circle, `None`, a point, a list of two points. -/
inductive CCKind where
  | circle
  | none
  | one
  | two

/-- geometry.py 799-821 `intersection_circle_circle` in double precision, the kind of answer only: lines 811-821, which compute the
points, are not modelled. -/
def ccKindF (k : Fma) (c1 c2 : Circle) : CCKind :=
  if c1.is_equalF c2 then .circle
  else
    let d2 := vdotF k (subF c1.center c2.center) (subF c1.center c2.center)
    let sum := fl (c1.radius + c2.radius)
    let sumRadii2 := fl (sum * sum)
    let diff := fl (c1.radius - c2.radius)
    let diff2 := fl (diff * diff)
    if d2 > fl (sumRadii2 + 1 / 2 ^ 26) ∨ d2 < fl (diff2 - 1 / 2 ^ 26) then .none
    else if fl (sumRadii2 - d2) < 1 / 2 ^ 26 ∨ fl (d2 - diff2) < 1 / 2 ^ 26 then .one
    else .two

/-- geometry.py 607-620 `Circle.is_orthogonal` in double precision. -/
def Circle.is_orthogonalF (k : Fma) (c1 c2 : Circle) : Prop :=
  approx_equalF (vdotF k (subF c1.center c2.center) (subF c1.center c2.center))
    (fl (fl (c1.radius * c1.radius) + fl (c2.radius * c2.radius)))

/-- geometry.py 1816-1828 `Triangle.contains` in double precision; for a zero area the answer is `False`, as in
`Verif/Model/Triangle.lean`. -/
def Triangle.containsF (T : Triangle) (M : Pt) : Prop :=
  let A0 := T.A.x
  let A1 := T.A.y
  let B0 := T.B.x
  let B1 := T.B.y
  let C0 := T.C.x
  let C1 := T.C.y
  let dsArea := fl (fl (fl (fl (-B1 * C0) + fl (A1 * fl (-B0 + C0))) + fl (A0 * fl (B1 - C1))) + fl (B0 * C1))
  if dsArea = 0 then False
  else
    let s := fl (fl (fl (fl (fl (A1 * C0) - fl (A0 * C1)) + fl (fl (C1 - A1) * M.x)) + fl (fl (A0 - C0) * M.y)) / dsArea)
    let t := fl (fl (fl (fl (fl (A0 * B1) - fl (A1 * B0)) + fl (fl (A1 - B1) * M.x)) + fl (fl (B0 - A0) * M.y)) / dsArea)
    s > 0 ∧ t > 0 ∧ fl (fl (1 - s) - t) > 0

/-- geometry.py 1831-1838 `Triangle.is_acute` in double precision; the lengths are those of lines 1778-1797. -/
def Triangle.is_acuteF (k : Fma) (T : Triangle) : Prop :=
  match [distanceF k T.B T.C, distanceF k T.A T.C, distanceF k T.A T.B].mergeSort (fun x y => decide (x ≤ y)) with
  | [edge0, edge1, edge2] => fl (fl (edge0 * edge0) + fl (edge1 * edge1)) ≥ fl (edge2 * edge2)
  | _ => False

end
