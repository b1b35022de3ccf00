import Verif.Model.FloatDecide
import Verif.Model.Line

/-!
# Methods of `Line` and `Reflection` in double precision

As in `Verif/Model/FloatGeom.lean`: every operation is rounded by `fl`, `np.vdot` may use a fused operation, printing is dropped, arguments are already validated.
-/

open Classical
noncomputable section

/-- geometry.py 60-68 `Line.__init__` in double precision: the two points must not be `np.allclose`. -/
def mkLineF (A B : Pt) (extendA extendB : Bool) : Res Line :=
  if allclose64 A B then .error (.valueError "`A` and `B` must be distinct.") else .ok ⟨A, B, extendA, extendB⟩

/-- geometry.py 216-217 and 239-240: the vector `(-y, x)` for `(x, y) = B - A`. -/
def Line.normalF (l : Line) : Pt := ⟨-fl (l.B.y - l.A.y), fl (l.B.x - l.A.x)⟩

/-- geometry.py 169-205 `Line.includes` in double precision. -/
def Line.includesF (k : Fma) (l : Line) (M : Pt) (strict : Bool := false) (checkCollinear : Bool := true) : Res Bool := do
  if checkCollinear = true then
    if ¬ (← collinear64 l.A l.B M) then return false
  if strict = false ∨ (l.extendA = true ∧ l.extendB = true) then return decide (← collinear64 l.A l.B M)
  if l.extendA = false ∧ l.extendB = false then
    return decide (vdotF k (subF l.A M) (subF l.B M) ≤ 0)
  if l.extendA = true then
    return decide (fl ((subF M l.B).x * (subF l.A l.B).x) > 0 ∨ fl ((subF M l.B).y * (subF l.A l.B).y) > 0)
  return decide (fl ((subF M l.A).x * (subF l.B l.A).x) > 0 ∨ fl ((subF M l.A).y * (subF l.B l.A).y) > 0)

/-- geometry.py 207-227 `Line.perpendicular` in double precision; `Line(None, M)` raises. -/
def Line.perpendicularF (k : Fma) (l : Line) (M : Pt) (extendH : Bool := false) (extendM : Bool := true) : Res Line := do
  let v := l.normalF
  if (← l.includesF k M) = true then mkLineF M (addF M v) true true
  else
    match line_line_intersectionF l.A l.B (subF M v) (addF M v) with
    | none => .error (.valueError "`A` is not a point.")
    | some H => mkLineF H M extendH extendM

/-- geometry.py 229-241 `Line.projection` in double precision. -/
def Line.projectionF (l : Line) (M : Pt) : Option Pt := line_line_intersectionF l.A l.B M (addF M l.normalF)

/-- geometry.py 243-252 `Line.distance` in double precision; `distance_(M, None)` raises. -/
def Line.distanceF (k : Fma) (l : Line) (M : Pt) : Res ℝ :=
  match l.projectionF M with
  | none => .error .typeError
  | some P => .ok (_root_.distanceF k M P)

/-- geometry.py 2704-2719 `Reflection.transform` in double precision, on a finite point. -/
def Reflection.transformF (k : Fma) (R : Reflection) (P : Pt) : Res Pt := do
  if (← R.line.includesF k P) = true then return P
  let perp ← R.line.perpendicularF k P false false
  let d := subF perp.A perp.B
  return addF P ⟨fl (2 * d.x), fl (2 * d.y)⟩

/-- geometry.py 254-263 `Line.reflection` in double precision. -/
def Line.reflectionF (k : Fma) (l : Line) (M : Pt) : Res Pt := do
  let l' ← mkLineF l.A l.B true true
  Reflection.transformF k ⟨l'⟩ M

end
