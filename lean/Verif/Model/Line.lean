import Verif.Model.Objects

/-!
# Model of class `Line`, geometry.py 54-353 (all methods except printing)
-/

open Classical
noncomputable section

namespace Line

/-- geometry.py 88-116 `Line.direction_offset`: the pair (direction, offset). -/
def direction_offset (l : Line) : ℝ × ℝ :=
  let A := l.A
  let B := l.B
  if A.x = B.x then
    if A.x > 0 then (0, A.x) else (Real.pi, -A.x)
  else
    let x := B.x - A.x
    let y := B.y - A.y
    let theta := -atan2 x y
    let offset := A.x * Real.cos theta + A.y * Real.sin theta
    if offset < 0 then (pyMod (theta + Real.pi) (2 * Real.pi), -offset)
    else (pyMod theta (2 * Real.pi), offset)

/-- geometry.py 118-133 `Line.is_equal` (the type check on `line2` is not needed: `line2` is a `Line`). -/
def is_equal (l line2 : Line) : Prop :=
  let do1 := l.direction_offset
  let do2 := line2.direction_offset
  if approx_equal_ do1.2 do2.2 then
    approx_equal_ (pyMod do1.1 Real.pi) (pyMod do2.1 Real.pi)
  else npClose do1.1 do2.1 ∧ npClose do1.2 do2.2

/-- geometry.py 135-153 `Line.is_parallel`. -/
def is_parallel (l line2 : Line) : Prop :=
  let dx1 := l.A.x - l.B.x
  let dx2 := line2.A.x - line2.B.x
  let dy1 := l.A.y - l.B.y
  let dy2 := line2.A.y - line2.B.y
  |det2x2_ dx1 dy1 dx2 dy2| < sepsilon_

/-- geometry.py 155-166 `Line.is_perpendicular`. -/
def is_perpendicular (l line2 : Line) : Prop :=
  approx_equal_ (dot_ (l.B - l.A) (line2.B - line2.A)) 0

/-- geometry.py 169-205 `Line.includes`.  The arguments are already validated; printing is dropped. -/
def includes (l : Line) (M : Pt) (strict : Bool := false) (checkCollinear : Bool := true) : Bool :=
  if checkCollinear = true ∧ ¬ collinear_ l.A l.B M then false
  else if strict = false ∨ (l.extendA = true ∧ l.extendB = true) then decide (collinear_ l.A l.B M)
  else if l.extendA = false ∧ l.extendB = false then
    decide (dot_ (l.A - M) (l.B - M) ≤ 0)
  else if l.extendA = true then
    decide ((M.x - l.B.x) * (l.A.x - l.B.x) > 0 ∨ (M.y - l.B.y) * (l.A.y - l.B.y) > 0)
  else
    decide ((M.x - l.A.x) * (l.B.x - l.A.x) > 0 ∨ (M.y - l.A.y) * (l.B.y - l.A.y) > 0)

/-- geometry.py 207-227 `Line.perpendicular`. -/
def perpendicular (l : Line) (M : Pt) (extendH : Bool := false) (extendM : Bool := true) : Res Line :=
  let A_B := l.B - l.A
  let v : Pt := ⟨-A_B.y, A_B.x⟩
  if l.includes M = true then mkLine M (M + v) true true
  else
    match line_line_intersection_ l.A l.B (M - v) (M + v) with
    | none => .error (.valueError "`A` is not a point.")
    | some H => mkLine H M extendH extendM

/-- geometry.py 229-241 `Line.projection` (may be `None`). -/
def projection (l : Line) (M : Pt) : Option Pt :=
  let d := l.B - l.A
  let v : Pt := ⟨-d.y, d.x⟩
  line_line_intersection_ l.A l.B M (M + v)

/-- geometry.py 243-252 `Line.distance`; `None - M` would be a `TypeError`. -/
def distance (l : Line) (M : Pt) : Res ℝ :=
  match l.projection M with
  | none => .error .typeError
  | some P => .ok (distance_ M P)

/-- geometry.py 265-289 `Line.rotate`. -/
def rotate (l : Line) (alpha : ℝ) (O : Pt) (degrees : Bool := true) : Res Line :=
  let alpha := if degrees = true then alpha * (Real.pi / 180) else alpha
  let u := unit_vector_ alpha
  let cosalpha := u.x
  let sinalpha := u.y
  let a := l.A - O
  let RAt : Pt := ⟨cosalpha * a.x - sinalpha * a.y, sinalpha * a.x + cosalpha * a.y⟩
  let b := l.B - O
  let RBt : Pt := ⟨cosalpha * b.x - sinalpha * b.y, sinalpha * b.x + cosalpha * b.y⟩
  mkLine (RAt + O) (RBt + O) l.extendA l.extendB

/-- geometry.py 291-300 `Line.translate`. -/
def translate (l : Line) (v : Pt) : Res Line :=
  mkLine (l.A + v) (l.B + v) l.extendA l.extendB

/-- geometry.py 342-353 `intersection_line_line` (also `Line.intersection_with_line`, 331-338).  The cases
"equal lines" and `strict=True` are unfinished in the code ("TO DO") and return `None`. -/
def intersection_line_line (line1 line2 : Line) (strict : Bool := false) : Option Pt :=
  if line1.is_equal line2 then none
  else if line1.is_parallel line2 then none
  else
    let I := line_line_intersection_ line1.A line1.B line2.A line2.B
    if strict = false then I else none

end Line

/-! ## Reflection, geometry.py 2658-2765 -/

/-- geometry.py 2658-2667: a `Reflection` holds a line with both extension flags set. -/
structure Reflection where
  line : Line

/-- geometry.py 2664-2667 `Reflection.__init__`. -/
def mkReflection (line : Line) : Res Reflection := do
  let l ← mkLine line.A line.B true true
  return ⟨l⟩

namespace Reflection

/-- geometry.py 2704-2719 `Reflection.transform` on a finite point (`inf` is mapped to `inf`). -/
def transformPt (R : Reflection) (P : Pt) : Res Pt :=
  if R.line.includes P = true then .ok P
  else do
    let perp ← R.line.perpendicular P false false
    return P + (2 : ℝ) • (perp.A - perp.B)

/-- geometry.py 2704-2719 `Reflection.transform`, and its alias `reflect` 2721-2725. -/
def transform (R : Reflection) (P : XPt) : Res XPt :=
  match P with
  | .inf => .ok .inf
  | .fin P => do return .fin (← R.transformPt P)

/-- geometry.py 2727-2734 `Reflection.reflect_circle` (alias `transform_circle`). -/
def reflect_circle (R : Reflection) (c : Circle) : Res Circle := do
  mkCircle (← R.transformPt c.center) c.radius

/-- geometry.py 2742-2752 `Reflection.reflect_line` (alias `transform_line`). -/
def reflect_line (R : Reflection) (l : Line) : Res Line := do
  let A ← R.transformPt l.A
  let B ← R.transformPt l.B
  mkLine A B l.extendA l.extendB

end Reflection

/-- geometry.py 254-263 `Line.reflection`. -/
def Line.reflection (l : Line) (M : Pt) : Res Pt := do
  let R ← mkReflection l
  R.transformPt M

end
