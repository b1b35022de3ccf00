import Verif.Model.Circle
import Verif.Model.Inversion

/-!
# Model of examples/Circles_simultaneously_tangent.py

The three circles and the angle of the auxiliary point are parameters; the script has `C1 = Circle((0,0), 2)`, `C2 = Circle((5,5), 3)`,
`C3 = Circle((6,-2), 1)` and the angle 0.
-/

open Classical
noncomputable section

namespace ThreeTangent

/-- geometry.py 1742-1748 `Triangle.__init__` with a point and two results of `invert`, which may be `inf`. -/
def mkTriangleX (A : Pt) (B C : XPt) : Res Triangle :=
  match B, C with
  | .fin B, .fin C => .ok ⟨A, B, C⟩
  | .inf, _ => .error (.valueError "`B` is not a point.")
  | .fin _, .inf => .error (.valueError "`C` is not a point.")

/-- examples/Circles_simultaneously_tangent.py 23-26, 39-42 and 44-47: the circle through a point and its images by the two inversions.  `None`
(flat triangle) has no attribute `radical_axis` (line 30) nor `center` (line 53). -/
def through (iota1 iota2 : Inversion) (M : Pt) : Res Circle := do
  let M1 := iota1.invert (.fin M)
  let M2 := iota2.invert (.fin M)
  let T ← mkTriangleX M M1 M2
  match ← T.circumcircle with
  | some C => return C
  | none => .error .attributeError

/-- geometry.py 646-659 `circleAB` with the result of `intersection_line_line`, which may be `None`. -/
def circleABO (A : Option Pt) (B : Pt) : Res Circle :=
  match A with
  | some A => circleAB A B
  | none => .error (.valueError "`A` is not a point.")

/-- examples/Circles_simultaneously_tangent.py 37 `T0, T1 = intersection_circle_circle(C3, Cp)`, used in line 39: `None` and a circle cannot be
unpacked; a single point is unpacked to its two coordinates, which `iota1.invert` rejects. -/
def unpackTwo : CCRes → Res (Pt × Pt)
  | .two T0 T1 => .ok (T0, T1)
  | .one _ => .error (.valueError "`M` is not a point.")
  | .none => .error .typeError
  | .circle _ => .error .typeError

/-- examples/Circles_simultaneously_tangent.py 17-47; `from_swapping_two_circles` may return `None`, which has no method `invert`, and
`radical_axis` may return `None`, which has no method `is_equal`. -/
def script (C1 C2 C3 : Circle) (alpha : ℝ) : Res (Circle × Circle) := do
  match Inversion.from_swapping_two_circles C1 C3 true, Inversion.from_swapping_two_circles C2 C3 true with
  | some iota1, some iota2 =>
    let M := C3.point_from_angle alpha
    let C ← through iota1 iota2 M
    let cl ← mkLine iota1.pole iota2.pole
    match ← C.radical_axis C3 with
    | none => .error .attributeError
    | some L =>
      let H := Line.intersection_line_line L cl
      let O3 := C3.center
      let Cp ← circleABO H O3
      let (T0, T1) ← unpackTwo (← intersection_circle_circle C3 Cp)
      let Csolution0 ← through iota1 iota2 T0
      let Csolution1 ← through iota1 iota2 T1
      return (Csolution0, Csolution1)
  | _, _ => .error .attributeError

end ThreeTangent
