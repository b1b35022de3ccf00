import Verif.Model.Basic

/-!
# Spec: the complex projective line

Only the datatype `XPt` (a point or infinity) is shared with the model.
-/

namespace Spec
noncomputable section

/-- A point of the plane as a complex number. -/
def cpx (P : Pt) : ℂ := ⟨P.x, P.y⟩

/-- First homogeneous coordinate. -/
def num : XPt → ℂ
  | .fin P => cpx P
  | .inf => 1

/-- Second homogeneous coordinate. -/
def den : XPt → ℂ
  | .fin _ => 1
  | .inf => 0

/-- `Q` is the image of `P` by `z ↦ (az+b)/(cz+d)` on the plane with a point at infinity: the vectors
`(a·num P + b·den P, c·num P + d·den P)` and `(num Q, den Q)` are proportional. -/
def IsMobImage (a b c d : ℂ) (P Q : XPt) : Prop :=
  (a * num P + b * den P) * den Q = (c * num P + d * den P) * num Q

/-- `Q` is the image of `P` by the inversion, on the plane with a point at infinity. -/
def IsXInverse (O : Pt) (k : ℝ) : XPt → XPt → Prop
  | .fin P, .fin Q => IsInverse O k P Q
  | .fin P, .inf => P = O
  | .inf, .fin Q => Q = O
  | .inf, .inf => False

/-- `P` is on the circle. -/
def XOnCircle (O : Pt) (r : ℝ) : XPt → Prop
  | .fin P => OnCircle O r P
  | .inf => False

/-- `P` is on the line `AB` completed with infinity. -/
def XOnLine (A B : Pt) : XPt → Prop
  | .fin P => OnLine A B P
  | .inf => True

end
end Spec
