import Verif.Spec.Plane

/-! Contact of two circles. -/

namespace Spec

/-- Two circles touch: from outside, or one inside the other. -/
def Touch (O₁ : Pt) (r₁ : ℝ) (O₂ : Pt) (r₂ : ℝ) : Prop :=
  ExtTangent O₁ r₁ O₂ r₂ ∨ IntTangent O₁ r₁ O₂ r₂ ∨ IntTangent O₂ r₂ O₁ r₁

end Spec
