import Verif.Spec.Plane

/-! Circles touching three given circles. -/

namespace Spec

/-- Two circles with exactly one common point. -/
def MeetOnce (O₁ : Pt) (r₁ : ℝ) (O₂ : Pt) (r₂ : ℝ) : Prop := ∃! X, OnCircle O₁ r₁ X ∧ OnCircle O₂ r₂ X

/-- A circle touches three circles from outside, or it touches each of them with one of the two discs inside the other. -/
def TouchAlike (O : Pt) (r : ℝ) (O₁ : Pt) (r₁ : ℝ) (O₂ : Pt) (r₂ : ℝ) (O₃ : Pt) (r₃ : ℝ) : Prop :=
  (ExtTangent O r O₁ r₁ ∧ ExtTangent O r O₂ r₂ ∧ ExtTangent O r O₃ r₃) ∨
  (dist O O₁ = |r - r₁| ∧ dist O O₂ = |r - r₂| ∧ dist O O₃ = |r - r₃|)

end Spec
