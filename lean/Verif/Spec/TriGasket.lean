import Verif.Spec.Gasket

/-! Packings of a triangle by discs. -/

namespace Spec
noncomputable section

/-- The points of a circle. -/
def circleSet (c : Circle) : Set Pt := {P | OnCircle c.center c.radius P}

/-- The points of a line. -/
def lineSet (A B : Pt) : Set Pt := {P | OnLine A B P}

/-- The curves on which the circles of a gasket of the triangle `ABC` can lean: its sides and the circles of the list. -/
def walls (A B C : Pt) (L : List Circle) : Set (Set Pt) := {S | S = lineSet A B ∨ S = lineSet B C ∨ S = lineSet C A ∨ ∃ d ∈ L, S = circleSet d}

/-- The circle touches three of the curves, at three different points. -/
def Leans (c : Circle) (W : Set (Set Pt)) : Prop :=
  ∃ S₁ ∈ W, ∃ S₂ ∈ W, ∃ S₃ ∈ W, ∃ P₁ P₂ P₃, P₁ ≠ P₂ ∧ P₁ ≠ P₃ ∧ P₂ ≠ P₃ ∧ circleSet c ∩ S₁ = {P₁} ∧ circleSet c ∩ S₂ = {P₂} ∧ circleSet c ∩ S₃ = {P₃}

end
end Spec
