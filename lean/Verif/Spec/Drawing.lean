import Verif.Spec.Plane

/-!
# Polygons drawn on the screen
-/

namespace Spec

/-- The points of the polygonal line through the points of the list. -/
def polyline (L : List Pt) : Set Pt := {X | ∃ (i : ℕ) (P Q : Pt), L[i]? = some P ∧ L[i + 1]? = some Q ∧ OnSegment P Q X}

/-- The points of the closed polygon with the vertices in the list. -/
def polygon (L : List Pt) : Set Pt := {X | ∃ (i : ℕ) (P Q : Pt), L[i]? = some P ∧ L[(i + 1) % L.length]? = some Q ∧ OnSegment P Q X}

/-- Every point of one set is within `ε` of a point of the other one. -/
def Within (ε : ℝ) (S T : Set Pt) : Prop := (∀ X ∈ S, ∃ Y ∈ T, dist X Y ≤ ε) ∧ ∀ Y ∈ T, ∃ X ∈ S, dist X Y ≤ ε

/-- Twice the signed area enclosed by the closed polygon with vertices `p 0, …, p (n-1)`. -/
noncomputable def twiceArea (n : ℕ) (p : ℕ → Pt) : ℝ := ∑ i ∈ Finset.range n, ((p i).x * (p ((i + 1) % n)).y - (p i).y * (p ((i + 1) % n)).x)

end Spec
