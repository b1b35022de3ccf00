import Verif.Spec.Plane
import Mathlib.Algebra.BigOperators.Fin

/-!
# Four points in convex position
-/

namespace Spec

/-- Four points are in convex position if none of them is a convex combination of the three others. -/
def ConvexPosition (P : Fin 4 → Pt) : Prop :=
  ∀ i, ¬ ∃ w : Fin 4 → ℝ, (∀ j, 0 ≤ w j) ∧ w i = 0 ∧ ∑ j, w j = 1 ∧ P i = ⟨∑ j, w j * (P j).x, ∑ j, w j * (P j).y⟩

end Spec
