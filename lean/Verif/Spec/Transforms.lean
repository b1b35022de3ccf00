import Verif.Spec.Mobius
import Mathlib.Analysis.Complex.Exponential

/-!
# Spec: rotations, scalings, projections
-/

namespace Spec
noncomputable section

/-- `Q` is the image of `P` by the rotation of center `O` and angle `θ` (radians). -/
def IsRotated (O : Pt) (θ : ℝ) (P Q : Pt) : Prop := cpx Q - cpx O = Complex.exp (θ * Complex.I) * (cpx P - cpx O)

/-- `Q` is the image of `P` by the homothety of center `O` and ratio `s`. -/
def IsHomothetic (O : Pt) (s : ℝ) (P Q : Pt) : Prop := Q - O = s • (P - O)

/-- `Q` is the image of `P` by the scaling of center `O`: the coordinate along `w` is multiplied by `s`, the coordinate
orthogonal to `w` is unchanged. -/
def IsScaled (O w : Pt) (s : ℝ) (P Q : Pt) : Prop :=
  dot w (Q - O) = s * dot w (P - O) ∧ cross w (Q - O) = cross w (P - O)

/-- `Q` is the projection of `P` on the line `AB` parallel to the direction `u`. -/
def IsProjection (A B u P Q : Pt) : Prop := OnLine A B Q ∧ Parallel (P - Q) u

/-- The relation `R` (a map given by its graph) maps the set `S` onto the set `T`. -/
def MapsOnto (R : Pt → Pt → Prop) (S T : Pt → Prop) : Prop := ∀ Q, T Q ↔ ∃ P, S P ∧ R P Q

end
end Spec
