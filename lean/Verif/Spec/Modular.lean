import Verif.Spec.Gasket
import Verif.Spec.Mobius
import Mathlib.Analysis.SpecialFunctions.Trigonometric.Basic
import Mathlib.LinearAlgebra.Matrix.Determinant.Basic

/-! The modular group, rotations around a fixed point of order three, and images of discs.  Nothing in this file models code. -/

namespace Spec
noncomputable section
open Real

/-- The disc bounded by `c'` is the image of the disc bounded by `c` by the homography of matrix `A`. -/
def IsDiscImage (A : Matrix (Fin 2) (Fin 2) ℂ) (c c' : Circle) : Prop :=
  0 < c'.radius ∧ ∀ P Q, IsMobImage (A 0 0) (A 0 1) (A 1 0) (A 1 1) P Q →
    (P ∈ (disc c).inside ↔ Q ∈ (disc c').inside) ∧ (P ∈ (disc c).edge ↔ Q ∈ (disc c').edge)

/-- The rotation of the half-plane which is `z ↦ -1/(z+1)` for `u = 1`. -/
def modularRot (u : ℝ) : Matrix (Fin 2) (Fin 2) ℝ :=
  (1 / sin (π / 3)) • !![sin ((1 - u) * (π / 3)), -sin (u * (π / 3)); sin (u * (π / 3)), sin ((1 + u) * (π / 3))]

/-- An element of the modular group, then the rotation, then the map `z ↦ (i z + 1) / (z + i)` from the upper half-plane to the unit disc. -/
def modularMap (u : ℝ) (g : Matrix (Fin 2) (Fin 2) ℤ) : Matrix (Fin 2) (Fin 2) ℂ :=
  !![Complex.I, 1; 1, Complex.I] * (modularRot u).map (fun x => (x : ℂ)) * g.map (fun k => (k : ℂ))

/-- The circle of the figure to be moved: its diameter goes from `i` to `2 i`. -/
def modularSeed : Circle := ⟨⟨0, 3 / 2⟩, 1 / 2⟩

/-- The elements of the modular group with entries at most `n`. -/
def ModularUpTo (n : ℤ) (g : Matrix (Fin 2) (Fin 2) ℤ) : Prop := Matrix.det g = 1 ∧ ∀ i j, |g i j| ≤ n

end
end Spec
