import Verif.Spec.Plane
import Verif.Model.Objects

/-! Closed chains of figures around a figure and inside another one.  Nothing in this file models code; `Circle` is a pair of a center and a radius, and
`Ellipse` has a center, two semi-axes and the angle `rad` of the first one. -/

namespace Spec
noncomputable section

/-- A figure: its points and its boundary. -/
@[ext] structure Figure (α : Type) where
  points : Set α
  edge : Set α

/-- The interior of a figure. -/
def Figure.interior {α : Type} (A : Figure α) : Set α := A.points \ A.edge

/-- The image of a figure. -/
def Figure.image {α β : Type} (f : α → β) (A : Figure α) : Figure β := ⟨f '' A.points, f '' A.edge⟩

/-- The closed disc bounded by a circle. -/
def discFig (c : Circle) : Figure Pt := ⟨{P | sqDist P c.center ≤ c.radius ^ 2}, {P | OnCircle c.center c.radius P}⟩

/-- The region bounded by an ellipse. -/
def ellFig (e : Ellipse) : Figure Pt :=
  ⟨{P | InEllipse e.center e.rmajor e.rminor e.rad P}, {P | OnEllipse e.center e.rmajor e.rminor e.rad P}⟩

/-- The ball of space that has the given circle as equator; a point of space is a point of the plane and a height. -/
def ballFig (c : Circle) : Figure (Pt × ℝ) :=
  ⟨{v | sqDist v.1 c.center + v.2 ^ 2 ≤ c.radius ^ 2}, {v | sqDist v.1 c.center + v.2 ^ 2 = c.radius ^ 2}⟩

/-- The figures number `0` to `n` are inside the outer figure and do not overlap.  The `n` first ones are a closed chain: each of them meets the next one in
exactly one point, the last figure in exactly one point, and the boundary of the outer figure in exactly one point.  There is no other contact. -/
structure ClosedChain {α : Type} (outer : Figure α) (n : ℕ) (s : ℕ → Figure α) : Prop where
  inside : ∀ j ≤ n, (s j).points ⊆ outer.points
  apart : ∀ i ≤ n, ∀ j ≤ n, i ≠ j → Disjoint (s i).interior (s j).interior
  next : ∀ i < n, ∃! P, P ∈ (s i).points ∧ P ∈ (s ((i + 1) % n)).points
  last : ∀ i < n, ∃! P, P ∈ (s i).points ∧ P ∈ (s n).points
  rim : ∀ i < n, ∃! P, P ∈ (s i).points ∧ P ∈ outer.edge
  far : ∀ i < n, ∀ j < n, i ≠ j → j ≠ (i + 1) % n → i ≠ (j + 1) % n → Disjoint (s i).points (s j).points
  free : Disjoint (s n).points outer.edge

/-- The radius of the circle number `i` in a Steiner chain of `n` circles inside a circle of radius `R`. -/
def chainRadius (R : ℝ) (n : ℕ) (phi shift : ℝ) (i : ℕ) : ℝ :=
  R * Real.sin (Real.pi / n) * (1 - phi ^ 2) /
    (1 + Real.sin (Real.pi / n) + phi ^ 2 * (1 - Real.sin (Real.pi / n)) - 2 * phi * Real.cos (((i : ℝ) + shift) * (2 * Real.pi / n)))

end
end Spec
