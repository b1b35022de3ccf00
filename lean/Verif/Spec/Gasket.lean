import Verif.Spec.Plane
import Verif.Model.Objects

/-! Regions of the plane with the point at infinity, and packings.  Nothing in this file models code; `XPt` is the plane with the point at
infinity and `Circle` a pair of a center and a radius. -/

namespace Spec
noncomputable section
open Classical

/-- The inversion of pole `O` and power `k` on the plane with the point at infinity. -/
def xinv (O : Pt) (k : ℝ) : XPt → XPt
  | .inf => .fin O
  | .fin P => if P = O then .inf else .fin (O + (k / sqDist P O) • (P - O))

/-- A region: its interior and its edge. -/
@[ext] structure Region where
  inside : Set XPt
  edge : Set XPt

/-- The disc bounded by a circle. -/
def disc (c : Circle) : Region :=
  ⟨{X | ∃ P, X = .fin P ∧ sqDist P c.center < c.radius ^ 2}, {X | ∃ P, X = .fin P ∧ sqDist P c.center = c.radius ^ 2}⟩

/-- The outside of a circle. -/
def outside (c : Circle) : Region :=
  ⟨{X | X = .inf ∨ ∃ P, X = .fin P ∧ c.radius ^ 2 < sqDist P c.center}, {X | ∃ P, X = .fin P ∧ sqDist P c.center = c.radius ^ 2}⟩

/-- The image of a region. -/
def Region.image (f : XPt → XPt) (A : Region) : Region := ⟨f '' A.inside, f '' A.edge⟩

/-- The interiors have no common point. -/
def Region.Apart (A B : Region) : Prop := Disjoint A.inside B.inside

/-- The edges have exactly one common point. -/
def Region.Touches (A B : Region) : Prop := ∃! X, X ∈ A.edge ∧ X ∈ B.edge

/-- Three mutually tangent circles inside a fourth circle that touches them. -/
structure Soddy (c0 c1 c2 O : Circle) : Prop where
  v0 : 0 < c0.radius
  v1 : 0 < c1.radius
  v2 : 0 < c2.radius
  vO : 0 < O.radius
  t01 : sqDist c0.center c1.center = (c0.radius + c1.radius) ^ 2
  t02 : sqDist c0.center c2.center = (c0.radius + c2.radius) ^ 2
  t12 : sqDist c1.center c2.center = (c1.radius + c2.radius) ^ 2
  i0 : sqDist c0.center O.center = (O.radius - c0.radius) ^ 2
  i1 : sqDist c1.center O.center = (O.radius - c1.radius) ^ 2
  i2 : sqDist c2.center O.center = (O.radius - c2.radius) ^ 2
  l0 : c0.radius < O.radius
  l1 : c1.radius < O.radius
  l2 : c2.radius < O.radius

end
end Spec
