import Verif.Spec.Plane

/-!
# Specification vocabulary: billiards in the ellipse `x²/a² + y²/b² = 1`
-/

namespace Spec
noncomputable section

/-- The ellipse with center the origin and axes along the coordinate axes. -/
def OnTable (a b : ℝ) (P : Pt) : Prop := P.x ^ 2 / a ^ 2 + P.y ^ 2 / b ^ 2 = 1

/-- The gradient of `x²/a² + y²/b²` at `Q`: a normal vector of the ellipse at its point `Q`. -/
def gradient (a b : ℝ) (Q : Pt) : Pt := ⟨Q.x / a ^ 2, Q.y / b ^ 2⟩

/-- A ball going from `P` to `Q` and then from `Q` to `R` obeys the law of reflection at the point `Q` of the ellipse: the
unit vectors of its two directions have the same component along the tangent and opposite components along the normal. -/
def Bounces (a b : ℝ) (P Q R : Pt) : Prop :=
  dist Q R * dot (gradient a b Q) (Q - P) = -(dist P Q * dot (gradient a b Q) (R - Q)) ∧
  dist Q R * cross (gradient a b Q) (Q - P) = dist P Q * cross (gradient a b Q) (R - Q)

/-- The segments `segs` (pairs of end points, in any order) continue the billiard path that comes to `Q` from `P`. -/
def ContinuesPath (a b : ℝ) : Pt → Pt → List (Pt × Pt) → Prop
  | _, _, [] => True
  | P, Q, s :: segs => ∃ R, OnTable a b R ∧ R ≠ Q ∧ (s = (Q, R) ∨ s = (R, Q)) ∧ Bounces a b P Q R ∧ ContinuesPath a b Q R segs

/-- The line `AB` touches the conic `x²/(a²-λ) + y²/(b²-λ) = 1`, which has the same foci as the ellipse, in the sense of
the dual equation: for the line `ux + wy = c` it is `(a²-λ)u² + (b²-λ)w² = c²`. -/
def TouchesConfocal (a b lam : ℝ) (A B : Pt) : Prop :=
  (a ^ 2 - lam) * (A.y - B.y) ^ 2 + (b ^ 2 - lam) * (B.x - A.x) ^ 2 = (cross A B) ^ 2

end
end Spec
