import Mathlib.Analysis.SpecialFunctions.Trigonometric.Basic
import Mathlib.Analysis.SpecialFunctions.Sqrt

/-!
# Specification vocabulary

Elementary plane geometry in coordinates.  Nothing in this file models code: these are the notions in which
the property theorems are stated.
-/

/-- A point (or vector) of the plane. -/
@[ext] structure Pt where
  x : ℝ
  y : ℝ

namespace Pt
noncomputable section

instance : Add Pt := ⟨fun P Q => ⟨P.x + Q.x, P.y + Q.y⟩⟩
instance : Sub Pt := ⟨fun P Q => ⟨P.x - Q.x, P.y - Q.y⟩⟩
instance : Neg Pt := ⟨fun P => ⟨-P.x, -P.y⟩⟩
instance : SMul ℝ Pt := ⟨fun s P => ⟨s * P.x, s * P.y⟩⟩
instance : HDiv Pt ℝ Pt := ⟨fun P s => ⟨P.x / s, P.y / s⟩⟩

@[simp] theorem add_x (P Q : Pt) : (P + Q).x = P.x + Q.x := rfl
@[simp] theorem add_y (P Q : Pt) : (P + Q).y = P.y + Q.y := rfl
@[simp] theorem sub_x (P Q : Pt) : (P - Q).x = P.x - Q.x := rfl
@[simp] theorem sub_y (P Q : Pt) : (P - Q).y = P.y - Q.y := rfl
@[simp] theorem neg_x (P : Pt) : (-P).x = -P.x := rfl
@[simp] theorem neg_y (P : Pt) : (-P).y = -P.y := rfl
@[simp] theorem smul_x (s : ℝ) (P : Pt) : (s • P).x = s * P.x := rfl
@[simp] theorem smul_y (s : ℝ) (P : Pt) : (s • P).y = s * P.y := rfl
@[simp] theorem div_x (P : Pt) (s : ℝ) : (P / s).x = P.x / s := rfl
@[simp] theorem div_y (P : Pt) (s : ℝ) : (P / s).y = P.y / s := rfl

end
end Pt

namespace Spec
noncomputable section

/-- Squared Euclidean distance. -/
def sqDist (P Q : Pt) : ℝ := (P.x - Q.x) ^ 2 + (P.y - Q.y) ^ 2

/-- Euclidean distance. -/
def dist (P Q : Pt) : ℝ := Real.sqrt (sqDist P Q)

/-- Scalar product. -/
def dot (u v : Pt) : ℝ := u.x * v.x + u.y * v.y

/-- Cross product (signed area of the parallelogram). -/
def cross (u v : Pt) : ℝ := u.x * v.y - u.y * v.x

/-- `P` is on the circle of center `O` and radius `r`. -/
def OnCircle (O : Pt) (r : ℝ) (P : Pt) : Prop := sqDist P O = r ^ 2

/-- `P` is on the infinite line through `A` and `B`: it is `A + t (B - A)` for some real `t`. -/
def OnLine (A B P : Pt) : Prop := ∃ t : ℝ, P = A + t • (B - A)

/-- `P` is on the closed segment `[A, B]`. -/
def OnSegment (A B P : Pt) : Prop := ∃ t : ℝ, 0 ≤ t ∧ t ≤ 1 ∧ P = A + t • (B - A)

/-- `P` is on the closed half-line with origin `A` through `B`. -/
def OnRay (A B P : Pt) : Prop := ∃ t : ℝ, 0 ≤ t ∧ P = A + t • (B - A)

/-- Orthogonal vectors. -/
def Perp (u v : Pt) : Prop := dot u v = 0

/-- Parallel vectors. -/
def Parallel (u v : Pt) : Prop := cross u v = 0

/-- Three points on a common line. -/
def Collinear (A B C : Pt) : Prop := cross (B - A) (C - A) = 0

/-- `Q` is the inverse of `P ≠ O` in the inversion of pole `O` and power `k`: `O`, `P`, `Q` are aligned and
`(P - O)·(Q - O) = k`. -/
def IsInverse (O : Pt) (k : ℝ) (P Q : Pt) : Prop :=
  P ≠ O ∧ cross (P - O) (Q - O) = 0 ∧ dot (P - O) (Q - O) = k

/-- The inversion of pole `O` and power `k` maps the set `S` (apart from the pole) onto the set `T` (apart from the
pole): a point is in `S` iff its inverse is in `T`.  For `k ≠ 0` every point other than the pole has an inverse. -/
def InvMapsOnto (O : Pt) (k : ℝ) (S T : Pt → Prop) : Prop := ∀ P Q, IsInverse O k P Q → (S P ↔ T Q)

/-- `Q` is the mirror image of `P` with respect to the line `AB`. -/
def IsMirror (A B P Q : Pt) : Prop :=
  OnLine A B ((P + Q) / (2 : ℝ)) ∧ Perp (Q - P) (B - A)

/-- The reflection in the line `AB` maps the set `S` onto the set `T`. -/
def MirrorMapsOnto (A B : Pt) (S T : Pt → Prop) : Prop := ∀ P Q, IsMirror A B P Q → (S P ↔ T Q)

/-- Two circles cross at right angles. -/
def Orthogonal (O₁ : Pt) (r₁ : ℝ) (O₂ : Pt) (r₂ : ℝ) : Prop := sqDist O₁ O₂ = r₁ ^ 2 + r₂ ^ 2

/-- Circles tangent from outside. -/
def ExtTangent (O₁ : Pt) (r₁ : ℝ) (O₂ : Pt) (r₂ : ℝ) : Prop := dist O₁ O₂ = r₁ + r₂

/-- The circle `(O₂, r₂)` touches the circle `(O₁, r₁)` from the inside. -/
def IntTangent (O₁ : Pt) (r₁ : ℝ) (O₂ : Pt) (r₂ : ℝ) : Prop := dist O₁ O₂ = r₁ - r₂

/-- The line `AB` touches the circle `(O, r)`: they have exactly one common point. -/
def TangentLine (O : Pt) (r : ℝ) (A B : Pt) : Prop :=
  ∃ T, OnLine A B T ∧ OnCircle O r T ∧ ∀ X, OnLine A B X → OnCircle O r X → X = T

/-- `M` is strictly inside the triangle `ABC`: a convex combination with positive weights. -/
def InTriangle (A B C M : Pt) : Prop :=
  ∃ u v w : ℝ, 0 < u ∧ 0 < v ∧ 0 < w ∧ u + v + w = 1 ∧ M = u • A + v • B + w • C

/-- `P` and `Q` are strictly on opposite sides of the line `AB`. -/
def OppositeSides (A B P Q : Pt) : Prop := cross (B - A) (P - A) * cross (B - A) (Q - A) < 0

/-- What it means to be the Malfatti configuration of the triangle `ABC`. -/
structure MalfattiConfig (A B C : Pt) (OA : Pt) (rA : ℝ) (OB : Pt) (rB : ℝ) (OC : Pt) (rC : ℝ) (TA TB TC : Pt) : Prop where
  posA : 0 < rA
  posB : 0 < rB
  posC : 0 < rC
  inA : InTriangle A B C OA
  inB : InTriangle A B C OB
  inC : InTriangle A B C OC
  /-- the discs are inside the triangle -/
  discA : ∀ P, sqDist P OA < rA ^ 2 → InTriangle A B C P
  discB : ∀ P, sqDist P OB < rB ^ 2 → InTriangle A B C P
  discC : ∀ P, sqDist P OC < rC ^ 2 → InTriangle A B C P
  /-- each circle touches the two sides at its vertex -/
  tanA : TangentLine OA rA A B ∧ TangentLine OA rA C A
  tanB : TangentLine OB rB B C ∧ TangentLine OB rB A B
  tanC : TangentLine OC rC C A ∧ TangentLine OC rC B C
  /-- the circles are mutually tangent -/
  tBC : ExtTangent OB rB OC rC
  tAC : ExtTangent OA rA OC rC
  tAB : ExtTangent OA rA OB rB
  /-- contact points -/
  cBC : OnCircle OB rB TA ∧ OnCircle OC rC TA
  cAC : OnCircle OA rA TB ∧ OnCircle OC rC TB
  cAB : OnCircle OA rA TC ∧ OnCircle OB rB TC

/-- The point of the ellipse with center `O`, radii `a` and `b`, first axis at angle `α` (radians), of
eccentric angle `t`. -/
def ellipsePoint (O : Pt) (a b α t : ℝ) : Pt :=
  ⟨O.x + a * Real.cos t * Real.cos α - b * Real.sin t * Real.sin α,
   O.y + a * Real.cos t * Real.sin α + b * Real.sin t * Real.cos α⟩

/-- `P` is on the ellipse. -/
def OnEllipse (O : Pt) (a b α : ℝ) (P : Pt) : Prop := ∃ t : ℝ, P = ellipsePoint O a b α t

/-- Coordinates of `P` in the frame of the ellipse axes. -/
def axisCoord (O : Pt) (α : ℝ) (P : Pt) : Pt :=
  ⟨(P.x - O.x) * Real.cos α + (P.y - O.y) * Real.sin α,
   -(P.x - O.x) * Real.sin α + (P.y - O.y) * Real.cos α⟩

/-- `P` is in the closed region bounded by the ellipse. -/
def InEllipse (O : Pt) (a b α : ℝ) (P : Pt) : Prop :=
  ((axisCoord O α P).x / a) ^ 2 + ((axisCoord O α P).y / b) ^ 2 ≤ 1

end
end Spec
