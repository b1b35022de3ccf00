import Verif.Spec.Chains
import Verif.Spec.TriGasket

/-! Figures of space.  Nothing in this file models code. -/

/-- A point (or vector) of space. -/
@[ext] structure Pt3 where
  x : ℝ
  y : ℝ
  z : ℝ

namespace Pt3
noncomputable section

instance : Add Pt3 := ⟨fun P Q => ⟨P.x + Q.x, P.y + Q.y, P.z + Q.z⟩⟩
instance : Sub Pt3 := ⟨fun P Q => ⟨P.x - Q.x, P.y - Q.y, P.z - Q.z⟩⟩
instance : SMul ℝ Pt3 := ⟨fun s P => ⟨s * P.x, s * P.y, s * P.z⟩⟩

@[simp] theorem add_x (P Q : Pt3) : (P + Q).x = P.x + Q.x := rfl
@[simp] theorem add_y (P Q : Pt3) : (P + Q).y = P.y + Q.y := rfl
@[simp] theorem add_z (P Q : Pt3) : (P + Q).z = P.z + Q.z := rfl
@[simp] theorem sub_x (P Q : Pt3) : (P - Q).x = P.x - Q.x := rfl
@[simp] theorem sub_y (P Q : Pt3) : (P - Q).y = P.y - Q.y := rfl
@[simp] theorem sub_z (P Q : Pt3) : (P - Q).z = P.z - Q.z := rfl
@[simp] theorem smul_x (s : ℝ) (P : Pt3) : (s • P).x = s * P.x := rfl
@[simp] theorem smul_y (s : ℝ) (P : Pt3) : (s • P).y = s * P.y := rfl
@[simp] theorem smul_z (s : ℝ) (P : Pt3) : (s • P).z = s * P.z := rfl

end
end Pt3

namespace Spec
noncomputable section

/-- Squared distance in space. -/
def sqDist3 (P Q : Pt3) : ℝ := (P.x - Q.x) ^ 2 + (P.y - Q.y) ^ 2 + (P.z - Q.z) ^ 2

/-- Scalar product in space. -/
def dot3 (u v : Pt3) : ℝ := u.x * v.x + u.y * v.y + u.z * v.z

/-- Signed volume of the parallelepiped built on three vectors. -/
def vol3 (u v w : Pt3) : ℝ :=
  u.x * (v.y * w.z - v.z * w.y) - u.y * (v.x * w.z - v.z * w.x) + u.z * (v.x * w.y - v.y * w.x)

/-- Three points of a line. -/
def Collinear3 (A B C : Pt3) : Prop := A = B ∨ ∃ t : ℝ, C = A + t • (B - A)

/-- The point of the horizontal plane of height zero. -/
def flat3 (P : Pt) : Pt3 := ⟨P.x, P.y, 0⟩

/-- A displacement of space: distances and volumes (with their signs) are kept. -/
def Displacement (f : Pt3 → Pt3) : Prop :=
  (∀ P Q, sqDist3 (f P) (f Q) = sqDist3 P Q) ∧ ∀ O P Q R, vol3 (f P - f O) (f Q - f O) (f R - f O) = vol3 (P - O) (Q - O) (R - O)

/-- Inside the triangle `ABC` of space. -/
def InTriangle3 (A B C M : Pt3) : Prop :=
  ∃ u v w : ℝ, 0 < u ∧ 0 < v ∧ 0 < w ∧ u + v + w = 1 ∧ M = u • A + v • B + w • C

/-- The points of the line `AB`. -/
def lineSet3 (A B : Pt3) : Set Pt3 := {P | ∃ t : ℝ, P = A + t • (B - A)}

/-- The ball of center `O` and radius `r` after a scaling by the factor `h` in the direction of the unit vector `n`. -/
def lens (O : Pt3) (r : ℝ) (n : Pt3) (h : ℝ) : Figure Pt3 :=
  ⟨{X | sqDist3 X O - dot3 (X - O) n ^ 2 + (dot3 (X - O) n / h) ^ 2 ≤ r ^ 2},
   {X | sqDist3 X O - dot3 (X - O) n ^ 2 + (dot3 (X - O) n / h) ^ 2 = r ^ 2}⟩

/-- `n` is the unit normal vector of the triangle `ABC` that sees it turn counterclockwise. -/
def UnitNormal (A B C n : Pt3) : Prop :=
  dot3 n n = 1 ∧ dot3 n (B - A) = 0 ∧ dot3 n (C - A) = 0 ∧ 0 < vol3 (B - A) (C - A) n

/-- Figures on which a body of the packing can lean: the sides of the triangle and the bodies. -/
def walls3 (A B C : Pt3) (L : List (Figure Pt3)) : Set (Set Pt3) :=
  {S | S = lineSet3 A B ∨ S = lineSet3 B C ∨ S = lineSet3 C A ∨ ∃ d ∈ L, S = d.points}

/-- Two sets with exactly one common point. -/
def Meets1 (S T : Set Pt3) : Prop := ∃ P, S ∩ T = {P}

/-- A packing of a triangle of space by flattened balls, given by their centers and radii: the section of a body by the plane of the triangle is inside the
triangle and the bodies do not overlap.  The three first bodies touch each other and the sides as Malfatti circles do: each of them meets two sides and the two
others in exactly one point.  Each other body meets three of the sides and the bodies, in exactly one point each. -/
structure LensPacking (A B C : Pt3) (n : Pt3) (h : ℝ) (L : List (Pt3 × ℝ)) : Prop where
  pos : ∀ c ∈ L, 0 < c.2
  center : ∀ c ∈ L, InTriangle3 A B C c.1
  inside : ∀ c ∈ L, ∀ X, dot3 n (X - A) = 0 → X ∈ (lens c.1 c.2 n h).interior → InTriangle3 A B C X
  apart : L.Pairwise fun c d => Disjoint (lens c.1 c.2 n h).interior (lens d.1 d.2 n h).interior
  first : ∃ a b c rest, L = a :: b :: c :: rest ∧
    Meets1 (lens a.1 a.2 n h).points (lineSet3 A B) ∧ Meets1 (lens a.1 a.2 n h).points (lineSet3 C A) ∧
    Meets1 (lens b.1 b.2 n h).points (lineSet3 A B) ∧ Meets1 (lens b.1 b.2 n h).points (lineSet3 B C) ∧
    Meets1 (lens c.1 c.2 n h).points (lineSet3 C A) ∧ Meets1 (lens c.1 c.2 n h).points (lineSet3 B C) ∧
    Meets1 (lens a.1 a.2 n h).points (lens b.1 b.2 n h).points ∧ Meets1 (lens b.1 b.2 n h).points (lens c.1 c.2 n h).points ∧
    Meets1 (lens a.1 a.2 n h).points (lens c.1 c.2 n h).points
  leans : ∀ c ∈ L.drop 3, ∃ P₁ P₂ P₃, P₁ ≠ P₂ ∧ P₁ ≠ P₃ ∧ P₂ ≠ P₃ ∧
    ∀ P, P = P₁ ∨ P = P₂ ∨ P = P₃ → ∃ S ∈ walls3 A B C (L.map fun c => lens c.1 c.2 n h), (lens c.1 c.2 n h).points ∩ S = {P}

end
end Spec

namespace Spec
noncomputable section

/-- The three oriented sides of a triangle of vertex numbers. -/
def sides {α : Type} (f : α × α × α) : List (α × α) := [(f.1, f.2.1), (f.2.1, f.2.2), (f.2.2, f.1)]

/-- Twelve points and twenty triangles that are the faces of a convex polyhedron, with five faces at each vertex: every oriented side belongs to one face only and
the opposite one to another face; the other vertices are strictly behind the face, which turns counterclockwise when seen from outside. -/
structure IsIcosahedron (V : Fin 12 → Pt3) (F : List (Fin 12 × Fin 12 × Fin 12)) : Prop where
  count : F.length = 20
  once : (F.flatMap sides).Nodup
  closed : ∀ e ∈ F.flatMap sides, (e.2, e.1) ∈ F.flatMap sides
  five : ∀ i, (F.filter fun f => i = f.1 ∨ i = f.2.1 ∨ i = f.2.2).length = 5
  convex : ∀ f ∈ F, ∀ i, i ≠ f.1 → i ≠ f.2.1 → i ≠ f.2.2 → vol3 (V f.2.1 - V f.1) (V f.2.2 - V f.1) (V i - V f.1) < 0

end
end Spec
