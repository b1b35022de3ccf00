import Verif.Lemmas.Triangle
import Verif.Lemmas.Gasket
import Mathlib.LinearAlgebra.Matrix.NonsingularInverse
import Mathlib.LinearAlgebra.Matrix.ToLinearEquiv
import Mathlib.Data.Fin.VecNotation
import Mathlib.Tactic.FinCases

/-! Discs and half-planes as vectors of a space with a quadratic form of signature (3, 1): tangency, orthogonality, and the hole between three mutually
tangent ones. -/

open Spec Real

/-- Coefficients of `b (x² + y²) - 2 (u x + v y) + c`, in the order `b`, `c`, `u`, `v`. -/
abbrev GV := Fin 4 → ℝ

namespace GV
noncomputable section

/-- The bilinear form: `-1` for externally tangent discs, `0` for orthogonal ones. -/
def pr (X Y : GV) : ℝ := X 2 * Y 2 + X 3 * Y 3 - (X 0 * Y 1 + X 1 * Y 0) / 2

/-- The value at a point: negative inside the disc. -/
def ev (X : GV) (P : Pt) : ℝ := X 0 * (P.x ^ 2 + P.y ^ 2) - 2 * (X 2 * P.x + X 3 * P.y) + X 1

/-- The disc of a circle. -/
def circ (c : Circle) : GV :=
  ![1 / c.radius, (c.center.x ^ 2 + c.center.y ^ 2 - c.radius ^ 2) / c.radius, c.center.x / c.radius, c.center.y / c.radius]

/-- The half-plane bounded by the line through `A` orthogonal to `n`, on the side opposite to `n`. -/
def half (n A : Pt) : GV := ![0, -2 * dot n A, -n.x, -n.y]

theorem pr_comm (X Y : GV) : pr X Y = pr Y X := by unfold pr; ring

theorem pr_add (X Y Z : GV) : pr (X + Y) Z = pr X Z + pr Y Z := by unfold pr; simp only [Pi.add_apply]; ring

theorem pr_smul (k : ℝ) (X Y : GV) : pr (k • X) Y = k * pr X Y := by unfold pr; simp only [Pi.smul_apply, smul_eq_mul]; ring

theorem pr_add' (X Y Z : GV) : pr X (Y + Z) = pr X Y + pr X Z := by unfold pr; simp only [Pi.add_apply]; ring

theorem pr_smul' (k : ℝ) (X Y : GV) : pr X (k • Y) = k * pr X Y := by unfold pr; simp only [Pi.smul_apply, smul_eq_mul]; ring

theorem ev_add (X Y : GV) (P : Pt) : ev (X + Y) P = ev X P + ev Y P := by unfold ev; simp only [Pi.add_apply]; ring

theorem ev_smul (k : ℝ) (X : GV) (P : Pt) : ev (k • X) P = k * ev X P := by unfold ev; simp only [Pi.smul_apply, smul_eq_mul]; ring

theorem circ_zero (c : Circle) : circ c 0 = 1 / c.radius := rfl

theorem half_zero (n A : Pt) : half n A 0 = 0 := rfl

theorem ev_circ {c : Circle} (hc : c.Valid) (P : Pt) : ev (circ c) P * c.radius = sqDist P c.center - c.radius ^ 2 := by
  have hr : c.radius ≠ 0 := ne_of_gt hc
  simp only [ev, circ, sqDist, Matrix.cons_val_zero, Matrix.cons_val_one, Matrix.cons_val]
  field_simp
  ring

theorem ev_circ_neg {c : Circle} (hc : c.Valid) (P : Pt) : ev (circ c) P < 0 ↔ sqDist P c.center < c.radius ^ 2 := by
  have := ev_circ hc P
  have hr : 0 < c.radius := hc
  constructor
  · intro h; nlinarith
  · intro h; by_contra h'; push Not at h'; nlinarith

theorem ev_half (n A P : Pt) : ev (half n A) P = 2 * dot n (P - A) := by
  simp only [ev, half, dot, Matrix.cons_val_zero, Matrix.cons_val_one, Matrix.cons_val, Pt.sub_x, Pt.sub_y]; ring

theorem pr_circ {c d : Circle} (hc : c.Valid) (hd : d.Valid) :
    pr (circ c) (circ d) * (2 * c.radius * d.radius) = c.radius ^ 2 + d.radius ^ 2 - sqDist c.center d.center := by
  have hr : c.radius ≠ 0 := ne_of_gt hc
  have hr' : d.radius ≠ 0 := ne_of_gt hd
  simp only [pr, circ, sqDist, Matrix.cons_val_zero, Matrix.cons_val_one, Matrix.cons_val]
  field_simp
  ring

theorem pr_circ_self {c : Circle} (hc : c.Valid) : pr (circ c) (circ c) = 1 := by
  have h := pr_circ hc hc
  have hr : 0 < c.radius := hc
  have : sqDist c.center c.center = 0 := by unfold sqDist; ring
  rw [this] at h
  have h2 : (2 * c.radius * c.radius) ≠ 0 := by positivity
  apply mul_right_cancel₀ h2
  rw [h]; ring

theorem pr_circ_tangent {c d : Circle} (hc : c.Valid) (hd : d.Valid) :
    pr (circ c) (circ d) = -1 ↔ sqDist c.center d.center = (c.radius + d.radius) ^ 2 := by
  have h := pr_circ hc hd
  have hr : 0 < c.radius := hc
  have hr' : 0 < d.radius := hd
  have h2 : (2 * c.radius * d.radius) ≠ 0 := by positivity
  constructor
  · intro e; rw [e] at h; linear_combination h
  · intro e; apply mul_right_cancel₀ h2; rw [h, e]; ring

theorem pr_circ_half {c : Circle} (hc : c.Valid) (n A : Pt) : pr (circ c) (half n A) * c.radius = -dot n (c.center - A) := by
  have hr : c.radius ≠ 0 := ne_of_gt hc
  simp only [pr, circ, half, dot, Matrix.cons_val_zero, Matrix.cons_val_one, Matrix.cons_val, Pt.sub_x, Pt.sub_y]
  field_simp
  ring

theorem pr_half (n A m B : Pt) : pr (half n A) (half m B) = dot n m := by
  simp only [pr, half, dot, Matrix.cons_val_zero, Matrix.cons_val_one, Matrix.cons_val]
  ring

/-- Two externally tangent discs: the sum is nonnegative everywhere. -/
theorem tangent_nonneg {X Y : GV} (hX : pr X X = 1) (hY : pr Y Y = 1) (h : pr X Y = -1) (h0 : 0 < X 0 + Y 0) (P : Pt) :
    0 ≤ ev X P + ev Y P := by
  have hn : (X 2 + Y 2) ^ 2 + (X 3 + Y 3) ^ 2 = (X 0 + Y 0) * (X 1 + Y 1) := by
    unfold pr at hX hY h
    linear_combination hX + hY + 2 * h
  have : (X 0 + Y 0) * (ev X P + ev Y P) = ((X 0 + Y 0) * P.x - (X 2 + Y 2)) ^ 2 + ((X 0 + Y 0) * P.y - (X 3 + Y 3)) ^ 2 := by
    unfold ev
    linear_combination -hn
  by_contra hc
  push Not at hc
  nlinarith [sq_nonneg ((X 0 + Y 0) * P.x - (X 2 + Y 2)), sq_nonneg ((X 0 + Y 0) * P.y - (X 3 + Y 3))]

/-- Three mutually tangent discs or half-planes, and the disc orthogonal to them. -/
structure Triple (K₁ K₂ K₃ D : GV) : Prop where
  n1 : pr K₁ K₁ = 1
  n2 : pr K₂ K₂ = 1
  n3 : pr K₃ K₃ = 1
  t12 : pr K₁ K₂ = -1
  t13 : pr K₁ K₃ = -1
  t23 : pr K₂ K₃ = -1
  nD : pr D D = 1
  o1 : pr D K₁ = 0
  o2 : pr D K₂ = 0
  o3 : pr D K₃ = 0
  pos : 0 < D 0

/-- The matrix of the form. -/
def J : Matrix (Fin 4) (Fin 4) ℝ := !![0, -1 / 2, 0, 0; -1 / 2, 0, 0, 0; 0, 0, 1, 0; 0, 0, 0, 1]

theorem pr_eq (X Y : GV) : pr X Y = X ⬝ᵥ J.mulVec Y := by
  simp only [pr, dotProduct, Matrix.mulVec, Fin.sum_univ_four]
  simp [J]
  ring

/-- A vector orthogonal to four vectors whose Gram matrix is regular is zero. -/
theorem eq_zero_of_gram {B : Fin 4 → GV} (hG : (Matrix.of fun i j => pr (B i) (B j)).det ≠ 0) {Y : GV} (h : ∀ i, pr (B i) Y = 0) : Y = 0 := by
  have e : (Matrix.of fun i j => pr (B i) (B j)) = (Matrix.of B * J) * (Matrix.of B).transpose := by
    ext i j
    rw [Matrix.of_apply, pr_eq, Matrix.mul_assoc, Matrix.mul_apply]
    rfl
  rw [e, Matrix.det_mul] at hG
  have hd : (Matrix.of B * J).det ≠ 0 := left_ne_zero_of_mul hG
  apply Matrix.eq_zero_of_mulVec_eq_zero hd
  ext i
  rw [← Matrix.mulVec_mulVec]
  have := h i
  rw [pr_eq] at this
  exact this

namespace Triple

variable {K₁ K₂ K₃ D : GV}

/-- A vector orthogonal to the four vectors is zero. -/
theorem eq_zero (t : Triple K₁ K₂ K₃ D) {Y : GV} (h1 : pr K₁ Y = 0) (h2 : pr K₂ Y = 0) (h3 : pr K₃ Y = 0) (h4 : pr D Y = 0) : Y = 0 := by
  apply eq_zero_of_gram (B := ![K₁, K₂, K₃, D])
  · have : (Matrix.of fun i j => pr (![K₁, K₂, K₃, D] i) (![K₁, K₂, K₃, D] j)) = !![1, -1, -1, 0; -1, 1, -1, 0; -1, -1, 1, 0; 0, 0, 0, 1] := by
      have s12 := (pr_comm K₂ K₁).trans t.t12
      have s13 := (pr_comm K₃ K₁).trans t.t13
      have s23 := (pr_comm K₃ K₂).trans t.t23
      have p1 := (pr_comm K₁ D).trans t.o1
      have p2 := (pr_comm K₂ D).trans t.o2
      have p3 := (pr_comm K₃ D).trans t.o3
      ext i j
      fin_cases i <;> fin_cases j <;>
        simp [t.n1, t.n2, t.n3, t.nD, t.t12, t.t13, t.t23, t.o1, t.o2, t.o3, s12, s13, s23, p1, p2, p3]
    rw [this]
    simp [Matrix.det_succ_row_zero, Fin.sum_univ_succ, Fin.succAbove]
  · intro i
    fin_cases i <;> simp [h1, h2, h3, h4]

/-- Coordinates of a vector from its products. -/
theorem decomp (t : Triple K₁ K₂ K₃ D) (X : GV) :
    X = (-(pr X K₂ + pr X K₃) / 2) • K₁ + (-(pr X K₁ + pr X K₃) / 2) • K₂ + (-(pr X K₁ + pr X K₂) / 2) • K₃ + (pr X D) • D := by
  have s12 := (pr_comm K₂ K₁).trans t.t12
  have s13 := (pr_comm K₃ K₁).trans t.t13
  have s23 := (pr_comm K₃ K₂).trans t.t23
  have p1 := (pr_comm K₁ D).trans t.o1
  have p2 := (pr_comm K₂ D).trans t.o2
  have p3 := (pr_comm K₃ D).trans t.o3
  have c1 := pr_comm K₁ X
  have c2 := pr_comm K₂ X
  have c3 := pr_comm K₃ X
  have c4 := pr_comm D X
  have : X + (-1 : ℝ) • ((-(pr X K₂ + pr X K₃) / 2) • K₁ + (-(pr X K₁ + pr X K₃) / 2) • K₂ + (-(pr X K₁ + pr X K₂) / 2) • K₃ + (pr X D) • D) = 0 := by
    apply t.eq_zero <;>
      simp only [pr_add', pr_smul', t.n1, t.n2, t.n3, t.nD, t.t12, t.t13, t.t23, t.o1, t.o2, t.o3, s12, s13, s23, p1, p2, p3, c1, c2, c3, c4] <;> ring
  have h2 := eq_neg_of_add_eq_zero_left this
  rw [neg_smul, one_smul, neg_neg] at h2
  exact h2

/-- The square of a vector from its products. -/
theorem norm_eq (t : Triple K₁ K₂ K₃ D) (X : GV) :
    pr X X = -(pr X K₁ * pr X K₂ + pr X K₁ * pr X K₃ + pr X K₂ * pr X K₃) + pr X D ^ 2 := by
  have h : pr X X = pr X ((-(pr X K₂ + pr X K₃) / 2) • K₁ + (-(pr X K₁ + pr X K₃) / 2) • K₂ + (-(pr X K₁ + pr X K₂) / 2) • K₃ + (pr X D) • D) := by
    conv_lhs => arg 2; rw [t.decomp X]
  rw [h]
  simp only [pr_add', pr_smul']
  ring

/-- The disc tangent to the three, inside the orthogonal disc. -/
theorem inner (t : Triple K₁ K₂ K₃ D) {c : GV} (hc : pr c c = 1) (h1 : pr c K₁ = -1) (h2 : pr c K₂ = -1) (h3 : pr c K₃ = -1)
    (h0 : K₁ 0 + K₂ 0 + K₃ 0 < c 0) : c = K₁ + K₂ + K₃ + (2 : ℝ) • D := by
  have hn := t.norm_eq c
  have hd := t.decomp c
  rw [h1, h2, h3] at hn hd
  have hm : (pr c D - 2) * (pr c D + 2) = 0 := by rw [hc] at hn; linear_combination -hn
  rcases mul_eq_zero.1 hm with h | h
  · have e : pr c D = 2 := by linarith
    rw [e] at hd
    rw [hd]
    norm_num
  · exfalso
    have e : pr c D = -2 := by linarith
    rw [e] at hd
    have := congrFun hd 0
    simp only [Pi.add_apply, Pi.smul_apply, smul_eq_mul] at this
    have := t.pos
    linarith

/-- The hole between the new disc and two of the three. -/
theorem child (t : Triple K₁ K₂ K₃ D) (b1 : 0 ≤ K₁ 0) (b2 : 0 ≤ K₂ 0) :
    Triple (K₁ + K₂ + K₃ + (2 : ℝ) • D) K₁ K₂ (D + K₁ + K₂) := by
  have s12 := (pr_comm K₂ K₁).trans t.t12
  have s13 := (pr_comm K₃ K₁).trans t.t13
  have s23 := (pr_comm K₃ K₂).trans t.t23
  have p1 := (pr_comm K₁ D).trans t.o1
  have p2 := (pr_comm K₂ D).trans t.o2
  have p3 := (pr_comm K₃ D).trans t.o3
  constructor <;>
    (try simp only [pr_add, pr_smul, pr_add', pr_smul', t.n1, t.n2, t.n3, t.nD, t.t12, t.t13, t.t23, t.o1, t.o2, t.o3, s12, s13, s23, p1, p2, p3]) <;>
    (try norm_num)
  have := t.pos
  positivity

theorem rotate (t : Triple K₁ K₂ K₃ D) : Triple K₂ K₃ K₁ D :=
  ⟨t.n2, t.n3, t.n1, t.t23, (pr_comm _ _).trans t.t12, (pr_comm _ _).trans t.t13, t.nD, t.o2, t.o3, t.o1, t.pos⟩

theorem swap (t : Triple K₁ K₂ K₃ D) : Triple K₂ K₁ K₃ D :=
  ⟨t.n2, t.n1, t.n3, (pr_comm _ _).trans t.t12, t.t23, t.t13, t.nD, t.o2, t.o1, t.o3, t.pos⟩

end Triple

/-- The points of the hole: inside the orthogonal disc, outside the three. -/
def hole (K₁ K₂ K₃ D : GV) : Set Pt := {P | 0 < ev K₁ P ∧ 0 < ev K₂ P ∧ 0 < ev K₃ P ∧ ev D P < 0}

theorem hole_rotate (K₁ K₂ K₃ D : GV) : hole K₂ K₃ K₁ D = hole K₁ K₂ K₃ D := by
  ext P; unfold hole; simp only [Set.mem_setOf_eq]; tauto

theorem hole_swap (K₁ K₂ K₃ D : GV) : hole K₂ K₁ K₃ D = hole K₁ K₂ K₃ D := by
  ext P; unfold hole; simp only [Set.mem_setOf_eq]; tauto

theorem inner_in_hole {K₁ K₂ K₃ D : GV} (t : Triple K₁ K₂ K₃ D) (b1 : 0 ≤ K₁ 0) (b2 : 0 ≤ K₂ 0) (b3 : 0 ≤ K₃ 0) {P : Pt}
    (h : ev (K₁ + K₂ + K₃ + (2 : ℝ) • D) P < 0) : P ∈ hole K₁ K₂ K₃ D := by
  have key : ∀ {X Y Z : GV}, Triple X Y Z D → 0 ≤ X 0 → 0 ≤ Y 0 → 0 ≤ Z 0 → 0 ≤ ev (X + Y + Z + (2 : ℝ) • D) P + ev X P := by
    intro X Y Z s x0 y0 z0
    have c := s.child x0 y0
    apply tangent_nonneg c.n1 s.n1 c.t12
    have := s.pos
    simp only [Pi.add_apply, Pi.smul_apply, smul_eq_mul]
    positivity
  have h1 := key t b1 b2 b3
  have h2 := key t.rotate b2 b3 b1
  have h3 := key t.rotate.rotate b3 b1 b2
  simp only [ev_add, ev_smul] at h h1 h2 h3
  refine ⟨by linarith, by linarith, by linarith, by linarith⟩

theorem child_sub_hole {K₁ K₂ K₃ D : GV} {P : Pt} (h : P ∈ hole (K₁ + K₂ + K₃ + (2 : ℝ) • D) K₁ K₂ (D + K₁ + K₂)) : P ∈ hole K₁ K₂ K₃ D := by
  obtain ⟨h0, h1, h2, h3⟩ := h
  simp only [ev_add, ev_smul] at h0 h3
  exact ⟨h1, h2, by linarith, by linarith⟩

/-- Two different new holes have no common point. -/
theorem children_disjoint {K₁ K₂ K₃ D : GV} {P : Pt} (h : P ∈ hole (K₁ + K₂ + K₃ + (2 : ℝ) • D) K₁ K₂ (D + K₁ + K₂))
    (h' : P ∈ hole (K₁ + K₂ + K₃ + (2 : ℝ) • D) K₂ K₃ (D + K₂ + K₃)) : False := by
  obtain ⟨h0, h1, h2, h3⟩ := h
  obtain ⟨-, -, h4, h5⟩ := h'
  simp only [ev_add, ev_smul] at h0 h3 h5
  linarith

end
end GV
