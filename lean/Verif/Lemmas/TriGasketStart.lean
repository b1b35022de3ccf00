import Verif.Lemmas.Descartes
import Mathlib.Tactic.LinearCombination

/-! The seven holes between the Malfatti circles and the sides of a triangle. -/

open Spec Real Classical

namespace GV
noncomputable section

/-- A vector orthogonal to three vectors. -/
def ortho (K L M : GV) : GV :=
  ![2 * (K 0 * (L 2 * M 3 - L 3 * M 2) - K 2 * (L 0 * M 3 - L 3 * M 0) + K 3 * (L 0 * M 2 - L 2 * M 0)),
    -2 * (K 1 * (L 2 * M 3 - L 3 * M 2) - K 2 * (L 1 * M 3 - L 3 * M 1) + K 3 * (L 1 * M 2 - L 2 * M 1)),
    K 0 * (L 1 * M 3 - L 3 * M 1) - K 1 * (L 0 * M 3 - L 3 * M 0) + K 3 * (L 0 * M 1 - L 1 * M 0),
    -(K 0 * (L 1 * M 2 - L 2 * M 1) - K 1 * (L 0 * M 2 - L 2 * M 0) + K 2 * (L 0 * M 1 - L 1 * M 0))]

theorem ortho1 (K L M : GV) : pr (ortho K L M) K = 0 := by
  simp only [pr, ortho, Matrix.cons_val_zero, Matrix.cons_val_one, Matrix.cons_val]
  ring

theorem ortho2 (K L M : GV) : pr (ortho K L M) L = 0 := by
  simp only [pr, ortho, Matrix.cons_val_zero, Matrix.cons_val_one, Matrix.cons_val]
  ring

theorem ortho3 (K L M : GV) : pr (ortho K L M) M = 0 := by
  simp only [pr, ortho, Matrix.cons_val_zero, Matrix.cons_val_one, Matrix.cons_val]
  ring

theorem ortho_self (K L M : GV) : pr (ortho K L M) (ortho K L M) =
    -4 * (pr K K * (pr L L * pr M M - pr L M ^ 2) - pr K L * (pr K L * pr M M - pr L M * pr K M) + pr K M * (pr K L * pr L M - pr L L * pr K M)) := by
  simp only [pr, ortho, Matrix.cons_val_zero, Matrix.cons_val_one, Matrix.cons_val]
  ring

theorem ortho_zero (K L M : GV) : ortho K L M 0 ^ 2 =
    4 * (K 0 ^ 2 * (pr L L * pr M M - pr L M ^ 2) + L 0 ^ 2 * (pr K K * pr M M - pr K M ^ 2) + M 0 ^ 2 * (pr K K * pr L L - pr K L ^ 2) +
      2 * (K 0 * L 0) * (pr K M * pr L M - pr K L * pr M M) + 2 * (K 0 * M 0) * (pr K L * pr L M - pr K M * pr L L) +
      2 * (L 0 * M 0) * (pr K L * pr K M - pr K K * pr L M)) := by
  simp only [pr, ortho, Matrix.cons_val_zero, Matrix.cons_val_one, Matrix.cons_val]
  ring

/-- Three mutually tangent discs or half-planes have an orthogonal disc. -/
theorem exists_dual {K L M : GV} (n1 : pr K K = 1) (n2 : pr L L = 1) (n3 : pr M M = 1) (t12 : pr K L = -1) (t13 : pr K M = -1) (t23 : pr L M = -1)
    (h : 0 < K 0 * L 0 + K 0 * M 0 + L 0 * M 0) : ∃ D, Triple K L M D := by
  have s := ortho_self K L M
  have z := ortho_zero K L M
  rw [n1, n2, n3, t12, t13, t23] at s z
  have hz : ortho K L M 0 ≠ 0 := by
    intro e; rw [e] at z; norm_num at z; linarith
  rcases lt_or_gt_of_ne hz with hn | hp
  · refine ⟨(-1 / 4 : ℝ) • ortho K L M, n1, n2, n3, t12, t13, t23, ?_, ?_, ?_, ?_, ?_⟩
    · rw [pr_smul, pr_smul', s]; norm_num
    · rw [pr_smul, ortho1, mul_zero]
    · rw [pr_smul, ortho2, mul_zero]
    · rw [pr_smul, ortho3, mul_zero]
    · simp only [Pi.smul_apply, smul_eq_mul]; linarith
  · refine ⟨(1 / 4 : ℝ) • ortho K L M, n1, n2, n3, t12, t13, t23, ?_, ?_, ?_, ?_, ?_⟩
    · rw [pr_smul, pr_smul', s]; norm_num
    · rw [pr_smul, ortho1, mul_zero]
    · rw [pr_smul, ortho2, mul_zero]
    · rw [pr_smul, ortho3, mul_zero]
    · simp only [Pi.smul_apply, smul_eq_mul]; linarith

/-- The walls at a corner: a disc tangent to two half-planes, and the disc orthogonal to them. -/
structure Wedge (K b c D : GV) (g : ℝ) : Prop where
  n1 : pr K K = 1
  n2 : pr b b = 1
  n3 : pr c c = 1
  t12 : pr K b = -1
  t13 : pr K c = -1
  t23 : pr b c = g
  nD : pr D D = 1
  o1 : pr D K = 0
  o2 : pr D b = 0
  o3 : pr D c = 0
  pos : 0 < D 0
  g1 : g < 1
  g2 : -1 < g

namespace Wedge

variable {K b c D : GV} {g : ℝ}

theorem eq_zero (t : Wedge K b c D g) {Y : GV} (h1 : pr K Y = 0) (h2 : pr b Y = 0) (h3 : pr c Y = 0) (h4 : pr D Y = 0) : Y = 0 := by
  apply eq_zero_of_gram (B := ![K, b, c, D])
  · have : (Matrix.of fun i j => pr (![K, b, c, D] i) (![K, b, c, D] j)) = !![1, -1, -1, 0; -1, 1, g, 0; -1, g, 1, 0; 0, 0, 0, 1] := by
      have s12 := (pr_comm b K).trans t.t12
      have s13 := (pr_comm c K).trans t.t13
      have s23 := (pr_comm c b).trans t.t23
      have p1 := (pr_comm K D).trans t.o1
      have p2 := (pr_comm b D).trans t.o2
      have p3 := (pr_comm c D).trans t.o3
      ext i j
      fin_cases i <;> fin_cases j <;>
        simp [t.n1, t.n2, t.n3, t.nD, t.t12, t.t13, t.t23, t.o1, t.o2, t.o3, s12, s13, s23, p1, p2, p3]
    rw [this]
    have h1 := t.g1
    have e : (!![1, -1, -1, 0; -1, 1, g, 0; -1, g, 1, 0; 0, 0, 0, 1] : Matrix (Fin 4) (Fin 4) ℝ).det = -(1 - g) ^ 2 := by
      simp [Matrix.det_succ_row_zero, Fin.sum_univ_succ, Fin.succAbove]
      ring
    rw [e]
    have : 0 < (1 - g) ^ 2 := by have : 0 < 1 - g := by linarith
                                 positivity
    linarith
  · intro i
    fin_cases i <;> simp [h1, h2, h3, h4]

/-- Coordinates of a vector from its products. -/
theorem decomp (t : Wedge K b c D g) (X : GV) :
    X = ((-(1 + g) * pr X K - pr X b - pr X c) / (1 - g)) • K + (-(pr X K + pr X c) / (1 - g)) • b + (-(pr X K + pr X b) / (1 - g)) • c + (pr X D) • D := by
  have s12 := (pr_comm b K).trans t.t12
  have s13 := (pr_comm c K).trans t.t13
  have s23 := (pr_comm c b).trans t.t23
  have p1 := (pr_comm K D).trans t.o1
  have p2 := (pr_comm b D).trans t.o2
  have p3 := (pr_comm c D).trans t.o3
  have c1 := pr_comm K X
  have c2 := pr_comm b X
  have c3 := pr_comm c X
  have c4 := pr_comm D X
  have hg : 1 - g ≠ 0 := by have := t.g1; linarith
  have : X + (-1 : ℝ) • (((-(1 + g) * pr X K - pr X b - pr X c) / (1 - g)) • K + (-(pr X K + pr X c) / (1 - g)) • b + (-(pr X K + pr X b) / (1 - g)) • c +
      (pr X D) • D) = 0 := by
    apply t.eq_zero <;>
      simp only [pr_add', pr_smul', t.n1, t.n2, t.n3, t.nD, t.t12, t.t13, t.t23, t.o1, t.o2, t.o3, s12, s13, s23, p1, p2, p3, c1, c2, c3, c4] <;>
      field_simp <;> ring
  have h2 := eq_neg_of_add_eq_zero_left this
  rw [neg_smul, one_smul, neg_neg] at h2
  exact h2

end Wedge

/-- A hole whose walls have nonnegative curvature: what is needed to separate two holes. -/
structure Cell (K L M D : GV) : Prop where
  nD : pr D D = 1
  pos : 0 < D 0
  k1 : 0 ≤ K 0
  k2 : 0 ≤ L 0
  k3 : 0 ≤ M 0
  exp : ∀ Y, pr Y K ≤ 0 → pr Y L ≤ 0 → pr Y M ≤ 0 → ∃ x y z : ℝ, 0 ≤ x ∧ 0 ≤ y ∧ 0 ≤ z ∧ Y = x • K + y • L + z • M + (pr Y D) • D ∧
    (pr Y K + pr Y L + pr Y M < 0 → 0 < x * K 0 + y * L 0 + z * M 0)

theorem Triple.cell {K L M D : GV} (t : Triple K L M D) (h1 : 0 < K 0) (h2 : 0 < L 0) (h3 : 0 ≤ M 0) : Cell K L M D where
  nD := t.nD
  pos := t.pos
  k1 := h1.le
  k2 := h2.le
  k3 := h3
  exp := by
    intro Y y1 y2 y3
    refine ⟨_, _, _, ?_, ?_, ?_, t.decomp Y, ?_⟩
    · linarith
    · linarith
    · linarith
    · intro hs
      have a3 : 0 ≤ -(pr Y K + pr Y L) / 2 * M 0 := mul_nonneg (by linarith) h3
      have a1 : 0 ≤ -(pr Y L + pr Y M) / 2 * K 0 := mul_nonneg (by linarith) h1.le
      have a2 : 0 ≤ -(pr Y K + pr Y M) / 2 * L 0 := mul_nonneg (by linarith) h2.le
      by_cases hK : pr Y L + pr Y M < 0
      · have : 0 < -(pr Y L + pr Y M) / 2 * K 0 := mul_pos (by linarith) h1
        linarith
      · have : 0 < -(pr Y K + pr Y M) / 2 * L 0 := mul_pos (by linarith) h2
        linarith

theorem Wedge.cell {K b c D : GV} {g : ℝ} (t : Wedge K b c D g) (h1 : 0 < K 0) (h2 : 0 ≤ b 0) (h3 : 0 ≤ c 0) : Cell K b c D where
  nD := t.nD
  pos := t.pos
  k1 := h1.le
  k2 := h2
  k3 := h3
  exp := by
    intro Y y1 y2 y3
    have g1 : 0 < 1 - g := by linarith [t.g1]
    have g2 : 0 < 1 + g := by linarith [t.g2]
    have p1 : 0 ≤ (1 + g) * -pr Y K := mul_nonneg g2.le (by linarith)
    have x0 : 0 ≤ (-(1 + g) * pr Y K - pr Y b - pr Y c) / (1 - g) := div_nonneg (by linarith) g1.le
    have x1 : 0 ≤ -(pr Y K + pr Y c) / (1 - g) := div_nonneg (by linarith) g1.le
    have x2 : 0 ≤ -(pr Y K + pr Y b) / (1 - g) := div_nonneg (by linarith) g1.le
    refine ⟨_, _, _, x0, x1, x2, t.decomp Y, ?_⟩
    intro hs
    have : 0 < (-(1 + g) * pr Y K - pr Y b - pr Y c) / (1 - g) := by
      apply div_pos _ g1
      by_cases hK : pr Y K < 0
      · have : 0 < (1 + g) * -pr Y K := mul_pos g2 (by linarith)
        linarith
      · linarith
    have := mul_pos this h1
    have := mul_nonneg x1 h2
    have := mul_nonneg x2 h3
    linarith

/-- Two holes have no common point. -/
theorem Cell.sep {K L M D K' L' M' D' : GV} (t : Cell K L M D) (t' : Cell K' L' M' D') (a1 : pr D' K ≤ 0) (a2 : pr D' L ≤ 0) (a3 : pr D' M ≤ 0)
    (b1 : pr D K' ≤ 0) (b2 : pr D L' ≤ 0) (b3 : pr D M' ≤ 0) (hs : pr D' K + pr D' L + pr D' M < 0) {P : Pt} (h : P ∈ hole K L M D) :
    P ∉ hole K' L' M' D' := by
  obtain ⟨x, y, z, hx, hy, hz, e, hs'⟩ := t.exp D' a1 a2 a3
  obtain ⟨x', y', z', hx', hy', hz', e', -⟩ := t'.exp D b1 b2 b3
  have hs'' := hs' hs
  have hm : pr D' D ≤ 0 := by
    by_contra hm
    push Not at hm
    have hn : pr D' D' = x * pr D' K + y * pr D' L + z * pr D' M + pr D' D ^ 2 := by
      conv_lhs => arg 2; rw [e]
      simp only [pr_add', pr_smul']; ring
    rw [t'.nD] at hn
    have : 1 ≤ pr D' D ^ 2 := by nlinarith [mul_nonneg hx (neg_nonneg.2 a1), mul_nonneg hy (neg_nonneg.2 a2), mul_nonneg hz (neg_nonneg.2 a3)]
    have h1 : 1 ≤ pr D' D := by nlinarith
    have c1 := congrFun e 0
    have c2 := congrFun e' 0
    rw [pr_comm D D'] at c2
    simp only [Pi.add_apply, Pi.smul_apply, smul_eq_mul] at c1 c2
    have p1 := t.pos
    have p2 := t'.pos
    have := mul_nonneg hx' t'.k1
    have := mul_nonneg hy' t'.k2
    have := mul_nonneg hz' t'.k3
    have : D 0 ≤ pr D' D * D 0 := by nlinarith
    have : D' 0 ≤ pr D' D * D' 0 := by nlinarith
    linarith
  obtain ⟨q1, q2, q3, q4⟩ := h
  rintro ⟨-, -, -, q5⟩
  rw [e] at q5
  simp only [ev_add, ev_smul] at q5
  have := mul_nonneg hx q1.le
  have := mul_nonneg hy q2.le
  have := mul_nonneg hz q3.le
  have := mul_nonneg_of_nonpos_of_nonpos hm q4.le
  linarith

/-- The Malfatti circles and the sides of a triangle. -/
structure Malf (C1 C2 C3 a b c : GV) (e1 e2 e3 gA gB gC : ℝ) : Prop where
  n1 : pr C1 C1 = 1
  n2 : pr C2 C2 = 1
  n3 : pr C3 C3 = 1
  na : pr a a = 1
  nb : pr b b = 1
  nc : pr c c = 1
  t12 : pr C1 C2 = -1
  t13 : pr C1 C3 = -1
  t23 : pr C2 C3 = -1
  t1b : pr C1 b = -1
  t1c : pr C1 c = -1
  t2a : pr C2 a = -1
  t2c : pr C2 c = -1
  t3a : pr C3 a = -1
  t3b : pr C3 b = -1
  u1a : pr C1 a = -e1
  u2b : pr C2 b = -e2
  u3c : pr C3 c = -e3
  vA : pr b c = gA
  vB : pr a c = gB
  vC : pr a b = gC
  he1 : 1 ≤ e1
  he2 : 1 ≤ e2
  he3 : 1 ≤ e3
  gA1 : gA < 1
  gB1 : gB < 1
  gC1 : gC < 1
  gA2 : -1 < gA
  gB2 : -1 < gB
  gC2 : -1 < gC
  sAB : gA + gB < 0
  sAC : gA + gC < 0
  sBC : gB + gC < 0
  k1 : 0 < C1 0
  k2 : 0 < C2 0
  k3 : 0 < C3 0
  ka : a 0 = 0
  kb : b 0 = 0
  kc : c 0 = 0

namespace Malf

variable {C1 C2 C3 a b c : GV} {e1 e2 e3 gA gB gC : ℝ}

theorem swap (h : Malf C1 C2 C3 a b c e1 e2 e3 gA gB gC) : Malf C2 C1 C3 b a c e2 e1 e3 gB gA gC where
  n1 := h.n2
  n2 := h.n1
  n3 := h.n3
  na := h.nb
  nb := h.na
  nc := h.nc
  t12 := (pr_comm _ _).trans h.t12
  t13 := h.t23
  t23 := h.t13
  t1b := h.t2a
  t1c := h.t2c
  t2a := h.t1b
  t2c := h.t1c
  t3a := h.t3b
  t3b := h.t3a
  u1a := h.u2b
  u2b := h.u1a
  u3c := h.u3c
  vA := h.vB
  vB := h.vA
  vC := (pr_comm _ _).trans h.vC
  he1 := h.he2
  he2 := h.he1
  he3 := h.he3
  gA1 := h.gB1
  gB1 := h.gA1
  gC1 := h.gC1
  gA2 := h.gB2
  gB2 := h.gA2
  gC2 := h.gC2
  sAB := by have := h.sAB; linarith
  sAC := h.sBC
  sBC := h.sAC
  k1 := h.k2
  k2 := h.k1
  k3 := h.k3
  ka := h.kb
  kb := h.ka
  kc := h.kc

theorem rot (h : Malf C1 C2 C3 a b c e1 e2 e3 gA gB gC) : Malf C2 C3 C1 b c a e2 e3 e1 gB gC gA where
  n1 := h.n2
  n2 := h.n3
  n3 := h.n1
  na := h.nb
  nb := h.nc
  nc := h.na
  t12 := h.t23
  t13 := (pr_comm _ _).trans h.t12
  t23 := (pr_comm _ _).trans h.t13
  t1b := h.t2c
  t1c := h.t2a
  t2a := h.t3b
  t2c := h.t3a
  t3a := h.t1b
  t3b := h.t1c
  u1a := h.u2b
  u2b := h.u3c
  u3c := h.u1a
  vA := (pr_comm _ _).trans h.vB
  vB := (pr_comm _ _).trans h.vC
  vC := h.vA
  he1 := h.he2
  he2 := h.he3
  he3 := h.he1
  gA1 := h.gB1
  gB1 := h.gC1
  gC1 := h.gA1
  gA2 := h.gB2
  gB2 := h.gC2
  gC2 := h.gA2
  sAB := h.sBC
  sAC := by have := h.sAB; linarith
  sBC := by have := h.sAC; linarith
  k1 := h.k2
  k2 := h.k3
  k3 := h.k1
  ka := h.kb
  kb := h.kc
  kc := h.ka

/-- The hole between the three circles and a side. -/
theorem inner_a (h : Malf C1 C2 C3 a b c e1 e2 e3 gA gB gC) {D : GV} (t : Triple C1 C2 C3 D) :
    pr D a < 0 ∧ ∀ P ∈ hole C1 C2 C3 D, 0 < ev a P := by
  have e := t.decomp a
  rw [pr_comm a C1, pr_comm a C2, pr_comm a C3, pr_comm a D, h.u1a, h.t2a, h.t3a] at e
  have e0 := congrFun e 0
  simp only [Pi.add_apply, Pi.smul_apply, smul_eq_mul, h.ka] at e0
  have := h.k1
  have := h.k2
  have := h.k3
  have := h.he1
  have hm : pr D a < 0 := by
    by_contra hm
    push Not at hm
    have := mul_nonneg hm t.pos.le
    have := mul_pos (show 0 < -(-e1 + -1) / 2 by linarith) h.k2
    have := mul_pos (show 0 < -(-e1 + -1) / 2 by linarith) h.k3
    linarith
  refine ⟨hm, ?_⟩
  rintro P ⟨q1, q2, q3, q4⟩
  rw [e]
  simp only [ev_add, ev_smul]
  have := mul_pos_of_neg_of_neg hm q4
  have := mul_pos (show 0 < -(-e1 + -1) / 2 by linarith) q2
  have := mul_pos (show 0 < -(-e1 + -1) / 2 by linarith) q3
  linarith

/-- The hole at a side and another side. -/
theorem side_a (h : Malf C1 C2 C3 a b c e1 e2 e3 gA gB gC) {D : GV} (t : Triple C1 C2 c D) :
    pr D a < 0 ∧ ∀ P ∈ hole C1 C2 c D, 0 < ev a P := by
  have e := t.decomp a
  rw [pr_comm a C1, pr_comm a C2, h.vB, pr_comm a D, h.u1a, h.t2a] at e
  have e0 := congrFun e 0
  simp only [Pi.add_apply, Pi.smul_apply, smul_eq_mul, h.ka, h.kc] at e0
  have := h.he1
  have := h.gB1
  have hm : pr D a < 0 := by
    by_contra hm
    push Not at hm
    have := mul_nonneg hm t.pos.le
    have := mul_pos (show 0 < -(-1 + gB) / 2 by linarith) h.k1
    have := mul_pos (show 0 < -(-e1 + gB) / 2 by linarith) h.k2
    linarith
  refine ⟨hm, ?_⟩
  rintro P ⟨q1, q2, q3, q4⟩
  rw [e]
  simp only [ev_add, ev_smul]
  have := mul_pos_of_neg_of_neg hm q4
  have := mul_pos (show 0 < -(-1 + gB) / 2 by linarith) q1
  have := mul_pos (show 0 < -(-e1 + gB) / 2 by linarith) q2
  have := mul_pos (show 0 < -(-e1 + -1) / 2 by linarith) q3
  linarith

/-- The hole at a side and the third circle. -/
theorem side_3 (h : Malf C1 C2 C3 a b c e1 e2 e3 gA gB gC) {D : GV} (t : Triple C1 C2 c D) :
    pr D C3 < 0 ∧ ∀ P ∈ hole C1 C2 c D, 0 < ev C3 P := by
  have e := t.decomp C3
  rw [pr_comm C3 C1, pr_comm C3 C2, h.u3c, pr_comm C3 D, h.t13, h.t23] at e
  have hb := (side_a h t).1
  have ea : pr a C3 = -1 := (pr_comm _ _).trans h.t3a
  rw [e] at ea
  simp only [pr_add', pr_smul'] at ea
  rw [pr_comm a C1, pr_comm a C2, h.vB, pr_comm a D, h.u1a, h.t2a] at ea
  have he1 := h.he1
  have he3 := h.he3
  have := h.gB1
  have hm : pr D C3 < 0 := by
    by_contra hm
    push Not at hm
    have := mul_nonneg hm (neg_nonneg.2 hb.le)
    nlinarith [mul_nonneg (sub_nonneg.2 he1) (sub_nonneg.2 he3)]
  refine ⟨hm, ?_⟩
  rintro P ⟨q1, q2, q3, q4⟩
  rw [e]
  simp only [ev_add, ev_smul]
  have := mul_pos_of_neg_of_neg hm q4
  have := mul_pos (show 0 < -(-1 + -e3) / 2 by linarith) q1
  have := mul_pos (show 0 < -(-1 + -e3) / 2 by linarith) q2
  linarith

/-- The hole in a corner and the opposite side. -/
theorem corner_a (h : Malf C1 C2 C3 a b c e1 e2 e3 gA gB gC) {D : GV} (t : Wedge C1 b c D gA) :
    pr D a < 0 ∧ ∀ P ∈ hole C1 b c D, 0 < ev a P := by
  have e := t.decomp a
  rw [pr_comm a C1, h.vC, h.vB, pr_comm a D, h.u1a] at e
  have e0 := congrFun e 0
  simp only [Pi.add_apply, Pi.smul_apply, smul_eq_mul, h.ka, h.kb, h.kc] at e0
  have he1 := h.he1
  have g1 : 0 < 1 - gA := by linarith [h.gA1]
  have g2 : 0 < 1 + gA := by linarith [h.gA2]
  have hs := h.sBC
  have hB := h.gB1
  have hC := h.gC1
  have x0 : 0 < (-(1 + gA) * -e1 - gC - gB) / (1 - gA) := by
    apply div_pos _ g1
    have := mul_pos g2 (show 0 < e1 by linarith)
    linarith
  have x1 : 0 < -(-e1 + gB) / (1 - gA) := div_pos (by linarith) g1
  have x2 : 0 < -(-e1 + gC) / (1 - gA) := div_pos (by linarith) g1
  have hm : pr D a < 0 := by
    by_contra hm
    push Not at hm
    have := mul_nonneg hm t.pos.le
    have := mul_pos x0 h.k1
    linarith
  refine ⟨hm, ?_⟩
  rintro P ⟨q1, q2, q3, q4⟩
  rw [e]
  simp only [ev_add, ev_smul]
  have := mul_pos_of_neg_of_neg hm q4
  have := mul_pos x0 q1
  have := mul_pos x1 q2
  have := mul_pos x2 q3
  linarith

/-- The hole in a corner and another circle. -/
theorem corner_2 (h : Malf C1 C2 C3 a b c e1 e2 e3 gA gB gC) {D : GV} (t : Wedge C1 b c D gA) :
    pr D C2 < 0 ∧ ∀ P ∈ hole C1 b c D, 0 < ev C2 P := by
  have e := t.decomp C2
  rw [pr_comm C2 C1, h.u2b, h.t2c, pr_comm C2 D, h.t12] at e
  have hb := (corner_a h t).1
  have ea : pr a C2 = -1 := (pr_comm _ _).trans h.t2a
  rw [e] at ea
  simp only [pr_add', pr_smul'] at ea
  rw [pr_comm a C1, h.vC, h.vB, pr_comm a D, h.u1a] at ea
  have he1 := h.he1
  have he2 := h.he2
  have g1 : 0 < 1 - gA := by linarith [h.gA1]
  have g2 : 0 < 1 + gA := by linarith [h.gA2]
  have hs := h.sBC
  have hB := h.gB1
  have hC := h.gC1
  have x0 : 0 < (-(1 + gA) * -1 - -e2 - -1) / (1 - gA) := div_pos (by linarith) g1
  have x1 : 0 < -(-1 + -1) / (1 - gA) := div_pos (by linarith) g1
  have x2 : 0 < -(-1 + -e2) / (1 - gA) := div_pos (by linarith) g1
  have hm : pr D C2 < 0 := by
    by_contra hm
    push Not at hm
    have hmm := mul_nonneg hm (neg_nonneg.2 hb.le)
    have ea' : (1 + gA + e2 + 1) * e1 - 2 * gC - (1 + e2) * gB + (1 - gA) * (pr D C2 * -pr D a) = 1 - gA := by
      field_simp at ea
      linear_combination -ea
    have := mul_nonneg g1.le hmm
    nlinarith [mul_nonneg (show 0 ≤ 1 + gA + e2 + 1 by linarith) (sub_nonneg.2 he1), mul_nonneg (sub_nonneg.2 he2) (sub_nonneg.2 hB.le)]
  refine ⟨hm, ?_⟩
  rintro P ⟨q1, q2, q3, q4⟩
  rw [e]
  simp only [ev_add, ev_smul]
  have := mul_pos_of_neg_of_neg hm q4
  have := mul_pos x0 q1
  have := mul_pos x1 q2
  have := mul_pos x2 q3
  linarith

/-- The points inside the triangle and outside the three circles. -/
def free (C1 C2 C3 a b c : GV) : Set Pt := {P | 0 < ev C1 P ∧ 0 < ev C2 P ∧ 0 < ev C3 P ∧ 0 < ev a P ∧ 0 < ev b P ∧ 0 < ev c P}

theorem side_signs (h : Malf C1 C2 C3 a b c e1 e2 e3 gA gB gC) {D : GV} (t : Triple C1 C2 c D) :
    pr D C1 = 0 ∧ pr D C2 = 0 ∧ pr D C3 < 0 ∧ pr D a < 0 ∧ pr D b < 0 ∧ pr D c = 0 :=
  ⟨t.o1, t.o2, (side_3 h t).1, (side_a h t).1, (side_a h.swap t.swap).1, t.o3⟩

theorem side_free (h : Malf C1 C2 C3 a b c e1 e2 e3 gA gB gC) {D : GV} (t : Triple C1 C2 c D) : hole C1 C2 c D ⊆ free C1 C2 C3 a b c :=
  fun P hP => ⟨hP.1, hP.2.1, (side_3 h t).2 P hP, (side_a h t).2 P hP, (side_a h.swap t.swap).2 P (by rw [hole_swap]; exact hP), hP.2.2.1⟩

theorem inner_signs (h : Malf C1 C2 C3 a b c e1 e2 e3 gA gB gC) {D : GV} (t : Triple C1 C2 C3 D) :
    pr D C1 = 0 ∧ pr D C2 = 0 ∧ pr D C3 = 0 ∧ pr D a < 0 ∧ pr D b < 0 ∧ pr D c < 0 :=
  ⟨t.o1, t.o2, t.o3, (inner_a h t).1, (inner_a h.rot t.rotate).1, (inner_a h.rot.rot t.rotate.rotate).1⟩

theorem inner_free (h : Malf C1 C2 C3 a b c e1 e2 e3 gA gB gC) {D : GV} (t : Triple C1 C2 C3 D) : hole C1 C2 C3 D ⊆ free C1 C2 C3 a b c :=
  fun P hP => ⟨hP.1, hP.2.1, hP.2.2.1, (inner_a h t).2 P hP, (inner_a h.rot t.rotate).2 P (by rw [hole_rotate]; exact hP),
    (inner_a h.rot.rot t.rotate.rotate).2 P (by rw [hole_rotate, hole_rotate]; exact hP)⟩

theorem _root_.GV.Wedge.swap {K b c D : GV} {g : ℝ} (t : Wedge K b c D g) : Wedge K c b D g :=
  ⟨t.n1, t.n3, t.n2, t.t13, t.t12, (pr_comm _ _).trans t.t23, t.nD, t.o1, t.o3, t.o2, t.pos, t.g1, t.g2⟩

theorem _root_.GV.hole_swap' (K L M D : GV) : hole K M L D = hole K L M D := by
  ext P; unfold hole; simp only [Set.mem_setOf_eq]; tauto

theorem corner_signs (h : Malf C1 C2 C3 a b c e1 e2 e3 gA gB gC) {D : GV} (t : Wedge C1 b c D gA) :
    pr D C1 = 0 ∧ pr D C2 < 0 ∧ pr D C3 < 0 ∧ pr D a < 0 ∧ pr D b = 0 ∧ pr D c = 0 :=
  ⟨t.o1, (corner_2 h t).1, (corner_2 h.swap.rot t.swap).1, (corner_a h t).1, t.o2, t.o3⟩

theorem corner_free (h : Malf C1 C2 C3 a b c e1 e2 e3 gA gB gC) {D : GV} (t : Wedge C1 b c D gA) : hole C1 b c D ⊆ free C1 C2 C3 a b c :=
  fun P hP => ⟨hP.1, (corner_2 h t).2 P hP, (corner_2 h.swap.rot t.swap).2 P (by rw [hole_swap']; exact hP), (corner_a h t).2 P hP, hP.2.1, hP.2.2.1⟩

theorem side_cell (h : Malf C1 C2 C3 a b c e1 e2 e3 gA gB gC) {D : GV} (t : Triple C1 C2 c D) : Cell C1 C2 c D := t.cell h.k1 h.k2 h.kc.ge

theorem corner_cell (h : Malf C1 C2 C3 a b c e1 e2 e3 gA gB gC) {D : GV} (t : Wedge C1 b c D gA) : Cell C1 b c D := t.cell h.k1 h.kb.ge h.kc.ge

theorem inner_cell (h : Malf C1 C2 C3 a b c e1 e2 e3 gA gB gC) {D : GV} (t : Triple C1 C2 C3 D) : Cell C1 C2 C3 D := t.cell h.k1 h.k2 h.k3.le

theorem sides_apart (h : Malf C1 C2 C3 a b c e1 e2 e3 gA gB gC) {D E : GV} (t : Triple C1 C2 c D) (s : Triple C2 C3 a E) {P : Pt}
    (hP : P ∈ hole C1 C2 c D) : P ∉ hole C2 C3 a E := by
  obtain ⟨x1, x2, x3, x4, x5, x6⟩ := side_signs h t
  obtain ⟨y1, y2, y3, y4, y5, y6⟩ := side_signs h.rot s
  exact (side_cell h t).sep (side_cell h.rot s) y3.le y1.le y5.le x2.le x3.le x4.le (by linarith) hP

theorem side_inner (h : Malf C1 C2 C3 a b c e1 e2 e3 gA gB gC) {D E : GV} (t : Triple C1 C2 c D) (s : Triple C1 C2 C3 E) {P : Pt}
    (hP : P ∈ hole C1 C2 c D) : P ∉ hole C1 C2 C3 E := by
  obtain ⟨x1, x2, x3, x4, x5, x6⟩ := side_signs h t
  obtain ⟨y1, y2, y3, y4, y5, y6⟩ := inner_signs h s
  exact (side_cell h t).sep (inner_cell h s) y1.le y2.le y6.le x1.le x2.le x3.le (by linarith) hP

theorem corners_apart (h : Malf C1 C2 C3 a b c e1 e2 e3 gA gB gC) {D E : GV} (t : Wedge C1 b c D gA) (s : Wedge C2 c a E gB) {P : Pt}
    (hP : P ∈ hole C1 b c D) : P ∉ hole C2 c a E := by
  obtain ⟨x1, x2, x3, x4, x5, x6⟩ := corner_signs h t
  obtain ⟨y1, y2, y3, y4, y5, y6⟩ := corner_signs h.rot s
  exact (corner_cell h t).sep (corner_cell h.rot s) y3.le y4.le y5.le x2.le x6.le x4.le (by linarith) hP

theorem corner_side (h : Malf C1 C2 C3 a b c e1 e2 e3 gA gB gC) {D E : GV} (t : Wedge C1 b c D gA) (s : Triple C1 C2 c E) {P : Pt}
    (hP : P ∈ hole C1 b c D) : P ∉ hole C1 C2 c E := by
  obtain ⟨x1, x2, x3, x4, x5, x6⟩ := corner_signs h t
  obtain ⟨y1, y2, y3, y4, y5, y6⟩ := side_signs h s
  exact (corner_cell h t).sep (side_cell h s) y1.le y5.le y6.le x1.le x2.le x6.le (by linarith) hP

theorem corner_opp (h : Malf C1 C2 C3 a b c e1 e2 e3 gA gB gC) {D E : GV} (t : Wedge C1 b c D gA) (s : Triple C2 C3 a E) {P : Pt}
    (hP : P ∈ hole C1 b c D) : P ∉ hole C2 C3 a E := by
  obtain ⟨x1, x2, x3, x4, x5, x6⟩ := corner_signs h t
  obtain ⟨y1, y2, y3, y4, y5, y6⟩ := side_signs h.rot s
  exact (corner_cell h t).sep (side_cell h.rot s) y3.le y4.le y5.le x2.le x3.le x4.le (by linarith) hP

theorem corner_inner (h : Malf C1 C2 C3 a b c e1 e2 e3 gA gB gC) {D E : GV} (t : Wedge C1 b c D gA) (s : Triple C1 C2 C3 E) {P : Pt}
    (hP : P ∈ hole C1 b c D) : P ∉ hole C1 C2 C3 E := by
  obtain ⟨x1, x2, x3, x4, x5, x6⟩ := corner_signs h t
  obtain ⟨y1, y2, y3, y4, y5, y6⟩ := inner_signs h s
  exact (corner_cell h t).sep (inner_cell h s) y1.le y5.le y6.le x1.le x2.le x3.le (by linarith) hP

theorem free_rot : free C2 C3 C1 b c a = free C1 C2 C3 a b c := by
  ext P; unfold free; simp only [Set.mem_setOf_eq]; tauto

/-- The seven holes are pairwise without common points. -/
theorem holes_apart (h : Malf C1 C2 C3 a b c e1 e2 e3 gA gB gC) {Dc Da Db D0 EA EB EC : GV} (tc : Triple C1 C2 c Dc) (ta : Triple C2 C3 a Da)
    (tb : Triple C3 C1 b Db) (t0 : Triple C1 C2 C3 D0) (wA : Wedge C1 c b EA gA) (wB : Wedge C2 c a EB gB) (wC : Wedge C3 b a EC gC) :
    List.Pairwise Disjoint [hole C1 C2 c Dc, hole C2 C3 a Da, hole C3 C1 b Db, hole C1 C2 C3 D0, hole C1 c b EA, hole C2 c a EB, hole C3 b a EC] := by
  have eA : hole C1 c b EA = hole C1 b c EA := hole_swap' _ _ _ _
  have eC : hole C3 b a EC = hole C3 a b EC := hole_swap' _ _ _ _
  have eBs : hole C2 c a EB = hole C2 a c EB := hole_swap' _ _ _ _
  have r1 := h.rot
  have r2 := h.rot.rot
  have s1 := h.swap.rot
  have s2 := h.rot.swap.rot
  have s3 := h.rot.rot.swap.rot
  simp only [List.pairwise_cons, List.mem_cons, List.not_mem_nil, or_false, forall_eq_or_imp, forall_eq, Set.disjoint_left]
  refine ⟨⟨?_, ?_, ?_, ?_, ?_, ?_⟩, ⟨?_, ?_, ?_, ?_, ?_⟩, ⟨?_, ?_, ?_, ?_⟩, ⟨?_, ?_, ?_⟩, ⟨?_, ?_⟩, ?_, by simp⟩
  · exact fun P p => sides_apart h tc ta p
  · exact fun P p q => sides_apart r2 tb tc q p
  · exact fun P p => side_inner h tc t0 p
  · exact fun P p q => corner_side h wA.swap tc (eA ▸ q) p
  · exact fun P p q => corner_side s2 wB.swap tc.swap (eBs ▸ q) (by rw [hole_swap]; exact p)
  · exact fun P p q => corner_opp r2 wC.swap tc (eC ▸ q) p
  · exact fun P p => sides_apart r1 ta tb p
  · exact fun P p q => side_inner r1 ta t0.rotate p (by rw [hole_rotate]; exact q)
  · exact fun P p q => corner_opp h wA.swap ta (eA ▸ q) p
  · exact fun P p q => corner_side r1 wB ta q p
  · exact fun P p q => corner_side s3 wC ta.swap q (by rw [hole_swap]; exact p)
  · exact fun P p q => side_inner r2 tb t0.rotate.rotate p (by rw [hole_rotate, hole_rotate]; exact q)
  · exact fun P p q => corner_side s1 wA tb.swap q (by rw [hole_swap]; exact p)
  · exact fun P p q => corner_opp r1 wB tb q p
  · exact fun P p q => corner_side r2 wC.swap tb (eC ▸ q) p
  · exact fun P p q => corner_inner h wA.swap t0 (eA ▸ q) p
  · exact fun P p q => corner_inner r1 wB t0.rotate q (by rw [hole_rotate]; exact p)
  · exact fun P p q => corner_inner r2 wC.swap t0.rotate.rotate (eC ▸ q) (by rw [hole_rotate, hole_rotate]; exact p)
  · exact fun P p q => corners_apart h wA.swap wB (eA ▸ p) q
  · exact fun P p q => corners_apart r2 wC.swap wA.swap (eC ▸ q) (eA ▸ p)
  · exact fun P p q => corners_apart r1 wB wC.swap p (eC ▸ q)

/-- Each of the seven holes is inside the triangle and outside the circles. -/
theorem holes_free (h : Malf C1 C2 C3 a b c e1 e2 e3 gA gB gC) {Dc Da Db D0 EA EB EC : GV} (tc : Triple C1 C2 c Dc) (ta : Triple C2 C3 a Da)
    (tb : Triple C3 C1 b Db) (t0 : Triple C1 C2 C3 D0) (wA : Wedge C1 c b EA gA) (wB : Wedge C2 c a EB gB) (wC : Wedge C3 b a EC gC) :
    ∀ R ∈ [hole C1 C2 c Dc, hole C2 C3 a Da, hole C3 C1 b Db, hole C1 C2 C3 D0, hole C1 c b EA, hole C2 c a EB, hole C3 b a EC],
      R ⊆ free C1 C2 C3 a b c := by
  have eA : hole C1 c b EA = hole C1 b c EA := hole_swap' _ _ _ _
  have eC : hole C3 b a EC = hole C3 a b EC := hole_swap' _ _ _ _
  simp only [List.mem_cons, List.not_mem_nil, or_false, forall_eq_or_imp, forall_eq]
  refine ⟨side_free h tc, ?_, ?_, inner_free h t0, ?_, ?_, ?_⟩
  · rw [← free_rot]; exact side_free h.rot ta
  · rw [← free_rot, ← free_rot]; exact side_free h.rot.rot tb
  · rw [eA]; exact corner_free h wA.swap
  · rw [← free_rot]; exact corner_free h.rot wB
  · rw [eC, ← free_rot, ← free_rot]; exact corner_free h.rot.rot wC.swap

end Malf

end
end GV
