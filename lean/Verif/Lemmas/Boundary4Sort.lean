import Verif.Spec.ConvexPosition
import Verif.Model.Boundary4
import Mathlib.Algebra.BigOperators.Field
import Mathlib.Data.Fintype.Perm

/-!
# The order of the points in `from_boundary4`
-/

open Spec Real

namespace Boundary4

/-- `A B C D` are the vertices of a convex quadrilateral in clockwise order. -/
structure CW (A B C D : Pt) : Prop where
  a : cross (B - A) (C - A) < 0
  b : cross (C - B) (D - B) < 0
  c : cross (D - C) (A - C) < 0
  d : cross (A - D) (B - D) < 0

theorem CW.rotate {A B C D : Pt} (h : CW A B C D) : CW B C D A := ⟨h.b, h.c, h.d, h.a⟩

/-- In an affine relation between points in convex position there is not exactly one positive coefficient. -/
theorem not_one_pos {P : Fin 4 → Pt} (h : ConvexPosition P) (l : Fin 4 → ℝ) (hs : ∑ j, l j = 0) (hx : ∑ j, l j * (P j).x = 0)
    (hy : ∑ j, l j * (P j).y = 0) (i : Fin 4) (hi : 0 < l i) : ∃ j, j ≠ i ∧ 0 < l j := by
  by_contra hcon
  push Not at hcon
  have aux : ∀ f : Fin 4 → ℝ, ∑ j, (if j = i then 0 else -(l j) / l i) * f j = f i - (∑ j, l j * f j) / l i := by
    intro f
    have : ∀ j, (if j = i then 0 else -(l j) / l i) * f j = (if j = i then f j else 0) - (l j * f j) / l i := by
      intro j
      by_cases hj : j = i
      · subst hj; simp; field_simp; ring
      · simp [hj]; ring
    rw [Finset.sum_congr rfl fun j _ => this j, Finset.sum_sub_distrib, Finset.sum_div]
    simp
  refine h i ⟨fun j => if j = i then 0 else -(l j) / l i, ?_, ?_, ?_, ?_⟩
  · intro j
    dsimp only
    split_ifs with hj
    · exact le_refl _
    · exact div_nonneg (by linarith [hcon j hj]) hi.le
  · simp
  · have := aux fun _ => 1
    simp only [mul_one] at this
    rw [this, hs]; simp
  · ext
    · dsimp only; rw [aux fun j => (P j).x, hx]; simp
    · dsimp only; rw [aux fun j => (P j).y, hy]; simp

theorem cp_distinct {P : Fin 4 → Pt} (h : ConvexPosition P) {i j : Fin 4} (hij : i ≠ j) : P i ≠ P j := by
  intro he
  refine h i ⟨fun k => if k = j then 1 else 0, fun k => by dsimp only; split_ifs <;> norm_num, by simp [hij], by simp, ?_⟩
  rw [he]; ext <;> simp

theorem cp_not_collinear {P : Fin 4 → Pt} (h : ConvexPosition P) (h0 : cross (P 1 - P 0) (P 2 - P 0) = 0) : False := by
  have hne : P 0 ≠ P 1 := cp_distinct h (by decide)
  unfold cross at h0
  simp at h0
  have hq : 0 < ((P 1).x - (P 0).x) ^ 2 + ((P 1).y - (P 0).y) ^ 2 := by
    by_contra hcon
    have hx : (P 1).x - (P 0).x = 0 := by nlinarith [sq_nonneg ((P 1).x - (P 0).x), sq_nonneg ((P 1).y - (P 0).y)]
    have hy : (P 1).y - (P 0).y = 0 := by nlinarith [sq_nonneg ((P 1).x - (P 0).x), sq_nonneg ((P 1).y - (P 0).y)]
    exact hne (by ext <;> linarith)
  obtain ⟨q, hqe⟩ : ∃ q, q = ((P 1).x - (P 0).x) ^ 2 + ((P 1).y - (P 0).y) ^ 2 := ⟨_, rfl⟩
  rw [← hqe] at hq
  obtain ⟨t, ht⟩ : ∃ t, t = (((P 1).x - (P 0).x) * ((P 2).x - (P 0).x) + ((P 1).y - (P 0).y) * ((P 2).y - (P 0).y)) := ⟨_, rfl⟩
  -- q (P2 - P0) = t (P1 - P0)
  have ex : q * ((P 2).x - (P 0).x) = t * ((P 1).x - (P 0).x) := by
    rw [hqe, ht]; linear_combination (-((P 1).y - (P 0).y)) * h0
  have ey : q * ((P 2).y - (P 0).y) = t * ((P 1).y - (P 0).y) := by
    rw [hqe, ht]; linear_combination ((P 1).x - (P 0).x) * h0
  -- the relation (t - q) P0 - t P1 + q P2 = 0
  have hs : ∑ j, (![t - q, -t, q, 0] : Fin 4 → ℝ) j = 0 := by rw [Fin.sum_univ_four]; simp; ring
  have hx : ∑ j, (![t - q, -t, q, 0] : Fin 4 → ℝ) j * (P j).x = 0 := by
    rw [Fin.sum_univ_four]; simp; linear_combination ex
  have hy : ∑ j, (![t - q, -t, q, 0] : Fin 4 → ℝ) j * (P j).y = 0 := by
    rw [Fin.sum_univ_four]; simp; linear_combination ey
  have hs' : ∑ j, (![q - t, t, -q, 0] : Fin 4 → ℝ) j = 0 := by rw [Fin.sum_univ_four]; simp
  have hx' : ∑ j, (![q - t, t, -q, 0] : Fin 4 → ℝ) j * (P j).x = 0 := by
    rw [Fin.sum_univ_four]; simp; linear_combination -ex
  have hy' : ∑ j, (![q - t, t, -q, 0] : Fin 4 → ℝ) j * (P j).y = 0 := by
    rw [Fin.sum_univ_four]; simp; linear_combination -ey
  have r1 := not_one_pos h _ hs hx hy 2 (by simpa using hq)
  have r2 := not_one_pos h _ hs' hx' hy'
  obtain ⟨j, hj, hj'⟩ := r1
  fin_cases j
  · simp at hj'
    obtain ⟨k, hk, hk'⟩ := r2 1 (by simp; linarith)
    fin_cases k
    · simp at hk'; linarith
    · exact hk rfl
    · simp at hk'; linarith
    · simp at hk'
  · simp at hj'
    obtain ⟨k, hk, hk'⟩ := r2 0 (by simp; linarith)
    fin_cases k
    · exact hk rfl
    · simp at hk'; linarith
    · simp at hk'; linarith
    · simp at hk'
  · exact hj rfl
  · simp at hj'

/-- The permutation with the given values. -/
noncomputable def permOf (v : Fin 4 → Fin 4) (h : Function.Injective v) : Equiv.Perm (Fin 4) :=
  Equiv.ofBijective v (Finite.injective_iff_bijective.1 h)

theorem signs {a b c d : ℝ} (hs : d - c + b - a = 0) (ha : a ≠ 0) (r0 : 0 < d → 0 < -c ∨ 0 < b ∨ 0 < -a) (r1 : 0 < -c → 0 < d ∨ 0 < b ∨ 0 < -a)
    (r2 : 0 < b → 0 < d ∨ 0 < -c ∨ 0 < -a) (r3 : 0 < -a → 0 < d ∨ 0 < -c ∨ 0 < b) (r0' : 0 < -d → 0 < c ∨ 0 < -b ∨ 0 < a)
    (r1' : 0 < c → 0 < -d ∨ 0 < -b ∨ 0 < a) (r2' : 0 < -b → 0 < -d ∨ 0 < c ∨ 0 < a)
    (r3' : 0 < a → 0 < -d ∨ 0 < c ∨ 0 < -b) :
    (0 < a ∧ 0 < b ∧ 0 < c ∧ 0 < d) ∨ (a < 0 ∧ b < 0 ∧ c < 0 ∧ d < 0) ∨ (0 < a ∧ b < 0 ∧ c < 0 ∧ 0 < d) ∨
      (a < 0 ∧ 0 < b ∧ 0 < c ∧ d < 0) ∨ (a < 0 ∧ b < 0 ∧ 0 < c ∧ 0 < d) ∨ (0 < a ∧ 0 < b ∧ c < 0 ∧ d < 0) := by
  rcases lt_trichotomy a 0 with ka | ka | ka
  · rcases lt_trichotomy b 0 with kb | kb | kb <;> rcases lt_trichotomy c 0 with kc | kc | kc <;>
      rcases lt_trichotomy d 0 with kd | kd | kd <;> grind
  · exact absurd ka ha
  · rcases lt_trichotomy b 0 with kb | kb | kb <;> rcases lt_trichotomy c 0 with kc | kc | kc <;>
      rcases lt_trichotomy d 0 with kd | kd | kd <;> grind

/-- Four points in convex position are the vertices of a convex quadrilateral in a suitable order. -/
theorem exists_cw {P : Fin 4 → Pt} (h : ConvexPosition P) :
    ∃ τ : Equiv.Perm (Fin 4), CW (P (τ 0)) (P (τ 1)) (P (τ 2)) (P (τ 3)) := by
  obtain ⟨a, ha⟩ : ∃ a, a = cross (P 1 - P 0) (P 2 - P 0) := ⟨_, rfl⟩
  obtain ⟨b, hb⟩ : ∃ b, b = cross (P 1 - P 0) (P 3 - P 0) := ⟨_, rfl⟩
  obtain ⟨c, hc⟩ : ∃ c, c = cross (P 2 - P 0) (P 3 - P 0) := ⟨_, rfl⟩
  obtain ⟨d, hd⟩ : ∃ d, d = cross (P 2 - P 1) (P 3 - P 1) := ⟨_, rfl⟩
  have ha0 : a ≠ 0 := fun h0 => cp_not_collinear h (ha ▸ h0)
  have hs : ∑ j, (![d, -c, b, -a] : Fin 4 → ℝ) j = 0 := by
    rw [Fin.sum_univ_four, ha, hb, hc, hd]; unfold cross; simp; ring
  have hx : ∑ j, (![d, -c, b, -a] : Fin 4 → ℝ) j * (P j).x = 0 := by
    rw [Fin.sum_univ_four, ha, hb, hc, hd]; unfold cross; simp; ring
  have hy : ∑ j, (![d, -c, b, -a] : Fin 4 → ℝ) j * (P j).y = 0 := by
    rw [Fin.sum_univ_four, ha, hb, hc, hd]; unfold cross; simp; ring
  have hs' : ∑ j, (![-d, c, -b, a] : Fin 4 → ℝ) j = 0 := by
    rw [Fin.sum_univ_four, ha, hb, hc, hd]; unfold cross; simp; ring
  have hx' : ∑ j, (![-d, c, -b, a] : Fin 4 → ℝ) j * (P j).x = 0 := by
    rw [Fin.sum_univ_four, ha, hb, hc, hd]; unfold cross; simp; ring
  have hy' : ∑ j, (![-d, c, -b, a] : Fin 4 → ℝ) j * (P j).y = 0 := by
    rw [Fin.sum_univ_four, ha, hb, hc, hd]; unfold cross; simp; ring
  have r := not_one_pos h _ hs hx hy
  have r' := not_one_pos h _ hs' hx' hy'
  have ex : ∀ (l : Fin 4 → ℝ) (i : Fin 4), (∃ j, j ≠ i ∧ 0 < l j) →
      (0 ≠ i ∧ 0 < l 0) ∨ (1 ≠ i ∧ 0 < l 1) ∨ (2 ≠ i ∧ 0 < l 2) ∨ (3 ≠ i ∧ 0 < l 3) := by
    rintro l i ⟨j, hj, hl⟩
    fin_cases j
    · exact Or.inl ⟨hj, hl⟩
    · exact Or.inr (Or.inl ⟨hj, hl⟩)
    · exact Or.inr (Or.inr (Or.inl ⟨hj, hl⟩))
    · exact Or.inr (Or.inr (Or.inr ⟨hj, hl⟩))
  have r0 : 0 < d → 0 < -c ∨ 0 < b ∨ 0 < -a := fun k => by simpa using ex _ _ (r 0 (by simpa using k))
  have r1 : 0 < -c → 0 < d ∨ 0 < b ∨ 0 < -a := fun k => by simpa using ex _ _ (r 1 (by simpa using k))
  have r2 : 0 < b → 0 < d ∨ 0 < -c ∨ 0 < -a := fun k => by simpa using ex _ _ (r 2 (by simpa using k))
  have r3 : 0 < -a → 0 < d ∨ 0 < -c ∨ 0 < b := fun k => by simpa using ex _ _ (r 3 (by simpa using k))
  have r0' : 0 < -d → 0 < c ∨ 0 < -b ∨ 0 < a := fun k => by simpa using ex _ _ (r' 0 (by simpa using k))
  have r1' : 0 < c → 0 < -d ∨ 0 < -b ∨ 0 < a := fun k => by simpa using ex _ _ (r' 1 (by simpa using k))
  have r2' : 0 < -b → 0 < -d ∨ 0 < c ∨ 0 < a := fun k => by simpa using ex _ _ (r' 2 (by simpa using k))
  have r3' : 0 < a → 0 < -d ∨ 0 < c ∨ 0 < -b := fun k => by simpa using ex _ _ (r' 3 (by simpa using k))
  have hsum : d - c + b - a = 0 := by rw [Fin.sum_univ_four] at hs; simpa [sub_eq_add_neg] using hs
  have fin : (0 < a ∧ 0 < b ∧ 0 < c ∧ 0 < d) ∨ (a < 0 ∧ b < 0 ∧ c < 0 ∧ d < 0) ∨ (0 < a ∧ b < 0 ∧ c < 0 ∧ 0 < d) ∨
      (a < 0 ∧ 0 < b ∧ 0 < c ∧ d < 0) ∨ (a < 0 ∧ b < 0 ∧ 0 < c ∧ 0 < d) ∨ (0 < a ∧ 0 < b ∧ c < 0 ∧ d < 0) := by
    exact signs hsum ha0 r0 r1 r2 r3 r0' r1' r2' r3'
  unfold cross at ha hb hc hd
  simp at ha hb hc hd
  rcases fin with ⟨k1, k2, k3, k4⟩ | ⟨k1, k2, k3, k4⟩ | ⟨k1, k2, k3, k4⟩ | ⟨k1, k2, k3, k4⟩ | ⟨k1, k2, k3, k4⟩ | ⟨k1, k2, k3, k4⟩
  · refine ⟨permOf ![0, 3, 2, 1] (by decide), ⟨?_, ?_, ?_, ?_⟩⟩ <;> simp [permOf, cross] <;> linarith
  · refine ⟨permOf ![0, 1, 2, 3] (by decide), ⟨?_, ?_, ?_, ?_⟩⟩ <;> simp [permOf, cross] <;> linarith
  · refine ⟨permOf ![0, 2, 1, 3] (by decide), ⟨?_, ?_, ?_, ?_⟩⟩ <;> simp [permOf, cross] <;> linarith
  · refine ⟨permOf ![0, 3, 1, 2] (by decide), ⟨?_, ?_, ?_, ?_⟩⟩ <;> simp [permOf, cross] <;> linarith
  · refine ⟨permOf ![0, 1, 3, 2] (by decide), ⟨?_, ?_, ?_, ?_⟩⟩ <;> simp [permOf, cross] <;> linarith
  · refine ⟨permOf ![0, 2, 3, 1] (by decide), ⟨?_, ?_, ?_, ?_⟩⟩ <;> simp [permOf, cross] <;> linarith

/-- The sine of the difference of the arguments. -/
theorem cross_arg (u v : Pt) : cross u v = ‖(⟨u.x, u.y⟩ : ℂ)‖ * ‖(⟨v.x, v.y⟩ : ℂ)‖ * sin (atan2 v.y v.x - atan2 u.y u.x) := by
  unfold atan2 cross
  have h1 := Complex.norm_mul_cos_arg (⟨u.x, u.y⟩ : ℂ)
  have h2 := Complex.norm_mul_sin_arg (⟨u.x, u.y⟩ : ℂ)
  have h3 := Complex.norm_mul_cos_arg (⟨v.x, v.y⟩ : ℂ)
  have h4 := Complex.norm_mul_sin_arg (⟨v.x, v.y⟩ : ℂ)
  dsimp only at h1 h2 h3 h4
  rw [sin_sub]
  obtain ⟨n, hn⟩ : ∃ n, n = ‖(⟨u.x, u.y⟩ : ℂ)‖ := ⟨_, rfl⟩
  obtain ⟨m, hm⟩ : ∃ m, m = ‖(⟨v.x, v.y⟩ : ℂ)‖ := ⟨_, rfl⟩
  rw [← hn] at h1 h2 ⊢
  rw [← hm] at h3 h4 ⊢
  obtain ⟨α, hα⟩ : ∃ α, α = Complex.arg (⟨u.x, u.y⟩ : ℂ) := ⟨_, rfl⟩
  obtain ⟨β, hβ⟩ : ∃ β, β = Complex.arg (⟨v.x, v.y⟩ : ℂ) := ⟨_, rfl⟩
  rw [← hα] at h1 h2 ⊢
  rw [← hβ] at h3 h4 ⊢
  rw [← h1, ← h2, ← h3, ← h4]
  ring

theorem sin_neg_of_cross {u v : Pt} (h : cross u v < 0) : sin (atan2 v.y v.x - atan2 u.y u.x) < 0 := by
  rw [cross_arg] at h
  by_contra hcon
  push Not at hcon
  exact absurd (mul_nonneg (mul_nonneg (norm_nonneg _) (norm_nonneg _)) hcon) (not_le.2 h)

theorem turn {d : ℝ} (h1 : -(2 * π) < d) (h2 : d < 2 * π) (h : sin d < 0) : (-π < d ∧ d < 0) ∨ (π < d ∧ d < 2 * π) := by
  have hp := pi_pos
  rcases lt_or_ge d 0 with h3 | h3
  · left
    refine ⟨?_, h3⟩
    by_contra hcon
    push Not at hcon
    have : 0 ≤ sin (d + 2 * π) := sin_nonneg_of_nonneg_of_le_pi (by linarith) (by linarith)
    rw [sin_add_two_pi] at this
    linarith
  · right
    refine ⟨?_, h2⟩
    by_contra hcon
    push Not at hcon
    linarith [sin_nonneg_of_nonneg_of_le_pi h3 hcon]

/-- Four angles that turn clockwise are in descending order, up to the starting point. -/
theorem descending {a b c d : ℝ} (ha : -π < a ∧ a ≤ π) (hb : -π < b ∧ b ≤ π) (hc : -π < c ∧ c ≤ π) (hd : -π < d ∧ d ≤ π)
    (h1 : sin (b - a) < 0) (h2 : sin (c - b) < 0) (h3 : sin (d - c) < 0) (h4 : sin (a - d) < 0) :
    (b < a ∧ c < b ∧ d < c) ∨ (c < b ∧ d < c ∧ a < d) ∨ (d < c ∧ a < d ∧ b < a) ∨ (a < d ∧ b < a ∧ c < b) := by
  have hp := pi_pos
  rcases turn (by linarith [ha.2, hb.1]) (by linarith [ha.1, hb.2]) h1 with k1 | k1 <;>
  rcases turn (by linarith [hb.2, hc.1]) (by linarith [hb.1, hc.2]) h2 with k2 | k2 <;>
  rcases turn (by linarith [hc.2, hd.1]) (by linarith [hc.1, hd.2]) h3 with k3 | k3 <;>
  rcases turn (by linarith [hd.2, ha.1]) (by linarith [hd.1, ha.2]) h4 with k4 | k4
  all_goals first
    | (exfalso; linarith [k1.1, k1.2, k2.1, k2.2, k3.1, k3.2, k4.1, k4.2])
    | exact Or.inl ⟨by linarith [k1.2], by linarith [k2.2], by linarith [k3.2]⟩
    | exact Or.inr (Or.inl ⟨by linarith [k2.2], by linarith [k3.2], by linarith [k4.2]⟩)
    | exact Or.inr (Or.inr (Or.inl ⟨by linarith [k3.2], by linarith [k4.2], by linarith [k1.2]⟩))
    | exact Or.inr (Or.inr (Or.inr ⟨by linarith [k4.2], by linarith [k1.2], by linarith [k2.2]⟩))

theorem monotone_perm : ∀ ρ : Equiv.Perm (Fin 4), (∀ i j, i ≤ j → ρ i ≤ ρ j) → ρ = 1 := by decide

/-- The sorting permutation of four numbers is determined if they are different. -/
theorem argsort_eq {env : Env} (h : env.Ok) (v : Fin 4 → ℝ) (τ : Equiv.Perm (Fin 4)) (h1 : v (τ 0) < v (τ 1))
    (h2 : v (τ 1) < v (τ 2)) (h3 : v (τ 2) < v (τ 3)) : env.argsort v = τ := by
  have key : τ⁻¹ * env.argsort v = 1 := by
    apply monotone_perm
    intro i j hij
    have k := h.argsort v i j hij
    obtain ⟨a, ha⟩ : ∃ a, a = (τ⁻¹ * env.argsort v) i := ⟨_, rfl⟩
    obtain ⟨b, hb⟩ : ∃ b, b = (τ⁻¹ * env.argsort v) j := ⟨_, rfl⟩
    have ha' : env.argsort v i = τ a := by rw [ha]; simp
    have hb' : env.argsort v j = τ b := by rw [hb]; simp
    rw [ha', hb'] at k
    rw [← ha, ← hb]
    by_contra hcon
    push Not at hcon
    have sm : StrictMono fun i => v (τ i) := by
      rw [Fin.strictMono_iff_lt_succ]
      intro i
      fin_cases i
      · exact h1
      · exact h2
      · exact h3
    exact absurd (sm hcon) (not_lt.2 k)
  exact (eq_of_inv_mul_eq_one key).symm

theorem mean_rotate (P : Fin 4 → Pt) (τ : Equiv.Perm (Fin 4)) :
    P 0 + P 1 + P 2 + P 3 = P (τ 0) + P (τ 1) + P (τ 2) + P (τ 3) := by
  have hx := Equiv.sum_comp τ fun i => (P i).x
  have hy := Equiv.sum_comp τ fun i => (P i).y
  rw [Fin.sum_univ_four, Fin.sum_univ_four] at hx hy
  ext
  · simp; linarith
  · simp; linarith

/-- For points in convex position, the sorted points are the vertices of a convex quadrilateral in clockwise order. -/
theorem sorted_cw {env : Env} (h : env.Ok) {P : Fin 4 → Pt} (hP : ConvexPosition P) :
    ∃ τ : Equiv.Perm (Fin 4), (sorted env P = fun i => P (τ i)) ∧ CW (P (τ 0)) (P (τ 1)) (P (τ 2)) (P (τ 3)) := by
  obtain ⟨τ, hτ⟩ := exists_cw hP
  obtain ⟨G, hG⟩ : ∃ G : Pt, G = (P 0 + P 1 + P 2 + P 3) / (4 : ℝ) := ⟨_, rfl⟩
  obtain ⟨f, hf⟩ : ∃ f : Fin 4 → ℝ, f = fun i => atan2 (P i - G).y (P i - G).x := ⟨_, rfl⟩
  have hsort : sorted env P = fun i => P (env.argsort (fun k => -f k) i) := by
    unfold sorted
    dsimp only
    rw [← hG, hf]
  have inside : ∀ A B C D : Pt, CW A B C D → G = (A + B + C + D) / (4 : ℝ) → cross (A - G) (B - G) < 0 := by
    intro A B C D hc hg
    have e : 4 * cross (A - G) (B - G) = cross (B - A) (C - A) + cross (A - D) (B - D) := by
      rw [hg]; unfold cross; simp; ring
    have := hc.a; have := hc.d
    linarith
  have hg : G = (P (τ 0) + P (τ 1) + P (τ 2) + P (τ 3)) / (4 : ℝ) := by rw [hG, mean_rotate P τ]
  have i0 := inside _ _ _ _ hτ hg
  have i1 := inside _ _ _ _ hτ.rotate (by rw [hg]; ext <;> simp <;> ring)
  have i2 := inside _ _ _ _ hτ.rotate.rotate (by rw [hg]; ext <;> simp <;> ring)
  have i3 := inside _ _ _ _ hτ.rotate.rotate.rotate (by rw [hg]; ext <;> simp <;> ring)
  have fe : ∀ i, f i = atan2 (P i - G).y (P i - G).x := fun i => by rw [hf]
  have rng : ∀ i, -π < f i ∧ f i ≤ π := fun i => by
    rw [fe]; exact ⟨Complex.neg_pi_lt_arg _, Complex.arg_le_pi _⟩
  have j0 := sin_neg_of_cross i0
  have j1 := sin_neg_of_cross i1
  have j2 := sin_neg_of_cross i2
  have j3 := sin_neg_of_cross i3
  rw [← fe, ← fe] at j0 j1 j2 j3
  rcases descending (rng _) (rng _) (rng _) (rng _) j0 j1 j2 j3 with ⟨k1, k2, k3⟩ | ⟨k1, k2, k3⟩ | ⟨k1, k2, k3⟩ | ⟨k1, k2, k3⟩
  · refine ⟨τ, ?_, hτ⟩
    rw [hsort, argsort_eq h _ τ (by linarith) (by linarith) (by linarith)]
  · refine ⟨permOf ![1, 2, 3, 0] (by decide) |>.trans τ, ?_, ?_⟩
    · rw [hsort, argsort_eq h _ (permOf ![1, 2, 3, 0] (by decide) |>.trans τ)] <;> simp [permOf] <;> linarith
    · simpa [permOf] using hτ.rotate
  · refine ⟨permOf ![2, 3, 0, 1] (by decide) |>.trans τ, ?_, ?_⟩
    · rw [hsort, argsort_eq h _ (permOf ![2, 3, 0, 1] (by decide) |>.trans τ)] <;> simp [permOf] <;> linarith
    · simpa [permOf] using hτ.rotate.rotate
  · refine ⟨permOf ![3, 0, 1, 2] (by decide) |>.trans τ, ?_, ?_⟩
    · rw [hsort, argsort_eq h _ (permOf ![3, 0, 1, 2] (by decide) |>.trans τ)] <;> simp [permOf] <;> linarith
    · simpa [permOf] using hτ.rotate.rotate.rotate

end Boundary4
