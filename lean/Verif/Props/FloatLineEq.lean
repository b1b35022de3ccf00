import Verif.Model.FloatLineEq
import Verif.Props.FloatOrthic
import Verif.Props.Line

/-!
# Equality of lines in double precision: C137
-/

open Spec Real Classical FG FT

namespace FLE

theorem fl_le {x : ℝ} (h : |x| ≤ 64) : |fl x - x| ≤ 1 / 2 ^ 46 := by
  have := FOrth.fl_abs h (by norm_num)
  refine this.trans ?_
  norm_num

theorem pi_err : |piF - π| ≤ 1 / 2 ^ 46 := fl_le (by rw [abs_of_pos pi_pos]; linarith [pi_lt_four])

theorem two_pi : fl (2 * piF) = 2 * piF := by
  obtain ⟨m, e, h1, h2, h3⟩ := fl_isDouble π
  refine fl_double ⟨m, e + 1, by omega, h2, ?_⟩
  unfold piF
  rw [h3, zpow_add₀ (by norm_num)]
  norm_num
  ring

theorem mod_small {x m : ℝ} (h0 : 0 ≤ x) (h : x < m) : pyModF x m = x := by
  have m0 : 0 < m := by linarith
  have e : fmod x m = x := by
    unfold fmod pyMod
    rw [if_pos h0, Int.floor_eq_zero_iff.2 ⟨by positivity, (div_lt_one m0).2 h⟩]
    simp
  unfold pyModF
  rw [e, if_neg (not_lt.2 h0)]

theorem mod_neg {x m : ℝ} (h0 : x < 0) (h : -m < x) : pyModF x m = fl (x + m) := by
  have m0 : 0 < m := by linarith
  have e : fmod x m = x := by
    unfold fmod pyMod
    rw [if_neg (not_le.2 h0), Int.floor_eq_zero_iff.2 ⟨div_nonneg (by linarith) m0.le, (div_lt_one m0).2 (by linarith)⟩]
    simp
  unfold pyModF
  rw [e, if_pos h0]

theorem mod_ge {x m : ℝ} (h0 : m ≤ x) (h : x < 2 * m) : pyModF x m = x - m := by
  have m0 : 0 < m := by linarith
  have e : fmod x m = x - m := by
    unfold fmod pyMod
    have : ⌊x / m⌋ = 1 := by
      rw [Int.floor_eq_iff]
      constructor
      · rw [Int.cast_one, one_le_div m0]; exact h0
      · rw [div_lt_iff₀ m0]; push_cast; linarith
    rw [if_pos (by linarith), this]
    simp
  unfold pyModF
  rw [e, if_neg (by linarith)]

theorem mod_nonneg (x : ℝ) {m : ℝ} (hm : 0 < m) : 0 ≤ pyModF x m := by
  unfold pyModF
  split_ifs with h
  · refine fl_nonneg ?_
    unfold fmod at *
    split_ifs at * with h0
    · linarith [pyMod_nonneg x hm]
    · linarith [pyMod_lt (-x) hm]
  · exact not_lt.1 h

/-- Near numbers are equal up to the tolerance. -/
theorem approx_of_close {a b : ℝ} (ha : 0 ≤ a) (hb : 0 ≤ b) (ha' : a ≤ 32) (hb' : b ≤ 32) (h : |a - b| ≤ 1 / 2 ^ 36) : approx_equalF a b := by
  right
  right
  left
  have e1 := fl_le (x := a + 1) (by rw [abs_of_nonneg (by linarith)]; linarith)
  have e2 := fl_le (x := b + 1) (by rw [abs_of_nonneg (by linarith)]; linarith)
  have a1 := abs_le.1 e1
  have b1 := abs_le.1 e2
  have hh := abs_le.1 h
  have e3 : |fl (b + 1) - fl (a + 1)| ≤ 1 / 2 ^ 35 := by
    rw [abs_le]; constructor <;> norm_num at * <;> linarith
  have e4 := abs_le.1 (fl_le (x := fl (b + 1) - fl (a + 1)) (e3.trans (by norm_num)))
  have e5 : |fl (fl (b + 1) - fl (a + 1))| ≤ 1 / 2 ^ 34 := by
    have := abs_le.1 e3
    rw [abs_le]; constructor <;> norm_num at * <;> linarith
  refine e5.trans ?_
  have t := FG.fl_err' (1 / 10 ^ 9)
  have ht := FI.tiny_small
  rw [abs_of_pos (by norm_num : (0 : ℝ) < 1 / 10 ^ 9)] at t
  have t1 := abs_le.1 t
  have t2 : (9 : ℝ) / 10 ^ 10 ≤ fl (1 / 10 ^ 9) := by norm_num at *; linarith
  have c1 : (99 : ℝ) / 100 ≤ fl (b + 1) := by norm_num at *; linarith
  have t3 : (89 : ℝ) / 10 ^ 11 ≤ fl (1 / 10 ^ 9) * fl (b + 1) := by
    have := mul_le_mul t2 c1 (by norm_num) (by linarith [show (0 : ℝ) < 9 / 10 ^ 10 by norm_num])
    refine le_trans (by norm_num) this
  have t4 := abs_le.1 (FG.fl_err' (fl (1 / 10 ^ 9) * fl (b + 1)))
  rw [abs_of_nonneg (a := fl (1 / 10 ^ 9) * fl (b + 1)) (by linarith [show (0 : ℝ) < 89 / 10 ^ 11 by norm_num])] at t4
  refine le_trans ?_ (le_abs_self _)
  generalize fl (1 / 10 ^ 9) * fl (b + 1) = z at *
  generalize fl z = w at *
  clear * - t3 t4 ht
  norm_num at *
  linarith

theorem not_close {a b : ℝ} (ha : |a| ≤ 34) (hb : |b| ≤ 34) (h : 1 / 10 ^ 4 ≤ |a - b|) : ¬ iscloseF a b := by
  have hab : |b - a| ≤ 64 + 4 := (abs_sub _ _).trans (by linarith)
  have e1 : |fl (b - a) - (b - a)| ≤ 1 / 2 ^ 40 := (FOrth.fl_abs hab (by norm_num)).trans (by norm_num)
  have e2 : |b - a| ≤ |fl (b - a)| + 1 / 2 ^ 40 := by
    have := abs_sub_abs_le_abs_sub (b - a) (fl (b - a))
    rw [abs_sub_comm (b - a) (fl (b - a))] at this
    linarith
  rw [abs_sub_comm] at h
  have t1 := FI.tol_mul a
  have t2 := FI.tol_mul b
  rintro (h1 | h1 | h1)
  · rw [h1, sub_self, abs_zero] at h
    norm_num at h
  · generalize |fl (b - a)| = z at *
    generalize |b - a| = w at *
    generalize |fl (fl (1 / 10 ^ 9) * b)| = v at *
    generalize |b| = bb at *
    clear * - h h1 e2 t2 hb
    norm_num at *
    linarith
  · generalize |fl (b - a)| = z at *
    generalize |b - a| = w at *
    generalize |fl (fl (1 / 10 ^ 9) * a)| = v at *
    generalize |a| = bb at *
    clear * - h h1 e2 t1 ha
    norm_num at *
    linarith

theorem not_approx {a b : ℝ} (ha : |a| ≤ 32) (hb : |b| ≤ 32) (h : 2 / 10 ^ 4 ≤ |a - b|) : ¬ approx_equalF a b := by
  rintro (h1 | h1)
  · exact not_close (by linarith) (by linarith) (le_trans (by norm_num) h) h1
  · have a1 : |a + 1| ≤ 33 := (abs_add_le _ _).trans (by rw [abs_one]; linarith)
    have b1 : |b + 1| ≤ 33 := (abs_add_le _ _).trans (by rw [abs_one]; linarith)
    have e1 := fl_le (a1.trans (by norm_num))
    have e2 := fl_le (b1.trans (by norm_num))
    have a2 : |fl (a + 1)| ≤ 34 := by
      have := abs_sub_abs_le_abs_sub (fl (a + 1)) (a + 1)
      norm_num at e1
      linarith
    have b2 : |fl (b + 1)| ≤ 34 := by
      have := abs_sub_abs_le_abs_sub (fl (b + 1)) (b + 1)
      norm_num at e2
      linarith
    refine not_close a2 b2 ?_ h1
    have e3 : |a - b| ≤ |fl (a + 1) - fl (b + 1)| + |fl (a + 1) - (a + 1)| + |fl (b + 1) - (b + 1)| := by
      have : a - b = (fl (a + 1) - fl (b + 1)) - (fl (a + 1) - (a + 1)) + (fl (b + 1) - (b + 1)) := by ring
      rw [this]
      exact (abs_add_le _ _).trans (add_le_add_left (abs_sub _ _) _)
    norm_num at *
    linarith

theorem not_npClose {a b : ℝ} (ha : |a| ≤ 29) (hb : |b| ≤ 29) (h : 305 / 10 ^ 6 ≤ |a - b|) : ¬ npClose64 a b := by
  unfold npClose64
  intro hc
  have hab : |a - b| ≤ 64 := (abs_sub _ _).trans (by linarith)
  have e1 := fl_le hab
  have e2 : |a - b| ≤ |fl (a - b)| + 1 / 2 ^ 46 := by
    have := abs_sub_abs_le_abs_sub (a - b) (fl (a - b))
    rw [abs_sub_comm (a - b) (fl (a - b))] at this
    linarith
  have t1 := fl_le (x := 1 / 10 ^ 8) (by norm_num [abs_of_pos])
  have t2 := FG.fl_err' (1 / 10 ^ 5)
  have ht := FI.tiny_small
  rw [abs_of_pos (by norm_num : (0 : ℝ) < 1 / 10 ^ 5)] at t2
  have t3 := abs_le.1 t2
  have t4 : fl (1 / 10 ^ 5) ≤ 1001 / 10 ^ 8 := by norm_num at *; linarith
  have t4' : 0 ≤ fl (1 / 10 ^ 5) := fl_nonneg (by norm_num)
  have t5 : fl (1 / 10 ^ 5) * |b| ≤ 1001 / 10 ^ 8 * 29 := mul_le_mul t4 hb (abs_nonneg _) (by norm_num)
  have t5' : 0 ≤ fl (1 / 10 ^ 5) * |b| := mul_nonneg t4' (abs_nonneg _)
  have t6 := abs_le.1 (fl_le (x := fl (1 / 10 ^ 5) * |b|) (by rw [abs_of_nonneg t5']; refine t5.trans (by norm_num)))
  have t7 := abs_le.1 t1
  have t8 : fl (fl (1 / 10 ^ 8) + fl (fl (1 / 10 ^ 5) * |b|)) ≤ fl (1 / 10 ^ 8) + fl (fl (1 / 10 ^ 5) * |b|) + 1 / 2 ^ 46 := by
    have := abs_le.1 (fl_le (x := fl (1 / 10 ^ 8) + fl (fl (1 / 10 ^ 5) * |b|)) (by
      rw [abs_le]; constructor <;> norm_num at * <;> linarith))
    linarith [this.2]
  generalize fl (fl (1 / 10 ^ 8) + fl (fl (1 / 10 ^ 5) * |b|)) = z at *
  generalize fl (fl (1 / 10 ^ 5) * |b|) = z1 at *
  generalize fl (1 / 10 ^ 5) * |b| = z2 at *
  generalize fl (1 / 10 ^ 8) = z3 at *
  generalize |fl (a - b)| = z4 at *
  generalize |a - b| = z5 at *
  clear * - h hc e2 t5 t6 t7 t8
  norm_num at *
  linarith

/-- The library functions are accurate to `2 ^ -45`, for the arguments that occur. -/
structure Accurate (M : MathLib) : Prop where
  atan2 : ∀ y x, |M.atan2 y x - atan2 y x| ≤ 1 / 2 ^ 45
  cos : ∀ t, |t| ≤ 4 → |M.cos t - Real.cos t| ≤ 1 / 2 ^ 45
  sin : ∀ t, |t| ≤ 4 → |M.sin t - Real.sin t| ≤ 1 / 2 ^ 45

/-- The exact normal form modulo `π` of a line with integer data, and the results of the computation. -/
structure NF (M : MathLib) (l : Line) (φ n x y k : ℝ) : Prop where
  range : 0 ≤ φ ∧ φ < π
  n_pos : 0 < n
  n_sq : n * n = x * x + y * y
  ix : IntB 40 x
  iy : IntB 40 y
  ik : IntB 1600 k
  hcos : Real.cos φ = y / n
  hsin : Real.sin φ = -x / n
  line : ∀ P, OnLine l.A l.B P ↔ y * P.x - x * P.y = k
  dir : ∃ j : ℝ, (j = 0 ∨ j = 1) ∧ |(l.direction_offsetF M).1 - (φ + j * π)| ≤ 1 / 2 ^ 43
  md : |pyModF (l.direction_offsetF M).1 piF - φ| ≤ 1 / 2 ^ 42
  off : |(l.direction_offsetF M).2 - |k| / n| ≤ 1 / 2 ^ 38
  off_nonneg : 0 ≤ (l.direction_offsetF M).2
  off_le : |k| / n ≤ 57 / 2
  eqn : ∀ P, OnLine l.A l.B P → |Real.cos (l.direction_offsetF M).1 * P.x + Real.sin (l.direction_offsetF M).1 * P.y - (l.direction_offsetF M).2| ≤
    1 / 2 ^ 43 * (|P.x| + |P.y|) + 1 / 2 ^ 38

theorem off_le {x y n k a b : ℝ} (hn : 0 < n) (h : n * n = x * x + y * y) (hk : k = y * a - x * b) (ha : |a| ≤ 20) (hb : |b| ≤ 20) :
    |k| / n ≤ 57 / 2 := by
  rw [div_le_iff₀ hn]
  have h1 : k ^ 2 ≤ n ^ 2 * (a ^ 2 + b ^ 2) := by
    rw [hk, sq n, h]; nlinarith [sq_nonneg (x * a + y * b)]
  have ha2 : a ^ 2 ≤ 400 := by rw [← sq_abs]; nlinarith [abs_nonneg a]
  have hb2 : b ^ 2 ≤ 400 := by rw [← sq_abs]; nlinarith [abs_nonneg b]
  refine abs_le_of_sq_le_sq ?_ (by positivity)
  have : n ^ 2 * (a ^ 2 + b ^ 2) ≤ n ^ 2 * 800 := mul_le_mul_of_nonneg_left (by linarith) (by positivity)
  nlinarith [sq_nonneg n]

/-- The remainder modulo `π` of a direction. -/
theorem mod_dir {φ d : ℝ} (h0 : 1 / 60 ≤ φ) (h1 : φ ≤ π - 1 / 60) {j : ℝ} (hj : j = 0 ∨ j = 1) (h : |d - (φ + j * π)| ≤ 1 / 2 ^ 43) :
    |pyModF d piF - φ| ≤ 1 / 2 ^ 42 := by
  have hp := abs_le.1 pi_err
  have p1 := pi_gt_three
  have hd := abs_le.1 h
  rcases hj with rfl | rfl
  · rw [zero_mul, add_zero] at *
    rw [mod_small (by norm_num at *; linarith) (by norm_num at *; linarith)]
    refine h.trans (by norm_num)
  · rw [one_mul] at *
    rw [mod_ge (by norm_num at *; linarith) (by norm_num at *; linarith), abs_le]
    constructor <;> norm_num at * <;> linarith

theorem cos_lip (a b : ℝ) : |Real.cos a - Real.cos b| ≤ |a - b| := by
  rw [cos_sub_cos, abs_mul, abs_mul, abs_neg, abs_two]
  have h1 := abs_sin_le_one ((a + b) / 2)
  have h2 : |Real.sin ((a - b) / 2)| ≤ |(a - b) / 2| := abs_sin_le_abs
  rw [abs_div, abs_two] at h2
  nlinarith [abs_nonneg (Real.sin ((a + b) / 2)), abs_nonneg (Real.sin ((a - b) / 2)), abs_nonneg (a - b)]

theorem sin_lip (a b : ℝ) : |Real.sin a - Real.sin b| ≤ |a - b| := by
  rw [sin_sub_sin, abs_mul, abs_mul, abs_two]
  have h1 := abs_cos_le_one ((a + b) / 2)
  have h2 : |Real.sin ((a - b) / 2)| ≤ |(a - b) / 2| := abs_sin_le_abs
  rw [abs_div, abs_two] at h2
  nlinarith [abs_nonneg (Real.cos ((a + b) / 2)), abs_nonneg (Real.sin ((a - b) / 2)), abs_nonneg (a - b)]

/-- A product of a coordinate by a computed cosine or sine. -/
theorem prod_err {a c c' : ℝ} (ha : |a| ≤ 20) (hc : |c| ≤ 1) (h : |c' - c| ≤ 1 / 2 ^ 44) : |fl (a * c') - a * c| ≤ 21 / 2 ^ 44 ∧ |a * c| ≤ 20 := by
  have h1 : |a * c' - a * c| ≤ 20 / 2 ^ 44 := by
    rw [← mul_sub, abs_mul]
    refine (mul_le_mul ha h (abs_nonneg _) (by norm_num)).trans (by norm_num)
  have h2 : |a * c| ≤ 20 := by
    rw [abs_mul]
    exact (mul_le_mul ha hc (abs_nonneg _) (by norm_num)).trans (by norm_num)
  have h3 : |a * c'| ≤ 64 := by
    have := abs_sub_abs_le_abs_sub (a * c') (a * c)
    norm_num at h1
    linarith
  refine ⟨?_, h2⟩
  have := (abs_sub_le (fl (a * c')) (a * c') (a * c)).trans (add_le_add (fl_le h3) h1)
  refine this.trans (by norm_num)

/-- The computed offset. -/
theorem offset_err {M : MathLib} (hM : Accurate M) {a b t t' : ℝ} (ha : |a| ≤ 20) (hb : |b| ≤ 20) (ht : |t| ≤ π) (h : |t' - t| ≤ 1 / 2 ^ 45) :
    |fl (fl (a * M.cos t') + fl (b * M.sin t')) - (a * Real.cos t + b * Real.sin t)| ≤ 1 / 2 ^ 38 := by
  have h4 : |t'| ≤ 4 := by
    have := abs_sub_abs_le_abs_sub t' t
    have := pi_lt_d2
    norm_num at *
    linarith
  have c1 : |M.cos t' - Real.cos t| ≤ 1 / 2 ^ 44 := by
    refine ((abs_sub_le _ (Real.cos t') _).trans (add_le_add (hM.cos t' h4) ((cos_lip _ _).trans h))).trans (by norm_num)
  have s1 : |M.sin t' - Real.sin t| ≤ 1 / 2 ^ 44 := by
    refine ((abs_sub_le _ (Real.sin t') _).trans (add_le_add (hM.sin t' h4) ((sin_lip _ _).trans h))).trans (by norm_num)
  obtain ⟨e1, b1⟩ := prod_err ha (abs_cos_le_one t) c1
  obtain ⟨e2, b2⟩ := prod_err hb (abs_sin_le_one t) s1
  have x1 := abs_le.1 e1
  have x2 := abs_le.1 e2
  have y1 := abs_le.1 b1
  have y2 := abs_le.1 b2
  have f := abs_le.1 (fl_le (x := fl (a * M.cos t') + fl (b * M.sin t')) (by rw [abs_le]; constructor <;> norm_num at * <;> linarith))
  rw [abs_le]; constructor <;> norm_num at * <;> linarith

/-- The computed direction. -/
theorem dir_err {φ t j : ℝ} (h0 : 1 / 60 ≤ φ) (h1 : φ ≤ π - 1 / 60) (h : (j = 0 ∧ |t - φ| ≤ 1 / 2 ^ 45) ∨ (j = 1 ∧ |t - (φ - π)| ≤ 1 / 2 ^ 45)) :
    |pyModF t (fl (2 * piF)) - (φ + j * π)| ≤ 1 / 2 ^ 43 ∧ |pyModF (fl (t + piF)) (fl (2 * piF)) - (φ + (1 - j) * π)| ≤ 1 / 2 ^ 43 := by
  have hp := abs_le.1 pi_err
  have p1 := pi_gt_three
  have p2 := pi_lt_four
  rw [two_pi]
  have f : |fl (t + piF) - (t + piF)| ≤ 1 / 2 ^ 46 := by
    rcases h with ⟨-, h⟩ | ⟨-, h⟩ <;> have hd := abs_le.1 h <;> refine fl_le ?_ <;> rw [abs_le] <;> constructor <;> norm_num at * <;> linarith
  have f' := abs_le.1 f
  rcases h with ⟨rfl, h⟩ | ⟨rfl, h⟩
  · have hd := abs_le.1 h
    refine ⟨?_, ?_⟩
    · rw [mod_small (by norm_num at *; linarith) (by norm_num at *; linarith), zero_mul, add_zero]
      exact h.trans (by norm_num)
    · rw [mod_small (by norm_num at *; linarith) (by norm_num at *; linarith), sub_zero, one_mul, abs_le]
      constructor <;> norm_num at * <;> linarith
  · have hd := abs_le.1 h
    refine ⟨?_, ?_⟩
    · rw [mod_neg (by norm_num at *; linarith) (by norm_num at *; linarith)]
      have g := abs_le.1 (fl_le (x := t + 2 * piF) (by rw [abs_le]; constructor <;> norm_num at * <;> linarith))
      rw [one_mul, abs_le]
      constructor <;> norm_num at * <;> linarith
    · rw [mod_small (by norm_num at *; linarith) (by norm_num at *; linarith), sub_self, zero_mul, add_zero, abs_le]
      constructor <;> norm_num at * <;> linarith

/-- The equation of the line with the computed numbers. -/
theorem eqn_err {d ψ o s a b : ℝ} (hd : |d - ψ| ≤ 1 / 2 ^ 43) (ho : |o - s| ≤ 1 / 2 ^ 38) (h : Real.cos ψ * a + Real.sin ψ * b = s) :
    |Real.cos d * a + Real.sin d * b - o| ≤ 1 / 2 ^ 43 * (|a| + |b|) + 1 / 2 ^ 38 := by
  have e : Real.cos d * a + Real.sin d * b - o = (Real.cos d - Real.cos ψ) * a + (Real.sin d - Real.sin ψ) * b - (o - s) := by rw [← h]; ring
  have h1 : |(Real.cos d - Real.cos ψ) * a| ≤ 1 / 2 ^ 43 * |a| := by
    rw [abs_mul]; exact mul_le_mul_of_nonneg_right ((cos_lip _ _).trans hd) (abs_nonneg _)
  have h2 : |(Real.sin d - Real.sin ψ) * b| ≤ 1 / 2 ^ 43 * |b| := by
    rw [abs_mul]; exact mul_le_mul_of_nonneg_right ((sin_lip _ _).trans hd) (abs_nonneg _)
  rw [e, mul_add]
  exact (abs_sub _ _).trans (add_le_add ((abs_add_le _ _).trans (add_le_add h1 h2)) ho)

/-- The inequalities on the angle that follow from its sine. -/
theorem margin {φ s : ℝ} (h0 : 0 ≤ φ) (h1 : φ ≤ π) (h : Real.sin φ = s) (hs : 1 / 60 ≤ s) : 1 / 60 ≤ φ ∧ φ ≤ π - 1 / 60 := by
  have h2 := sin_le h0
  have h3 := sin_le (show 0 ≤ π - φ by linarith)
  rw [sin_pi_sub] at h3
  constructor <;> linarith

theorem abs_near {u v e : ℝ} (h : |u - v| ≤ e) : |(|u| - |v|)| ≤ e := (abs_abs_sub_abs_le _ _).trans h

/-- A line that is not vertical. -/
theorem nf_slanted {M : MathLib} (hM : Accurate M) (l : Line) (hA : IntPt 20 l.A) (hB : IntPt 20 l.B) (hx : l.A.x ≠ l.B.x) :
    ∃ φ n x y k, NF M l φ n x y k := by
  have hne : l.A ≠ l.B := fun h => hx (by rw [h])
  have iX := FI.sub hB.1 hA.1
  have iY := FI.sub hB.2 hA.2
  have ax := FI.abs_le hA.1
  have ay := FI.abs_le hA.2
  norm_num at ax ay
  have eD : l.direction_offsetF M = if fl (fl (l.A.x * M.cos (-M.atan2 (l.B.x - l.A.x) (l.B.y - l.A.y))) +
      fl (l.A.y * M.sin (-M.atan2 (l.B.x - l.A.x) (l.B.y - l.A.y)))) < 0 then
      (pyModF (fl (-M.atan2 (l.B.x - l.A.x) (l.B.y - l.A.y) + piF)) (fl (2 * piF)), -fl (fl (l.A.x * M.cos (-M.atan2 (l.B.x - l.A.x) (l.B.y - l.A.y))) +
      fl (l.A.y * M.sin (-M.atan2 (l.B.x - l.A.x) (l.B.y - l.A.y))))) else
      (pyModF (-M.atan2 (l.B.x - l.A.x) (l.B.y - l.A.y)) (fl (2 * piF)), fl (fl (l.A.x * M.cos (-M.atan2 (l.B.x - l.A.x) (l.B.y - l.A.y))) +
      fl (l.A.y * M.sin (-M.atan2 (l.B.x - l.A.x) (l.B.y - l.A.y))))) := by
    unfold Line.direction_offsetF
    dsimp only
    rw [if_neg hx, FI.fl iX (by norm_num), FI.fl iY (by norm_num)]
  have hX0 : l.B.x - l.A.x ≠ 0 := sub_ne_zero.2 (Ne.symm hx)
  have hon : ∀ P, OnLine l.A l.B P ↔ (l.B.y - l.A.y) * P.x - (l.B.x - l.A.x) * P.y = (l.B.y - l.A.y) * l.A.x - (l.B.x - l.A.x) * l.A.y := by
    intro P
    rw [onLine_iff_cross hne]
    simp only [cross, Pt.sub_x, Pt.sub_y]
    constructor <;> intro h <;> linarith
  have hc := cos_atan2 (y := l.B.x - l.A.x) (x := l.B.y - l.A.y) (Or.inr hX0)
  have hs := sin_atan2 (l.B.x - l.A.x) (l.B.y - l.A.y)
  have hat := hM.atan2 (l.B.x - l.A.x) (l.B.y - l.A.y)
  have harg1 : -π < atan2 (l.B.x - l.A.x) (l.B.y - l.A.y) := Complex.neg_pi_lt_arg _
  have harg2 : atan2 (l.B.x - l.A.x) (l.B.y - l.A.y) ≤ π := Complex.arg_le_pi _
  generalize M.atan2 (l.B.x - l.A.x) (l.B.y - l.A.y) = α' at *
  generalize atan2 (l.B.x - l.A.x) (l.B.y - l.A.y) = α at *
  norm_num at iX iY
  generalize hX : l.B.x - l.A.x = X at *
  generalize hY : l.B.y - l.A.y = Y at *
  have hpos : 0 < Y * Y + X * X := by nlinarith [mul_self_pos.2 hX0, mul_self_nonneg Y]
  obtain ⟨n, hn⟩ : ∃ n, n = √(Y * Y + X * X) := ⟨_, rfl⟩
  have n0 : 0 < n := hn ▸ Real.sqrt_pos.2 hpos
  have nsq : n * n = Y * Y + X * X := by rw [hn]; exact Real.mul_self_sqrt hpos.le
  rw [← hn] at hc hs
  have hX1 := FI.one_le_abs iX hX0
  have n60 : n ≤ 60 := by
    have u := FI.abs_le iX
    have v := FI.abs_le iY
    have : n * n ≤ 3200 := by
      rw [nsq, ← abs_mul_abs_self X, ← abs_mul_abs_self Y]
      push_cast at u v
      nlinarith [abs_nonneg X, abs_nonneg Y]
    nlinarith
  have hoff : |fl (fl (l.A.x * M.cos (-α')) + fl (l.A.y * M.sin (-α'))) - (Y * l.A.x - X * l.A.y) / n| ≤ 1 / 2 ^ 38 := by
    have := offset_err hM (t := -α) (t' := -α') ax ay (by rw [abs_neg, abs_le]; constructor <;> linarith)
      (by rw [neg_sub_neg, abs_sub_comm]; exact hat)
    rw [cos_neg, sin_neg, hc, hs] at this
    have e : l.A.x * (Y / n) + l.A.y * -(X / n) = (Y * l.A.x - X * l.A.y) / n := by field_simp; ring
    rwa [e] at this
  generalize fl (fl (l.A.x * M.cos (-α')) + fl (l.A.y * M.sin (-α'))) = o at *
  have ik : IntB 1600 (Y * l.A.x - X * l.A.y) := FI.sub (FI.mul iY hA.1) (FI.mul iX hA.2)
  -- the result in terms of the angle
  have main : ∀ φ x y k, (0 ≤ φ ∧ φ ≤ π) → n * n = x * x + y * y → IntB 40 x → IntB 40 y → IntB 1600 k → Real.cos φ = y / n → Real.sin φ = -x / n →
      1 ≤ -x → (∀ P, OnLine l.A l.B P ↔ y * P.x - x * P.y = k) → |k| = |Y * l.A.x - X * l.A.y| → k = y * l.A.x - x * l.A.y →
      (∃ j : ℝ, ((j = 0 ∧ |-α' - φ| ≤ 1 / 2 ^ 45) ∨ (j = 1 ∧ |-α' - (φ - π)| ≤ 1 / 2 ^ 45)) ∧ Real.cos (φ + j * π) = Y / n ∧
        Real.sin (φ + j * π) = -X / n) → NF M l φ n x y k := by
    rintro φ x y k hφ hnn ix iy ik hc hs hx1 hl hk hk' ⟨j, hd, hjc, hjs⟩
    have hmg := margin hφ.1 hφ.2 hs (by rw [div_le_div_iff₀ (by norm_num) n0]; linarith)
    obtain ⟨d1, d2⟩ := dir_err hmg.1 hmg.2 hd
    have hno : |o| - |k| / n ≤ 1 / 2 ^ 38 ∧ -(1 / 2 ^ 38) ≤ |o| - |k| / n := by
      have := abs_near hoff
      rw [abs_div, abs_of_pos n0, ← hk] at this
      have := abs_le.1 this
      exact ⟨this.2, this.1⟩
    have hdir : ∃ j : ℝ, (j = 0 ∨ j = 1) ∧ |(l.direction_offsetF M).1 - (φ + j * π)| ≤ 1 / 2 ^ 43 := by
      rw [eD]; split_ifs
      · exact ⟨1 - j, by rcases hd with h | h <;> rw [h.1] <;> norm_num, d2⟩
      · exact ⟨j, by rcases hd with h | h <;> rw [h.1] <;> norm_num, d1⟩
    have heq : ∀ P, OnLine l.A l.B P → |Real.cos (l.direction_offsetF M).1 * P.x + Real.sin (l.direction_offsetF M).1 * P.y -
        (l.direction_offsetF M).2| ≤ 1 / 2 ^ 43 * (|P.x| + |P.y|) + 1 / 2 ^ 38 := by
      intro P hP
      have hP' : Y / n * P.x + -X / n * P.y = (Y * l.A.x - X * l.A.y) / n := by
        rw [← (hon P).1 hP]; field_simp; ring
      rw [eD]; split_ifs
      · refine eqn_err d2 (s := -((Y * l.A.x - X * l.A.y) / n)) (by rw [neg_sub_neg, abs_sub_comm]; exact hoff) ?_
        have hflip : Real.cos (φ + (1 - j) * π) = -(Y / n) ∧ Real.sin (φ + (1 - j) * π) = -(-X / n) := by
          rw [← hjc, ← hjs]
          rcases hd with ⟨rfl, -⟩ | ⟨rfl, -⟩ <;> simp
        rw [hflip.1, hflip.2, ← hP']; ring
      · exact eqn_err d1 hoff (by rw [hjc, hjs, hP'])
    have hoo : (l.direction_offsetF M).2 = |o| := by
      rw [eD]; split_ifs with h
      · exact (abs_of_neg h).symm
      · exact (abs_of_nonneg (not_lt.1 h)).symm
    refine ⟨⟨hφ.1, by linarith⟩, n0, hnn, ix, iy, ik, hc, hs, hl, hdir, ?_, ?_, ?_, off_le n0 hnn hk' ax ay, heq⟩
    · obtain ⟨j, hj, h⟩ := hdir
      exact mod_dir hmg.1 hmg.2 hj h
    · rw [hoo, abs_le]; exact ⟨hno.2, hno.1⟩
    · rw [hoo]; exact abs_nonneg _
  rcases lt_or_gt_of_ne hX0 with hneg | hpos'
  · have ha0 : α < 0 := by
      by_contra h
      have := sin_nonneg_of_nonneg_of_le_pi (not_lt.1 h) harg2
      rw [hs] at this
      exact absurd this (not_le.2 (div_neg_of_neg_of_pos hneg n0))
    refine ⟨-α, n, X, Y, Y * l.A.x - X * l.A.y, main _ _ _ _ ⟨by linarith, by linarith⟩ (by rw [nsq]; ring) iX iY ik (by rw [cos_neg, hc])
      (by rw [sin_neg, hs]; ring) (by rw [abs_of_neg hneg] at hX1; exact hX1) hon rfl rfl
      ⟨0, Or.inl ⟨rfl, ?_⟩, by rw [zero_mul, add_zero, cos_neg, hc], by rw [zero_mul, add_zero, sin_neg, hs]; ring⟩⟩
    rw [neg_sub_neg, abs_sub_comm]; exact hat
  · have ha0 : 0 ≤ α := by
      by_contra h
      have := sin_neg_of_neg_of_neg_pi_lt (not_le.1 h) harg1
      rw [hs] at this
      exact absurd this (not_lt.2 (div_pos hpos' n0).le)
    refine ⟨π - α, n, -X, -Y, -(Y * l.A.x - X * l.A.y), main _ _ _ _ ⟨by linarith, by linarith⟩ (by rw [nsq]; ring) (FI.neg iX) (FI.neg iY) (FI.neg ik)
      (by rw [cos_pi_sub, hc]; ring) (by rw [sin_pi_sub, hs]; ring) (by rw [abs_of_pos hpos'] at hX1; linarith) (fun P => ?_) (abs_neg _) (by ring)
      ⟨1, Or.inr ⟨rfl, ?_⟩, by rw [one_mul, cos_add_pi, cos_pi_sub, hc]; ring, by rw [one_mul, sin_add_pi, sin_pi_sub, hs]; ring⟩⟩
    · rw [hon P]; constructor <;> intro h <;> linarith
    · have : -α' - (π - α - π) = -(α' - α) := by ring
      rw [this, abs_neg]; exact hat

/-- A vertical line. -/
theorem nf_vertical {M : MathLib} (l : Line) (hA : IntPt 20 l.A) (hB : IntPt 20 l.B) (hne : l.A ≠ l.B) (hx : l.A.x = l.B.x) :
    ∃ φ n x y k, NF M l φ n x y k := by
  have hY : l.B.y - l.A.y ≠ 0 := fun h => hne (Pt.ext_iff.2 ⟨hx, by linarith⟩)
  have ax := FI.abs_le hA.1
  norm_num at ax
  have p0 : 0 < piF := by
    have := (abs_le.1 pi_err).1
    have := pi_gt_three
    norm_num at *
    linarith
  have eD : l.direction_offsetF M = if l.A.x > 0 then (0, l.A.x) else (piF, -l.A.x) := by
    unfold Line.direction_offsetF
    dsimp only
    rw [if_pos hx]
  have eo : (l.direction_offsetF M).2 = |l.A.x| := by
    rw [eD]; split_ifs with h
    · exact (abs_of_pos h).symm
    · exact (abs_of_nonpos (not_lt.1 h)).symm
  have hon : ∀ P, OnLine l.A l.B P ↔ 1 * P.x - 0 * P.y = l.A.x := by
    intro P
    rw [onLine_iff_cross hne]
    simp only [cross, Pt.sub_x, Pt.sub_y, ← hx, sub_self, zero_mul, zero_sub, one_mul, sub_zero, neg_eq_zero, mul_eq_zero, hY, false_or, sub_eq_zero]
  refine ⟨0, 1, 0, 1, l.A.x, ⟨le_rfl, pi_pos⟩, one_pos, by norm_num, ⟨0, by norm_num, by norm_num⟩, ⟨1, by norm_num, by norm_num⟩,
    FI.mono hA.1 (by norm_num), by simp, by simp, hon, ?_, ?_, ?_, ?_, ?_, ?_⟩
  · rw [eD]; split_ifs with h
    · exact ⟨0, Or.inl rfl, by norm_num⟩
    · refine ⟨1, Or.inr rfl, ?_⟩
      simp only [one_mul, zero_add]
      exact pi_err.trans (by norm_num)
  · rw [eD]; split_ifs with h
    · rw [mod_small le_rfl p0]; norm_num
    · rw [mod_ge le_rfl (by simp only; linarith)]; norm_num
  · rw [eo]; norm_num
  · rw [eo]; exact abs_nonneg _
  · rw [div_one]; linarith
  · intro P hP
    have hP' := (hon P).1 hP
    rw [one_mul, zero_mul, sub_zero] at hP'
    rw [eD]; split_ifs with h
    · exact eqn_err (ψ := 0) (s := l.A.x) (by norm_num) (by norm_num) (by simp [hP'])
    · exact eqn_err (ψ := π) (s := -l.A.x) (pi_err.trans (by norm_num)) (by norm_num) (by simp [hP'])

theorem nf {M : MathLib} (hM : Accurate M) (l : Line) (hA : IntPt 20 l.A) (hB : IntPt 20 l.B) (hne : l.A ≠ l.B) :
    ∃ φ n x y k, NF M l φ n x y k := by
  by_cases hx : l.A.x = l.B.x
  · exact nf_vertical l hA hB hne hx
  · exact nf_slanted hM l hA hB hx

theorem n_le {M : MathLib} {l : Line} {φ n x y k : ℝ} (h : NF M l φ n x y k) : n * n ≤ 3200 := by
  have u := FI.abs_le h.ix
  have v := FI.abs_le h.iy
  push_cast at u v
  rw [h.n_sq, ← abs_mul_abs_self x, ← abs_mul_abs_self y]
  nlinarith [abs_nonneg x, abs_nonneg y]

/-- Lines with different directions: the directions differ, modulo `π`, by `1 / 3200`. -/
theorem angle_gap {M : MathLib} {l l' : Line} {φ n x y k φ' n' x' y' k' : ℝ} (h : NF M l φ n x y k) (h' : NF M l' φ' n' x' y' k') (hne : φ ≠ φ') :
    1 / 3200 ≤ |φ - φ'| ∧ |φ - φ'| ≤ π - 1 / 3200 := by
  have n0 := h.n_pos
  have n0' := h'.n_pos
  have hs : Real.sin (φ - φ') = (y * x' - x * y') / (n * n') := by
    rw [sin_sub, h.hsin, h.hcos, h'.hsin, h'.hcos]; field_simp; ring
  have hlt : |φ - φ'| < π := by
    rw [abs_lt]; constructor <;> linarith [h.range.1, h.range.2, h'.range.1, h'.range.2]
  have hs0 : Real.sin (φ - φ') ≠ 0 := by
    intro h0
    rw [sin_eq_zero_iff_of_lt_of_lt (by linarith [(abs_lt.1 hlt).1]) (abs_lt.1 hlt).2] at h0
    exact hne (by linarith)
  have hi : IntB 3200 (y * x' - x * y') := FI.sub (FI.mul h.iy h'.ix) (FI.mul h.ix h'.iy)
  have h1 := FI.one_le_abs hi (fun h0 => hs0 (by rw [hs, h0, zero_div]))
  have hnn : n * n' ≤ 3200 := by nlinarith [n_le h, n_le h', sq_nonneg (n - n')]
  have hsa : 1 / 3200 ≤ |Real.sin (φ - φ')| := by
    rw [hs, abs_div, abs_of_pos (mul_pos n0 n0'), div_le_div_iff₀ (by norm_num) (mul_pos n0 n0')]
    linarith
  have e : |Real.sin (φ - φ')| = Real.sin |φ - φ'| := by
    rcases abs_cases (φ - φ') with ⟨ha, hb⟩ | ⟨ha, hb⟩
    · rw [ha, abs_of_nonneg (sin_nonneg_of_nonneg_of_le_pi hb (by linarith))]
    · rw [ha, sin_neg, abs_of_nonpos (sin_nonpos_of_nonpos_of_neg_pi_le hb.le (by linarith))]
  rw [e] at hsa
  exact ⟨hsa.trans (sin_le (abs_nonneg _)), by
    have := sin_le (show 0 ≤ π - |φ - φ'| by linarith)
    rw [sin_pi_sub] at this
    linarith⟩

/-- Distances of the origin to two parallel lines that are different. -/
theorem offset_gap {M : MathLib} {l l' : Line} {φ n x y k φ' n' x' y' k' : ℝ} (h : NF M l φ n x y k) (h' : NF M l' φ' n' x' y' k') (he : φ = φ')
    (hne : |k| / n ≠ |k'| / n') : 1 / 2280 ≤ |(|k| / n - |k'| / n')| := by
  have n0 := h.n_pos
  have n0' := h'.n_pos
  have hc : y / n = y' / n' := by rw [← h.hcos, ← h'.hcos, he]
  have hs : -x / n = -x' / n' := by rw [← h.hsin, ← h'.hsin, he]
  have n57 : n ≤ 57 := by nlinarith [n_le h]
  have key : ∀ z z', IntB 40 z → IntB 40 z' → z' ≠ 0 → z / n = z' / n' → 1 / 2280 ≤ |(|k| / n - |k'| / n')| := by
    intro z z' iz iz' hz' e
    have z1 := FI.one_le_abs iz' hz'
    have z0 : 0 < |z'| := by linarith
    have z40 := FI.abs_le iz'
    push_cast at z40
    have en : |z| * n' = |z'| * n := by
      have := congrArg abs e
      rw [abs_div, abs_div, abs_of_pos n0, abs_of_pos n0'] at this
      rw [div_eq_div_iff n0.ne' n0'.ne'] at this
      exact this
    have ef : |k| / n - |k'| / n' = (|k| * |z'| - |k'| * |z|) / (|z'| * n) := by
      rw [div_sub_div _ _ n0.ne' n0'.ne', div_eq_div_iff (by positivity) (by positivity)]
      have : (|k| * n' - n * |k'|) * (|z'| * n) - (|k| * |z'| - |k'| * |z|) * (n * n') = |k'| * n * (|z| * n' - |z'| * n) := by ring
      rw [en, sub_self, mul_zero] at this
      linarith
    have ia : ∀ {N : ℕ} {w : ℝ}, IntB N w → IntB N |w| := by
      rintro N w ⟨m, rfl, hm⟩
      exact ⟨|m|, by push_cast; rfl, by rwa [abs_abs]⟩
    have iN := FI.sub (FI.mul (ia h.ik) (ia iz')) (FI.mul (ia h'.ik) (ia iz))
    have hN : |k| * |z'| - |k'| * |z| ≠ 0 := by
      intro h0
      rw [h0, zero_div, sub_eq_zero] at ef
      exact hne ef
    have h1 := FI.one_le_abs iN hN
    rw [ef, abs_div, abs_of_pos (mul_pos z0 n0), div_le_div_iff₀ (by norm_num) (mul_pos z0 n0)]
    have : |z'| * n ≤ 40 * 57 := mul_le_mul z40 n57 n0.le (by norm_num)
    linarith
  by_cases hy : y' = 0
  · have hx : x' ≠ 0 := by
      intro h0
      have := h'.n_sq
      rw [hy, h0] at this
      nlinarith
    refine key x x' h.ix h'.ix hx ?_
    have := congrArg Neg.neg hs
    rwa [neg_div, neg_div, neg_neg, neg_neg] at this
  · exact key y y' h.iy h'.iy hy hc

/-- Two normal forms of one set of points. -/
theorem nf_unique {c s c' s' φ φ' : ℝ} (hc : c = Real.cos φ) (hs : s = Real.sin φ) (hc' : c' = Real.cos φ') (hs' : s' = Real.sin φ')
    (h0 : 0 ≤ φ) (h1 : φ < π) (h0' : 0 ≤ φ') (h1' : φ' < π) {o o' : ℝ} (h : ∀ P : Pt, c * P.x + s * P.y = o ↔ c' * P.x + s' * P.y = o') :
    φ = φ' ∧ o = o' := by
  have u : c * c + s * s = 1 := by rw [hc, hs]; nlinarith [sin_sq_add_cos_sq φ]
  have a1 := (h ⟨c * o, s * o⟩).1 (by simp only; linear_combination o * u)
  have a2 := (h ⟨c * o - s, s * o + c⟩).1 (by simp only; linear_combination o * u)
  simp only at a1 a2
  have e : Real.sin (φ - φ') = 0 := by
    rw [sin_sub, ← hc, ← hs, ← hc', ← hs']; linarith
  rw [sin_eq_zero_iff_of_lt_of_lt (by linarith) (by linarith)] at e
  have e' : φ = φ' := by linarith
  refine ⟨e', ?_⟩
  rw [← e', ← hc] at hc'
  rw [← e', ← hs] at hs'
  rw [hc', hs'] at a1
  linear_combination a1 - o * u

end FLE

/-- Exact functions are accurate. -/
example : FLE.Accurate ⟨atan2, Real.cos, Real.sin⟩ :=
  ⟨fun y x => by norm_num, fun t _ => by norm_num, fun t _ => by norm_num⟩

/-- **C137, normal form.** `Line.direction_offset` in double precision, for lines through points with integer coordinates up to 20: the offset is
not negative, it is the distance from the origin to the line up to `2 ^ -38`, and the points of the line satisfy the equation with the computed
direction and offset up to `2 ^ -43 (|x| + |y|) + 2 ^ -38`. -/
theorem C137_direction_offset {M : MathLib} (hM : FLE.Accurate M) (l : Line) (hA : IntPt 20 l.A) (hB : IntPt 20 l.B) (h : l.A ≠ l.B) :
    0 ≤ (l.direction_offsetF M).2 ∧
    (∃ s, (∀ P, OnLine l.A l.B P → s ≤ Spec.dist ⟨0, 0⟩ P) ∧ (∃ P, OnLine l.A l.B P ∧ Spec.dist ⟨0, 0⟩ P = s) ∧
      |(l.direction_offsetF M).2 - s| ≤ 1 / 2 ^ 38) ∧
    ∀ P, OnLine l.A l.B P → |Real.cos (l.direction_offsetF M).1 * P.x + Real.sin (l.direction_offsetF M).1 * P.y - (l.direction_offsetF M).2| ≤
      1 / 2 ^ 43 * (|P.x| + |P.y|) + 1 / 2 ^ 38 := by
  obtain ⟨φ, n, x, y, k, N⟩ := FLE.nf hM l hA hB h
  have n0 := N.n_pos
  refine ⟨N.off_nonneg, ⟨|k| / n, fun P hP => ?_, ⟨⟨y * k / (n * n), -(x * k / (n * n))⟩, ?_, ?_⟩, N.off⟩, N.eqn⟩
  · rw [div_le_iff₀ n0]
    have e := (N.line P).1 hP
    refine abs_le_of_sq_le_sq ?_ (mul_nonneg (Real.sqrt_nonneg _) n0.le)
    rw [mul_pow, dist_sq, sq n, N.n_sq, ← e]
    unfold sqDist
    nlinarith [sq_nonneg (x * P.x + y * P.y)]
  · rw [N.line]
    simp only
    have e : y * (y * k / (n * n)) - x * -(x * k / (n * n)) = (x * x + y * y) * k / (n * n) := by ring
    rw [e, ← N.n_sq]
    field_simp
  · have e : sqDist ⟨0, 0⟩ ⟨y * k / (n * n), -(x * k / (n * n))⟩ = (|k| / n) ^ 2 := by
      unfold sqDist
      simp only
      rw [div_pow, sq_abs]
      have := N.n_sq
      field_simp
      nlinarith
    unfold Spec.dist
    rw [e, Real.sqrt_sq (by positivity)]

/-- The offset of the line `x = 3`. -/
example {M : MathLib} (hM : FLE.Accurate M) : |((⟨⟨3, 0⟩, ⟨3, 7⟩, true, true⟩ : Line).direction_offsetF M).2 - 3| ≤ 1 / 2 ^ 38 := by
  have n1 : (⟨3, 0⟩ : Pt) ≠ ⟨3, 7⟩ := by simp
  have on : ∀ P, OnLine ⟨3, 0⟩ ⟨3, 7⟩ P ↔ P.x = 3 := by
    intro P; rw [onLine_iff_cross n1]; simp only [cross, Pt.sub_x, Pt.sub_y]; constructor <;> intro h <;> linarith
  obtain ⟨-, ⟨s, h1, ⟨P, h2, h3⟩, h4⟩, -⟩ := C137_direction_offset hM ⟨⟨3, 0⟩, ⟨3, 7⟩, true, true⟩
    ⟨⟨3, by norm_num, by norm_num⟩, ⟨0, by norm_num, by norm_num⟩⟩ ⟨⟨3, by norm_num, by norm_num⟩, ⟨7, by norm_num, by norm_num⟩⟩ n1
  have e : s = 3 := by
    have a := h1 ⟨3, 0⟩ ((on _).2 rfl)
    have b : Spec.dist ⟨0, 0⟩ ⟨3, 0⟩ = 3 := by
      unfold Spec.dist sqDist
      rw [show ((⟨0, 0⟩ : Pt).x - (⟨3, 0⟩ : Pt).x) ^ 2 + ((⟨0, 0⟩ : Pt).y - (⟨3, 0⟩ : Pt).y) ^ 2 = 3 ^ 2 by norm_num, Real.sqrt_sq (by norm_num)]
    have c : 3 ≤ Spec.dist ⟨0, 0⟩ P := by
      refine Real.le_sqrt_of_sq_le ?_
      unfold sqDist
      have := (on P).1 h2
      simp only [this]
      nlinarith [sq_nonneg P.y]
    linarith
  rw [e] at h4
  exact h4

/-- **C137.** `Line.is_equal` in double precision, for lines through points with integer coordinates up to 20: the answer is `True` exactly when the
two lines are equal or symmetric to each other with respect to the origin. The second case is the error of C04 and not an effect of rounding. -/
theorem C137_is_equal {M : MathLib} (hM : FLE.Accurate M) (l1 l2 : Line) (hA1 : IntPt 20 l1.A) (hB1 : IntPt 20 l1.B) (hA2 : IntPt 20 l2.A)
    (hB2 : IntPt 20 l2.B) (h1 : l1.A ≠ l1.B) (h2 : l2.A ≠ l2.B) :
    l1.is_equalF M l2 ↔ (∀ P, OnLine l1.A l1.B P ↔ OnLine l2.A l2.B P) ∨ (∀ P, OnLine l1.A l1.B P ↔ OnLine l2.A l2.B (-P)) := by
  obtain ⟨φ, n, x, y, k, N⟩ := FLE.nf hM l1 hA1 hB1 h1
  obtain ⟨φ', n', x', y', k', N'⟩ := FLE.nf hM l2 hA2 hB2 h2
  have n0 := N.n_pos
  have n0' := N'.n_pos
  have p4 := pi_lt_d2
  have spec : ((∀ P, OnLine l1.A l1.B P ↔ OnLine l2.A l2.B P) ∨ (∀ P, OnLine l1.A l1.B P ↔ OnLine l2.A l2.B (-P))) ↔ φ = φ' ∧ |k| / n = |k'| / n' := by
    have L : ∀ P, OnLine l1.A l1.B P ↔ y / n * P.x + -x / n * P.y = k / n := by
      intro P
      rw [N.line P]
      have : y / n * P.x + -x / n * P.y = (y * P.x - x * P.y) / n := by field_simp; ring
      rw [this, div_left_inj' n0.ne']
    have L' : ∀ P, OnLine l2.A l2.B P ↔ y' / n' * P.x + -x' / n' * P.y = k' / n' := by
      intro P
      rw [N'.line P]
      have : y' / n' * P.x + -x' / n' * P.y = (y' * P.x - x' * P.y) / n' := by field_simp; ring
      rw [this, div_left_inj' n0'.ne']
    constructor
    · rintro (h | h)
      · obtain ⟨e1, e2⟩ := FLE.nf_unique N.hcos.symm N.hsin.symm N'.hcos.symm N'.hsin.symm N.range.1 N.range.2 N'.range.1 N'.range.2
          (fun P => (L P).symm.trans ((h P).trans (L' P)))
        refine ⟨e1, ?_⟩
        have := congrArg abs e2
        rwa [abs_div, abs_div, abs_of_pos n0, abs_of_pos n0'] at this
      · obtain ⟨e1, e2⟩ := FLE.nf_unique (o' := -(k' / n')) N.hcos.symm N.hsin.symm N'.hcos.symm N'.hsin.symm N.range.1 N.range.2 N'.range.1 N'.range.2
          (fun P => (L P).symm.trans ((h P).trans ((L' (-P)).trans (by
            simp only [Pt.neg_x, Pt.neg_y]; constructor <;> intro h <;> linarith))))
        refine ⟨e1, ?_⟩
        have := congrArg abs e2
        rwa [abs_neg, abs_div, abs_div, abs_of_pos n0, abs_of_pos n0'] at this
    · rintro ⟨e, ek⟩
      have ec : y / n = y' / n' := by rw [← N.hcos, ← N'.hcos, e]
      have es : -x / n = -x' / n' := by rw [← N.hsin, ← N'.hsin, e]
      have ek' : |k / n| = |k' / n'| := by rw [abs_div, abs_div, abs_of_pos n0, abs_of_pos n0']; exact ek
      rcases abs_eq_abs.1 ek' with h | h
      · left; intro P
        rw [L P, L' P, ec, es, h]
      · right; intro P
        rw [L P, L' (-P), ec, es, h]
        simp only [Pt.neg_x, Pt.neg_y]
        constructor <;> intro h <;> linarith
  rw [spec]
  have o1 := abs_le.1 N.off
  have o2 := abs_le.1 N'.off
  have m1 := abs_le.1 N.md
  have m2 := abs_le.1 N'.md
  have b1 := N.off_le
  have b2 := N'.off_le
  have c1 := N.off_nonneg
  have c2 := N'.off_nonneg
  have r1 := N.range
  have r2 := N'.range
  obtain ⟨j1, hj1, dd1⟩ := N.dir
  obtain ⟨j2, hj2, dd2⟩ := N'.dir
  have d1 := abs_le.1 dd1
  have d2 := abs_le.1 dd2
  have gapφ := FLE.angle_gap N N'
  have gapo := FLE.offset_gap N N'
  unfold Line.is_equalF
  dsimp only
  have p0 : 0 < piF := by
    have := (abs_le.1 FLE.pi_err).1
    have := pi_gt_three
    norm_num at *
    linarith
  have q1 := FLE.mod_nonneg (l1.direction_offsetF M).1 p0
  have q2 := FLE.mod_nonneg (l2.direction_offsetF M).1 p0
  generalize pyModF (l1.direction_offsetF M).1 piF = M1 at *
  generalize pyModF (l2.direction_offsetF M).1 piF = M2 at *
  generalize (l1.direction_offsetF M).1 = D1 at *
  generalize (l2.direction_offsetF M).1 = D2 at *
  generalize (l1.direction_offsetF M).2 = O1 at *
  generalize (l2.direction_offsetF M).2 = O2 at *
  generalize |k| / n = s at *
  generalize |k'| / n' = s' at *
  clear N N' spec dd1 dd2
  have noM : φ ≠ φ' → ¬ approx_equalF M1 M2 := by
    intro hne
    refine FLE.not_approx (by rw [abs_of_nonneg q1]; norm_num at *; linarith) (by rw [abs_of_nonneg q2]; norm_num at *; linarith) ?_
    have g := (gapφ hne).1
    rcases abs_cases (φ - φ') with ⟨ha, hb⟩ | ⟨ha, hb⟩
    · rw [ha] at g
      refine le_trans ?_ (le_abs_self _)
      norm_num at *
      linarith
    · rw [ha] at g
      refine le_trans ?_ (neg_le_abs _)
      norm_num at *
      linarith
  have sepO : φ = φ' → s ≠ s' → 43 / 10 ^ 5 ≤ |O1 - O2| := by
    intro e hne
    have g := gapo e hne
    rcases abs_cases (s - s') with ⟨ha, hb⟩ | ⟨ha, hb⟩
    · rw [ha] at g
      refine le_trans ?_ (le_abs_self _)
      norm_num at *
      linarith
    · rw [ha] at g
      refine le_trans ?_ (neg_le_abs _)
      norm_num at *
      linarith
  have aO1 : |O1| ≤ 29 := by rw [abs_of_nonneg c1]; norm_num at *; linarith
  have aO2 : |O2| ≤ 29 := by rw [abs_of_nonneg c2]; norm_num at *; linarith
  by_cases ek : s = s'
  · rw [if_pos (FLE.approx_of_close c1 c2 ((le_abs_self _).trans (aO1.trans (by norm_num))) ((le_abs_self _).trans (aO2.trans (by norm_num)))
      (by rw [abs_le]; constructor <;> norm_num at * <;> linarith))]
    by_cases e : φ = φ'
    · simp only [e, ek, and_self, iff_true]
      exact FLE.approx_of_close q1 q2 (by norm_num at *; linarith) (by norm_num at *; linarith) (by
        rw [abs_le]; constructor <;> norm_num at * <;> linarith)
    · simp only [e, false_and, iff_false]
      exact noM e
  · simp only [ek, and_false, iff_false]
    split_ifs with happ
    · by_cases e : φ = φ'
      · exact absurd happ (FLE.not_approx (by linarith) (by linarith) (le_trans (by norm_num) (sepO e ek)))
      · exact noM e
    · by_cases e : φ = φ'
      · exact fun h => FLE.not_npClose aO1 aO2 (le_trans (by norm_num) (sepO e ek)) h.2
      · refine fun h => FLE.not_npClose ?_ ?_ ?_ h.1
        · rcases hj1 with rfl | rfl <;> rw [abs_le] <;> constructor <;> norm_num at * <;> linarith
        · rcases hj2 with rfl | rfl <;> rw [abs_le] <;> constructor <;> norm_num at * <;> linarith
        · obtain ⟨g1, g2⟩ := gapφ e
          have key : 1 / 3200 ≤ |φ + j1 * π - (φ' + j2 * π)| := by
            have p0 := pi_gt_three
            rcases hj1 with rfl | rfl <;> rcases hj2 with rfl | rfl
            · simpa using g1
            · have : φ + 0 * π - (φ' + 1 * π) = -(π - (φ - φ')) := by ring
              rw [this, abs_neg]
              exact le_trans (by linarith [le_abs_self (φ - φ')]) (le_abs_self _)
            · have : φ + 1 * π - (φ' + 0 * π) = π + (φ - φ') := by ring
              rw [this]
              exact le_trans (by linarith [neg_abs_le (φ - φ')]) (le_abs_self _)
            · have : φ + 1 * π - (φ' + 1 * π) = φ - φ' := by ring
              rw [this]; exact g1
          have e3 : |φ + j1 * π - (φ' + j2 * π)| ≤ |D1 - D2| + 1 / 2 ^ 40 := by
            rw [abs_le]
            have := abs_le.1 (le_refl |D1 - D2|)
            constructor <;> norm_num at * <;> linarith
          norm_num at *
          linarith

/-- Two pairs of points of the line `y = 2 x + 1`, and the parallel line `y = 2 x + 2`. -/
example {M : MathLib} (hM : FLE.Accurate M) :
    (⟨⟨0, 1⟩, ⟨1, 3⟩, true, true⟩ : Line).is_equalF M ⟨⟨5, 11⟩, ⟨-3, -5⟩, true, true⟩ ∧
    ¬ (⟨⟨0, 1⟩, ⟨1, 3⟩, true, true⟩ : Line).is_equalF M ⟨⟨0, 2⟩, ⟨1, 4⟩, true, true⟩ := by
  have i1 : IntPt 20 ⟨0, 1⟩ := ⟨⟨0, by norm_num, by norm_num⟩, ⟨1, by norm_num, by norm_num⟩⟩
  have i2 : IntPt 20 ⟨1, 3⟩ := ⟨⟨1, by norm_num, by norm_num⟩, ⟨3, by norm_num, by norm_num⟩⟩
  have n1 : (⟨0, 1⟩ : Pt) ≠ ⟨1, 3⟩ := by simp
  have L1 : ∀ P, OnLine ⟨0, 1⟩ ⟨1, 3⟩ P ↔ P.y = 2 * P.x + 1 := by
    intro P; rw [onLine_iff_cross n1]; simp only [cross, Pt.sub_x, Pt.sub_y]; constructor <;> intro h <;> linarith
  constructor
  · have n2 : (⟨5, 11⟩ : Pt) ≠ ⟨-3, -5⟩ := by norm_num
    rw [C137_is_equal hM _ _ i1 i2 ⟨⟨5, by norm_num, by norm_num⟩, ⟨11, by norm_num, by norm_num⟩⟩
      ⟨⟨-3, by norm_num, by norm_num⟩, ⟨-5, by norm_num, by norm_num⟩⟩ n1 n2]
    left
    intro P
    rw [L1, onLine_iff_cross n2]; simp only [cross, Pt.sub_x, Pt.sub_y]; constructor <;> intro h <;> linarith
  · have n2 : (⟨0, 2⟩ : Pt) ≠ ⟨1, 4⟩ := by simp
    rw [C137_is_equal hM _ _ i1 i2 ⟨⟨0, by norm_num, by norm_num⟩, ⟨2, by norm_num, by norm_num⟩⟩
      ⟨⟨1, by norm_num, by norm_num⟩, ⟨4, by norm_num, by norm_num⟩⟩ n1 n2]
    have L2 : ∀ P, OnLine ⟨0, 2⟩ ⟨1, 4⟩ P ↔ P.y = 2 * P.x + 2 := by
      intro P; rw [onLine_iff_cross n2]; simp only [cross, Pt.sub_x, Pt.sub_y]; constructor <;> intro h <;> linarith
    rintro (h | h)
    · have := (h ⟨0, 1⟩).1 ((L1 _).2 (by norm_num))
      rw [L2] at this; norm_num at this
    · have := (h ⟨0, 1⟩).1 ((L1 _).2 (by norm_num))
      rw [L2] at this; norm_num at this
