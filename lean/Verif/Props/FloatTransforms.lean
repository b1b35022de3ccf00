import Verif.Model.FloatTransforms
import Verif.Props.FloatGeom
import Verif.Spec.Transforms

/-!
# C114: transformations of points in double precision
-/

open Spec Real Classical

namespace FT
open FG

/-- A relative error as a factor. -/
theorem rel_factor {x y c : ℝ} (hc : 0 ≤ c) (h : |x - y| ≤ c * |y|) : ∃ d, |d| ≤ c ∧ x = y * (1 + d) := by
  by_cases hy : y = 0
  · subst hy
    simp only [abs_zero, mul_zero, sub_zero] at h
    exact ⟨0, by simpa using hc, by simpa using abs_eq_zero.1 (le_antisymm h (abs_nonneg x))⟩
  · refine ⟨(x - y) / y, ?_, by field_simp; ring⟩
    rw [abs_div, div_le_iff₀ (abs_pos.2 hy)]
    exact h

/-- Rounding as a factor and an underflow. -/
theorem fl_factor (x : ℝ) : ∃ d e, |d| ≤ 1 / 2 ^ 53 ∧ |e| ≤ tiny ∧ fl x = x * (1 + d) + e := by
  rcases fl_err x with h | h
  · obtain ⟨d, hd, e⟩ := rel_factor (c := 1 / 2 ^ 53) (by norm_num) (h.trans_eq (by ring))
    exact ⟨d, 0, hd, by rw [abs_zero]; exact tiny_pos.le, by rw [e]; ring⟩
  · exact ⟨0, fl x - x, by rw [abs_zero]; norm_num, h.1, by ring⟩

/-- The sum of two doubles, as a factor. -/
theorem add_factor {x y : ℝ} (hx : IsDouble x) (hy : IsDouble y) : ∃ d, |d| ≤ 1 / 2 ^ 53 ∧ fl (x + y) = (x + y) * (1 + d) :=
  rel_factor (by norm_num) ((fl_add_err hx hy).trans_eq (by ring))

/-- The difference of two doubles, as a factor. -/
theorem sub_factor {x y : ℝ} (hx : IsDouble x) (hy : IsDouble y) : ∃ d, |d| ≤ 1 / 2 ^ 53 ∧ fl (x - y) = (x - y) * (1 + d) :=
  rel_factor (by norm_num) ((fl_sub_err hx hy).trans_eq (by ring))

/-- The product of two factors. -/
theorem mul_factor {a b A B C : ℝ} (ha : |a| ≤ A) (hb : |b| ≤ B) (hC : A + B + A * B ≤ C) :
    ∃ c, |c| ≤ C ∧ (1 + a) * (1 + b) = 1 + c := by
  refine ⟨a + b + a * b, ?_, by ring⟩
  have h1 : |a + b + a * b| ≤ |a| + |b| + |a| * |b| := by
    rw [← abs_mul]
    exact (abs_add_le _ _).trans (by gcongr; exact abs_add_le _ _)
  have h2 : |a| * |b| ≤ A * B := mul_le_mul ha hb (abs_nonneg _) ((abs_nonneg _).trans ha)
  linarith

/-- The last addition: the error of the second term and one rounding. -/
theorem last_add {o m T E : ℝ} (ho : IsDouble o) (hm : IsDouble m) (h : |m - T| ≤ E) :
    |fl (m + o) - (T + o)| ≤ |T + o| / 2 ^ 53 + (1 + 1 / 2 ^ 53) * E := by
  obtain ⟨d, hd, e⟩ := add_factor hm ho
  rw [e, show (m + o) * (1 + d) - (T + o) = (T + o) * d + (1 + d) * (m - T) by ring]
  have h1 : |1 + d| ≤ 1 + 1 / 2 ^ 53 := (abs_add_le _ _).trans (by rw [abs_one]; gcongr)
  calc |(T + o) * d + (1 + d) * (m - T)| ≤ |T + o| * |d| + |1 + d| * |m - T| := by
        rw [← abs_mul, ← abs_mul]; exact abs_add_le _ _
    _ ≤ |T + o| * (1 / 2 ^ 53) + (1 + 1 / 2 ^ 53) * E := by gcongr
    _ = _ := by ring

/-- A factor times a rounded difference. -/
theorem mul_sub_err (s : ℝ) {x o : ℝ} (hx : IsDouble x) (ho : IsDouble o) :
    |fl (s * fl (x - o)) - s * (x - o)| ≤ (2 / 2 ^ 53 + 1 / 2 ^ 106) * |s * (x - o)| + tiny := by
  obtain ⟨d, hd, e⟩ := sub_factor hx ho
  obtain ⟨d', t, hd', ht, e'⟩ := fl_factor (s * fl (x - o))
  obtain ⟨c, hc, ec⟩ := mul_factor hd hd' (C := 2 / 2 ^ 53 + 1 / 2 ^ 106) (by norm_num)
  rw [e', e, show s * ((x - o) * (1 + d)) * (1 + d') + t - s * (x - o) = s * (x - o) * ((1 + d) * (1 + d') - 1) + t by ring, ec,
    add_sub_cancel_left]
  refine (abs_add_le _ _).trans (add_le_add ?_ ht)
  rw [abs_mul, mul_comm]
  gcongr

/-- Points that are not close in the sense of `np.allclose` are at a definite distance. -/
theorem far_coord {a b : ℝ} (ha : IsDouble a) (hb : IsDouble b) (h : ¬ npClose64 a b) : 1 / 10 ^ 9 ≤ |a - b| := by
  unfold npClose64 at h
  rw [not_le] at h
  have h1 : fl (fl (1 / 10 ^ 8)) ≤ fl (fl (1 / 10 ^ 8) + fl (fl (1 / 10 ^ 5) * |b|)) := by
    apply fl_mono
    have : 0 ≤ fl (fl (1 / 10 ^ 5) * |b|) := fl_nonneg (mul_nonneg (fl_nonneg (by positivity)) (abs_nonneg _))
    linarith
  rw [fl_fl] at h1
  have h2 := fl_err' (1 / 10 ^ 8)
  have h3 : tiny ≤ 1 / 2 ^ 100 := by
    unfold tiny
    calc (2 : ℝ) ^ (-1075 : ℤ) ≤ 2 ^ (-100 : ℤ) := zpow_le_zpow_right₀ (by norm_num) (by norm_num)
      _ = _ := by norm_num [zpow_neg]
  rw [abs_of_pos (by norm_num : (0 : ℝ) < 1 / 10 ^ 8)] at h2
  have h4 := (abs_le.1 h2).1
  have h5 := fl_sub_err ha hb
  have h6 := abs_sub_abs_le_abs_sub (fl (a - b)) (a - b)
  have h0 := abs_nonneg (a - b)
  generalize fl (1 / 10 ^ 8) = w at *
  generalize |fl (a - b)| = z at *
  generalize |a - b| = y at *
  norm_num at *
  linarith

/-- The squared distance of points that are not close. -/
theorem far_sq {O M : Pt} (hO : DoublePt O) (hM : DoublePt M) (h : ¬ allclose64 O M) : 1 / 10 ^ 18 ≤ sqDist O M := by
  unfold allclose64 at h
  unfold sqDist
  rcases not_and_or.1 h with h | h
  · have := far_coord hO.1 hM.1 h
    rw [abs_sub_comm] at this
    have h2 : (1 / 10 ^ 9 : ℝ) ^ 2 ≤ |M.x - O.x| ^ 2 := pow_le_pow_left₀ (by norm_num) this 2
    rw [sq_abs] at h2
    nlinarith [sq_nonneg (M.y - O.y)]
  · have := far_coord hO.2 hM.2 h
    rw [abs_sub_comm] at this
    have h2 : (1 / 10 ^ 9 : ℝ) ^ 2 ≤ |M.y - O.y| ^ 2 := pow_le_pow_left₀ (by norm_num) this 2
    rw [sq_abs] at h2
    nlinarith [sq_nonneg (M.x - O.x)]

/-- The computed squared distance of points that are not close, as a factor. -/
theorem sq_factor (k : Fma) {O M : Pt} (hO : DoublePt O) (hM : DoublePt M) (h : ¬ allclose64 O M) :
    ∃ d, |d| ≤ 6 / 2 ^ 53 ∧ vdotF k (subF M O) (subF M O) = sqDist O M * (1 + d) := by
  have h1 := far_sq hO hM h
  obtain ⟨h2, h3⟩ := sqDist_err k hM hO
  have h4 : tiny ≤ 1 / 2 ^ 200 := by
    unfold tiny
    calc (2 : ℝ) ^ (-1075 : ℤ) ≤ 2 ^ (-200 : ℤ) := zpow_le_zpow_right₀ (by norm_num) (by norm_num)
      _ = _ := by norm_num [zpow_neg]
  apply rel_factor (by norm_num)
  have h0 : 0 ≤ sqDist O M := le_trans (by norm_num) h1
  rw [abs_of_nonneg h0]
  generalize vdotF k (subF M O) (subF M O) = q at *
  generalize sqDist O M = S at *
  rw [abs_le]
  norm_num at *
  constructor <;> linarith

/-- The term added to the pole. -/
theorem term_err {K S q X dx d1 d2 : ℝ} (hS : 0 < S) (h1 : |d1| ≤ 6 / 2 ^ 53) (hq : q = S * (1 + d1)) (h2 : |d2| ≤ 1 / 2 ^ 53)
    (hdx : dx = X * (1 + d2)) : |fl (fl (K / q) * dx) - K * X / S| ≤ 10 / 2 ^ 53 * |K * X / S| + tiny * (2 * |X| + 1) := by
  obtain ⟨d3, e3, h3, g3, r3⟩ := fl_factor (K / q)
  obtain ⟨d4, e4, h4, g4, r4⟩ := fl_factor (fl (K / q) * dx)
  obtain ⟨a, ha, ea⟩ := mul_factor h2 h4 (C := 2 / 2 ^ 53 + 1 / 2 ^ 106) (by norm_num)
  obtain ⟨b, hb, eb⟩ := mul_factor ha h3 (C := 3 / 2 ^ 53 + 1 / 2 ^ 100) (by norm_num)
  have hp : 0 < 1 + d1 := by have := (abs_le.1 h1).1; norm_num at *; linarith
  have hb' := abs_le.1 hb
  have h1' := abs_le.1 h1
  have hc : |(1 + b) / (1 + d1) - 1| ≤ 10 / 2 ^ 53 := by
    rw [abs_le, le_sub_iff_add_le, sub_le_iff_le_add, le_div_iff₀ hp, div_le_iff₀ hp]
    norm_num at *
    constructor <;> linarith
  have ex : fl (fl (K / q) * dx) - K * X / S = K * X / S * ((1 + b) / (1 + d1) - 1) + (e3 * (X * (1 + a)) + e4) := by
    rw [r4, r3, hq, hdx, ← eb, ← ea]
    have := hp.ne'
    field_simp
    ring
  rw [ex]
  have h1a : |1 + a| ≤ 2 := (abs_add_le _ _).trans (by rw [abs_one]; norm_num at *; linarith)
  calc |K * X / S * ((1 + b) / (1 + d1) - 1) + (e3 * (X * (1 + a)) + e4)|
      ≤ |K * X / S| * |(1 + b) / (1 + d1) - 1| + (|e3| * (|X| * |1 + a|) + |e4|) := by
        rw [← abs_mul, ← abs_mul, ← abs_mul]
        exact (abs_add_le _ _).trans (by gcongr; exact abs_add_le _ _)
    _ ≤ |K * X / S| * (10 / 2 ^ 53) + (tiny * (|X| * 2) + tiny) := by
        have := tiny_pos
        gcongr
    _ = _ := by ring

/-- The difference of an inverse point and the pole. -/
theorem inverse_eq {O M P : Pt} {K : ℝ} (h : IsInverse O K M P) (hS : sqDist O M ≠ 0) :
    P.x - O.x = K * (M.x - O.x) / sqDist O M ∧ P.y - O.y = K * (M.y - O.y) / sqDist O M := by
  obtain ⟨-, h1, h2⟩ := h
  simp only [cross, dot, Pt.sub_x, Pt.sub_y] at h1 h2
  have e : sqDist O M = (M.x - O.x) ^ 2 + (M.y - O.y) ^ 2 := by unfold sqDist; ring
  constructor
  · rw [eq_div_iff hS, e]
    linear_combination (M.x - O.x) * h2 - (M.y - O.y) * h1
  · rw [eq_div_iff hS, e]
    linear_combination (M.y - O.y) * h2 + (M.x - O.x) * h1

/-- A sum of two products in a rotation. -/
theorem comb_err {c s C S e X Y a b o : ℝ} (hC : |C| ≤ 1) (hS : |S| ≤ 1) (hc : |c - C| ≤ e) (hs : |s - S| ≤ e)
    (da : IsDouble a) (db : IsDouble b) (ho : IsDouble o)
    (ha : |a - c * X| ≤ (2 / 2 ^ 53 + 1 / 2 ^ 106) * |c * X| + tiny) (hb : |b - s * Y| ≤ (2 / 2 ^ 53 + 1 / 2 ^ 106) * |s * Y| + tiny) :
    |fl (fl (a + b) + o) - (C * X + S * Y + o)| ≤
      |C * X + S * Y + o| / 2 ^ 53 + (2 * e + 4 / 2 ^ 53) * (|X| + |Y|) + 8 * tiny := by
  have e0 : 0 ≤ e := (abs_nonneg _).trans hc
  have t0 := tiny_pos
  have x0 := abs_nonneg X
  have y0 := abs_nonneg Y
  have c1 : |c| ≤ 1 + e := by
    have := abs_sub_abs_le_abs_sub c C
    linarith
  have s1 : |s| ≤ 1 + e := by
    have := abs_sub_abs_le_abs_sub s S
    linarith
  have cx : |c * X| ≤ (1 + e) * |X| := by rw [abs_mul]; gcongr
  have sy : |s * Y| ≤ (1 + e) * |Y| := by rw [abs_mul]; gcongr
  have ec : |c * X - C * X| ≤ e * |X| := by rw [← sub_mul, abs_mul]; gcongr
  have es : |s * Y - S * Y| ≤ e * |Y| := by rw [← sub_mul, abs_mul]; gcongr
  have h := last_add ho (fl_isDouble (a + b)) (T := C * X + S * Y)
    (E := (e + (3 / 2 ^ 53 + 4 / 2 ^ 106) * (1 + e)) * (|X| + |Y|) + 3 * tiny) ?_
  · refine h.trans ?_
    have p : 0 ≤ e * (|X| + |Y|) := by positivity
    have q : 0 ≤ |X| + |Y| := by positivity
    generalize |X| + |Y| = n at *
    norm_num
    nlinarith
  · obtain ⟨d, hd, ed⟩ := add_factor da db
    rw [ed, show (a + b) * (1 + d) - (C * X + S * Y) =
      (1 + d) * ((a - c * X) + (b - s * Y)) + d * (c * X + s * Y) + ((c * X - C * X) + (s * Y - S * Y)) by ring]
    have h1 : |1 + d| ≤ 1 + 1 / 2 ^ 53 := (abs_add_le _ _).trans (by rw [abs_one]; gcongr)
    have g1 : |(1 + d) * ((a - c * X) + (b - s * Y))| ≤ (1 + 1 / 2 ^ 53) * (((2 / 2 ^ 53 + 1 / 2 ^ 106) * ((1 + e) * |X|) + tiny) +
        ((2 / 2 ^ 53 + 1 / 2 ^ 106) * ((1 + e) * |Y|) + tiny)) := by
      rw [abs_mul]
      refine mul_le_mul h1 ((abs_add_le _ _).trans (add_le_add (ha.trans ?_) (hb.trans ?_))) (abs_nonneg _) (by norm_num)
      · gcongr
      · gcongr
    have g2 : |d * (c * X + s * Y)| ≤ 1 / 2 ^ 53 * ((1 + e) * |X| + (1 + e) * |Y|) := by
      rw [abs_mul]
      exact mul_le_mul hd ((abs_add_le _ _).trans (add_le_add cx sy)) (abs_nonneg _) (by norm_num)
    have g3 : |(c * X - C * X) + (s * Y - S * Y)| ≤ e * |X| + e * |Y| := (abs_add_le _ _).trans (add_le_add ec es)
    refine (abs_add_le _ _).trans ((add_le_add ((abs_add_le _ _).trans (add_le_add g1 g2)) g3).trans ?_)
    have p : 0 ≤ e * |X| := by positivity
    have q : 0 ≤ e * |Y| := by positivity
    generalize |X| = m at *
    generalize |Y| = n at *
    norm_num
    nlinarith

end FT

open FG FT

/-- C114: `Inversion.invert` in double precision: `inf` on the points close to the pole, and elsewhere the inverse up to a rounding
of each coordinate and eleven roundings of its difference with the pole. -/
theorem C114_invert (k : Fma) (iota : Inversion) (M P : Pt) (hO : DoublePt iota.pole) (hM : DoublePt M)
    (hP : IsInverse iota.pole iota.power M P) :
    (iota.invertF k M = .ok .inf ∧ allclose64 iota.pole M) ∨
    ∃ Q, iota.invertF k M = .ok (.fin Q) ∧ DoublePt Q ∧ ¬ allclose64 iota.pole M ∧
      |Q.x - P.x| ≤ |P.x| / 2 ^ 53 + 11 / 2 ^ 53 * |P.x - iota.pole.x| + 2 ^ (-1073 : ℤ) * (|M.x - iota.pole.x| + 1) ∧
      |Q.y - P.y| ≤ |P.y| / 2 ^ 53 + 11 / 2 ^ 53 * |P.y - iota.pole.y| + 2 ^ (-1073 : ℤ) * (|M.y - iota.pole.y| + 1) := by
  by_cases hc : allclose64 iota.pole M
  · left
    exact ⟨by unfold Inversion.invertF; rw [if_pos hc], hc⟩
  right
  have hS : 0 < sqDist iota.pole M := lt_of_lt_of_le (by norm_num) (far_sq hO hM hc)
  obtain ⟨d1, h1, q1⟩ := sq_factor k hO hM hc
  have hp : 0 < 1 + d1 := by have := (abs_le.1 h1).1; norm_num at *; linarith
  have hd : vdotF k (subF M iota.pole) (subF M iota.pole) ≠ 0 := by rw [q1]; exact (mul_pos hS hp).ne'
  obtain ⟨ex, ey⟩ := inverse_eq hP hS.ne'
  have ht : (2 : ℝ) ^ (-1073 : ℤ) = 4 * tiny := by
    unfold tiny
    rw [show (-1073 : ℤ) = 2 + -1075 by norm_num, zpow_add₀ (by norm_num)]
    norm_num
  have one : ∀ o x px : ℝ, IsDouble o → IsDouble x → px - o = iota.power * (x - o) / sqDist iota.pole M →
      |fl (o + fl (fl (iota.power / vdotF k (subF M iota.pole) (subF M iota.pole)) * fl (x - o))) - px| ≤
        |px| / 2 ^ 53 + 11 / 2 ^ 53 * |px - o| + 2 ^ (-1073 : ℤ) * (|x - o| + 1) := by
    intro o x px ho hx e
    obtain ⟨d2, h2, q2⟩ := sub_factor hx ho
    have h3 := term_err (K := iota.power) hS h1 q1 h2 q2
    rw [← e] at h3
    have h4 := last_add ho (fl_isDouble _) h3
    rw [sub_add_cancel, add_comm _ o] at h4
    rw [ht]
    have t0 := tiny_pos
    have a0 := abs_nonneg (px - o)
    have b0 := abs_nonneg (x - o)
    have p0 := mul_nonneg t0.le b0
    generalize |px - o| = a at *
    generalize |x - o| = b at *
    generalize fl (o + fl (fl (iota.power / vdotF k (subF M iota.pole) (subF M iota.pole)) * fl (x - o))) = w at *
    refine h4.trans ?_
    norm_num
    nlinarith
  refine ⟨⟨_, _⟩, ?_, ⟨fl_isDouble _, fl_isDouble _⟩, hc, one _ _ _ hO.1 hM.1 ex, one _ _ _ hO.2 hM.2 ey⟩
  unfold Inversion.invertF
  rw [if_neg hc]
  dsimp only
  rw [if_neg hd]
  rfl

/-- C114: `Affine.transform` in double precision, whatever the order of the operations of `np.matmul`. -/
theorem C114_affine (kx ky : Fma) (f : Affine) (M P : Pt) (hb : DoublePt f.b)
    (hx : P.x = f.A 0 0 * M.x + f.A 0 1 * M.y + f.b.x) (hy : P.y = f.A 1 0 * M.x + f.A 1 1 * M.y + f.b.y) :
    |(f.transformF kx ky M).x - P.x| ≤ |P.x| / 2 ^ 53 + 3 / 2 ^ 53 * (|f.A 0 0 * M.x| + |f.A 0 1 * M.y|) + 2 ^ (-1072 : ℤ) ∧
    |(f.transformF kx ky M).y - P.y| ≤ |P.y| / 2 ^ 53 + 3 / 2 ^ 53 * (|f.A 1 0 * M.x| + |f.A 1 1 * M.y|) + 2 ^ (-1072 : ℤ) := by
  have ht : (2 : ℝ) ^ (-1072 : ℤ) = 8 * tiny := by
    unfold tiny
    rw [show (-1072 : ℤ) = 3 + -1075 by norm_num, zpow_add₀ (by norm_num)]
    norm_num
  have one : ∀ (k : Fma) (p : Pt) (b : ℝ), IsDouble b →
      |fl (vdotF k p M + b) - (p.x * M.x + p.y * M.y + b)| ≤
        |p.x * M.x + p.y * M.y + b| / 2 ^ 53 + 3 / 2 ^ 53 * (|p.x * M.x| + |p.y * M.y|) + 2 ^ (-1072 : ℤ) := by
    intro k p b hb
    have hd : IsDouble (vdotF k p M) := by unfold vdotF; cases k <;> exact fl_isDouble _
    have h := last_add hb hd (vdot_err k p M)
    rw [ht]
    have t0 := tiny_pos
    have a0 : 0 ≤ |p.x * M.x| + |p.y * M.y| := by positivity
    refine h.trans ?_
    generalize |p.x * M.x| + |p.y * M.y| = a at *
    norm_num
    linarith
  rw [hx, hy]
  exact ⟨one kx ⟨f.A 0 0, f.A 0 1⟩ f.b.x hb.1, one ky ⟨f.A 1 0, f.A 1 1⟩ f.b.y hb.2⟩

/-- C114: on integers that are not too large `Affine.transform` makes no error. -/
theorem C114_affine_int (kx ky : Fma) (f : Affine) (M P : Pt) (a b c d e g x y : ℤ) (h00 : f.A 0 0 = a) (h01 : f.A 0 1 = b)
    (h10 : f.A 1 0 = c) (h11 : f.A 1 1 = d) (he : f.b.x = e) (hg : f.b.y = g) (hMx : M.x = x) (hMy : M.y = y)
    (hX : |a * x| + |b * y| + |e| ≤ 2 ^ 53) (hY : |c * x| + |d * y| + |g| ≤ 2 ^ 53)
    (hx : P.x = f.A 0 0 * M.x + f.A 0 1 * M.y + f.b.x) (hy : P.y = f.A 1 0 * M.x + f.A 1 1 * M.y + f.b.y) :
    f.transformF kx ky M = P := by
  have one : ∀ (k : Fma) (p q r : ℤ), |p * x| + |q * y| + |r| ≤ 2 ^ 53 →
      fl (vdotF k ⟨p, q⟩ M + r) = p * M.x + q * M.y + r := by
    intro k p q r h
    have a1 := abs_nonneg (p * x)
    have a2 := abs_nonneg (q * y)
    have a3 := abs_nonneg r
    have i1 : fl ((p : ℝ) * x) = p * x := by
      have := fl_double (isDouble_int (n := p * x) (by linarith)); push_cast at this; exact this
    have i2 : fl ((q : ℝ) * y) = q * y := by
      have := fl_double (isDouble_int (n := q * y) (by linarith)); push_cast at this; exact this
    have i3 : fl ((p : ℝ) * x + q * y) = p * x + q * y := by
      have := fl_double (isDouble_int (n := p * x + q * y) (by have := abs_add_le (p * x) (q * y); linarith)); push_cast at this; exact this
    have i4 : fl ((p : ℝ) * x + q * y + r) = p * x + q * y + r := by
      have := fl_double (isDouble_int (n := p * x + q * y + r)
        (by have := abs_add_le (p * x) (q * y); have := abs_add_le (p * x + q * y) r; linarith)); push_cast at this; exact this
    have hv : vdotF k ⟨p, q⟩ M = p * x + q * y := by
      unfold vdotF
      cases k <;> simp only [hMx, hMy, i1, i2, i3]
    rw [hv, i4, hMx, hMy]
  ext
  · rw [hx, h00, h01, he]
    unfold Affine.transformF
    rw [h00, h01, he]
    exact one kx a b e hX
  · rw [hy, h10, h11, hg]
    unfold Affine.transformF
    rw [h10, h11, hg]
    exact one ky c d g hY

/-- C114: `Rotation.rotate` in double precision, the cosine and the sine being computed with an error at most `e`. -/
theorem C114_rotate (O M P : Pt) (θ c s e : ℝ) (hO : DoublePt O) (hM : DoublePt M) (hc : |c - cos θ| ≤ e) (hs : |s - sin θ| ≤ e)
    (hP : IsRotated O θ M P) :
    |(rotateF O c s M).x - P.x| ≤ |P.x| / 2 ^ 53 + (2 * e + 4 / 2 ^ 53) * (|M.x - O.x| + |M.y - O.y|) + 2 ^ (-1072 : ℤ) ∧
    |(rotateF O c s M).y - P.y| ≤ |P.y| / 2 ^ 53 + (2 * e + 4 / 2 ^ 53) * (|M.x - O.x| + |M.y - O.y|) + 2 ^ (-1072 : ℤ) := by
  have ht : (2 : ℝ) ^ (-1072 : ℤ) = 8 * tiny := by
    unfold tiny
    rw [show (-1072 : ℤ) = 3 + -1075 by norm_num, zpow_add₀ (by norm_num)]
    norm_num
  unfold IsRotated at hP
  rw [Complex.ext_iff] at hP
  obtain ⟨hx, hy⟩ := hP
  simp [cpx, Complex.exp_ofReal_mul_I_re, Complex.exp_ofReal_mul_I_im] at hx hy
  have ex : P.x = cos θ * (M.x - O.x) + -sin θ * (M.y - O.y) + O.x := by linear_combination hx
  have ey : P.y = sin θ * (M.x - O.x) + cos θ * (M.y - O.y) + O.y := by linear_combination hy
  have nc := abs_cos_le_one θ
  have ns := abs_sin_le_one θ
  have hs' : |-s - -sin θ| ≤ e := by rw [← abs_neg]; convert hs using 2; ring
  have h1 := mul_sub_err c hM.1 hO.1
  have h2 := mul_sub_err (-s) hM.2 hO.2
  have h3 := mul_sub_err s hM.1 hO.1
  have h4 := mul_sub_err c hM.2 hO.2
  have r1 := comb_err (o := O.x) nc (by rwa [abs_neg]) hc hs' (fl_isDouble _) (fl_isDouble _) hO.1 h1 h2
  have r2 := comb_err (o := O.y) ns nc hs hc (fl_isDouble _) (fl_isDouble _) hO.2 h3 h4
  rw [← ex] at r1
  rw [← ey] at r2
  rw [neg_mul, fl_neg, ← sub_eq_add_neg] at r1
  rw [ht]
  exact ⟨r1, r2⟩

/-- C114: a rotation fixes its center exactly. -/
theorem C114_rotate_center (O : Pt) (c s : ℝ) (hO : DoublePt O) : rotateF O c s O = O := by
  unfold rotateF subF
  simp only [sub_self, fl_zero, mul_zero, zero_add, add_zero]
  rw [fl_double hO.1, fl_double hO.2]

/-- C114: `ScalingXY.transform` in double precision. -/
theorem C114_scalingXY (s : ScalingXY) (M P : Pt) (hO : DoublePt s.center) (hM : DoublePt M)
    (hx : P.x - s.center.x = s.sx * (M.x - s.center.x)) (hy : P.y - s.center.y = s.sy * (M.y - s.center.y)) :
    |(s.transformF M).x - P.x| ≤ |P.x| / 2 ^ 53 + 3 / 2 ^ 53 * |P.x - s.center.x| + 2 ^ (-1074 : ℤ) ∧
    |(s.transformF M).y - P.y| ≤ |P.y| / 2 ^ 53 + 3 / 2 ^ 53 * |P.y - s.center.y| + 2 ^ (-1074 : ℤ) := by
  have ht : (2 : ℝ) ^ (-1074 : ℤ) = 2 * tiny := by
    unfold tiny
    rw [show (-1074 : ℤ) = 1 + -1075 by norm_num, zpow_add₀ (by norm_num)]
    norm_num
  have one : ∀ f o x p : ℝ, IsDouble o → IsDouble x → p - o = f * (x - o) →
      |fl (fl (f * fl (x - o)) + o) - p| ≤ |p| / 2 ^ 53 + 3 / 2 ^ 53 * |p - o| + 2 ^ (-1074 : ℤ) := by
    intro f o x p ho hx e
    have h := last_add ho (fl_isDouble _) (mul_sub_err f hx ho)
    rw [← e, sub_add_cancel] at h
    rw [ht]
    have t0 := tiny_pos
    have a0 := abs_nonneg (p - o)
    refine h.trans ?_
    generalize |p - o| = a at *
    norm_num
    linarith
  exact ⟨one _ _ _ _ hO.1 hM.1 hx, one _ _ _ _ hO.2 hM.2 hy⟩

/-- C114: a `ScalingXY` fixes its center exactly. -/
theorem C114_scalingXY_center (s : ScalingXY) (hO : DoublePt s.center) : s.transformF s.center = s.center := by
  unfold ScalingXY.transformF subF
  simp only [sub_self, fl_zero, mul_zero, zero_add]
  rw [fl_double hO.1, fl_double hO.2]

/-- C114: `Homothety.transform` in double precision: the error is relative to the two terms of the sum, not to the image. -/
theorem C114_homothety (h : Homothety) (M P : Pt) (hs : IsDouble h.scale) (hP : IsHomothetic h.center h.scale M P) :
    |(h.transformF M).x - P.x| ≤
      |P.x| / 2 ^ 53 + 3 / 2 ^ 53 * (|(1 - h.scale) * h.center.x| + |h.scale * M.x|) + 2 ^ (-1073 : ℤ) ∧
    |(h.transformF M).y - P.y| ≤
      |P.y| / 2 ^ 53 + 3 / 2 ^ 53 * (|(1 - h.scale) * h.center.y| + |h.scale * M.y|) + 2 ^ (-1073 : ℤ) := by
  have ht : (2 : ℝ) ^ (-1073 : ℤ) = 4 * tiny := by
    unfold tiny
    rw [show (-1073 : ℤ) = 2 + -1075 by norm_num, zpow_add₀ (by norm_num)]
    norm_num
  have d1 : IsDouble 1 := by simpa using isDouble_int (n := 1) (by norm_num)
  obtain ⟨d, hd, e⟩ := sub_factor d1 hs
  have one : ∀ c x p : ℝ, p - c = h.scale * (x - c) →
      |fl (fl (fl (1 - h.scale) * c) + fl (h.scale * x)) - p| ≤
        |p| / 2 ^ 53 + 3 / 2 ^ 53 * (|(1 - h.scale) * c| + |h.scale * x|) + 2 ^ (-1073 : ℤ) := by
    intro c x p hp
    have hp' : p = (1 - h.scale) * c + h.scale * x := by linear_combination hp
    obtain ⟨d', t, hd', htt, e'⟩ := fl_factor (fl (1 - h.scale) * c)
    obtain ⟨b, hb, eb⟩ := mul_factor hd hd' (C := 2 / 2 ^ 53 + 1 / 2 ^ 106) (by norm_num)
    have g1 : |fl (fl (1 - h.scale) * c) - (1 - h.scale) * c| ≤ (2 / 2 ^ 53 + 1 / 2 ^ 106) * |(1 - h.scale) * c| + tiny := by
      rw [e', e, show (1 - h.scale) * (1 + d) * c * (1 + d') + t - (1 - h.scale) * c =
        (1 - h.scale) * c * ((1 + d) * (1 + d') - 1) + t by ring, eb, add_sub_cancel_left]
      refine (abs_add_le _ _).trans (add_le_add ?_ htt)
      rw [abs_mul, mul_comm]
      gcongr
    have g2 := fl_err' (h.scale * x)
    obtain ⟨w, hw, ew⟩ := add_factor (fl_isDouble (fl (1 - h.scale) * c)) (fl_isDouble (h.scale * x))
    have key : fl (fl (fl (1 - h.scale) * c) + fl (h.scale * x)) - p =
        p * w + (1 + w) * ((fl (fl (1 - h.scale) * c) - (1 - h.scale) * c) + (fl (h.scale * x) - h.scale * x)) := by
      rw [ew, hp']; ring
    have hw1 : |1 + w| ≤ 1 + 1 / 2 ^ 53 := (abs_add_le _ _).trans (by rw [abs_one]; gcongr)
    rw [key, ht]
    have t0 := tiny_pos
    have a0 := abs_nonneg ((1 - h.scale) * c)
    have b0 := abs_nonneg (h.scale * x)
    generalize fl (fl (1 - h.scale) * c) - (1 - h.scale) * c = U at *
    generalize fl (h.scale * x) - h.scale * x = V at *
    generalize |(1 - h.scale) * c| = a at *
    generalize |h.scale * x| = b' at *
    calc |p * w + (1 + w) * (U + V)| ≤ |p| * |w| + |1 + w| * (|U| + |V|) := by
          rw [← abs_mul]
          refine (abs_add_le _ _).trans ?_
          rw [abs_mul (1 + w)]
          gcongr
          exact abs_add_le _ _
      _ ≤ |p| * (1 / 2 ^ 53) + (1 + 1 / 2 ^ 53) * ((2 / 2 ^ 53 + 1 / 2 ^ 106) * a + tiny + (b' / 2 ^ 53 + tiny)) := by gcongr
      _ ≤ _ := by norm_num; linarith
  have hx := congrArg Pt.x hP
  have hy := congrArg Pt.y hP
  simp only [Pt.sub_x, Pt.sub_y, Pt.smul_x, Pt.smul_y] at hx hy
  exact ⟨one _ _ _ hx, one _ _ _ hy⟩

/-- C114: a homothety does not fix its center: with the ratio `1e17` the center `(1, 1)` goes to the origin. -/
theorem C114_homothety_center_counterexample : ∃ h : Homothety, DoublePt h.center ∧ IsDouble h.scale ∧
    IsHomothetic h.center h.scale h.center h.center ∧ h.transformF h.center = ⟨0, 0⟩ ∧ h.center = ⟨1, 1⟩ := by
  have d1 : IsDouble 1 := by simpa using isDouble_int (n := 1) (by norm_num)
  have ds : IsDouble (10 ^ 17) := ⟨5 ^ 17, 17, by norm_num, by norm_num, by norm_num⟩
  have e1 : fl (1 - 10 ^ 17) = -10 ^ 17 := by
    have : fl (10 ^ 17 - 1) = (6250000000000000 : ℤ) * 2 ^ (4 : ℤ) := by
      apply fl_eval (by norm_num) <;> norm_num [abs_of_pos]
    rw [show (1 - 10 ^ 17 : ℝ) = -(10 ^ 17 - 1) by ring, fl_neg, this]
    norm_num
  refine ⟨⟨⟨1, 1⟩, 10 ^ 17⟩, ⟨d1, d1⟩, ds, ?_, ?_, rfl⟩
  · unfold IsHomothetic
    ext <;> simp
  · unfold Homothety.transformF
    have e2 : fl (-10 ^ 17) = -10 ^ 17 := by rw [← e1, fl_fl]
    simp only [e1, mul_one, e2, fl_double ds, neg_add_cancel, fl_zero]

/-- C114: the homothety of ratio one is the identity, and the homothety of ratio zero gives the center, exactly. -/
theorem C114_homothety_exact (c M : Pt) (hc : DoublePt c) (hM : DoublePt M) :
    Homothety.transformF ⟨c, 1⟩ M = M ∧ Homothety.transformF ⟨c, 0⟩ M = c := by
  have d1 : fl 1 = 1 := fl_double (by simpa using isDouble_int (n := 1) (by norm_num))
  unfold Homothety.transformF
  constructor
  · simp only [sub_self, fl_zero, zero_mul, one_mul, zero_add, fl_fl]
    rw [fl_double hM.1, fl_double hM.2]
  · simp only [sub_zero, d1, one_mul, zero_mul, fl_zero, add_zero, fl_fl]
    rw [fl_double hc.1, fl_double hc.2]

/-- The point `(1, 2)` inverted with respect to the circle of centre `(0, 0)` and power `10`: the computation is exact. -/
example (k : Fma) : (⟨⟨0, 0⟩, 10⟩ : Inversion).invertF k ⟨1, 2⟩ = .ok (.fin ⟨2, 4⟩) ∧ IsInverse ⟨0, 0⟩ 10 ⟨1, 2⟩ ⟨2, 4⟩ := by
  have i : ∀ n : ℤ, |n| ≤ 2 ^ 53 → fl n = n := fun n h => fl_double (isDouble_int h)
  have f1 : fl 1 = 1 := by simpa using i 1 (by norm_num)
  have f2 : fl 2 = 2 := by simpa using i 2 (by norm_num)
  have f4 : fl 4 = 4 := by simpa using i 4 (by norm_num)
  have f5 : fl 5 = 5 := by simpa using i 5 (by norm_num)
  have hv : vdotF k ⟨1, 2⟩ ⟨1, 2⟩ = 5 := by
    unfold vdotF
    cases k <;> norm_num [f1, f2, f4, f5]
  have hc : ¬ allclose64 ⟨0, 0⟩ ⟨1, 2⟩ := by
    intro h
    have h1 := h.1
    unfold npClose64 at h1
    have a := fl_err_le (1 / 10 ^ 8)
    have b := fl_err_le (1 / 10 ^ 5)
    have t : (2 : ℝ) ^ (-1075 : ℤ) ≤ 1 / 2 ^ 10 := by
      calc (2 : ℝ) ^ (-1075 : ℤ) ≤ 2 ^ (-10 : ℤ) := zpow_le_zpow_right₀ (by norm_num) (by norm_num)
        _ = _ := by norm_num [zpow_neg]
    norm_num [fl_neg, f1, fl_fl] at h1
    have m : fl (fl (1 / 100000000) + fl (1 / 100000)) ≤ fl (1 / 2) := by
      apply fl_mono
      norm_num [abs_le] at a b t
      linarith [a.2, b.2]
    have hh : fl (1 / 2) = 1 / 2 := fl_double ⟨1, -1, by norm_num, by norm_num, by norm_num⟩
    rw [hh] at m
    linarith
  constructor
  · unfold Inversion.invertF subF
    rw [if_neg hc]
    norm_num [f1, f2, f4, hv]
  · refine ⟨fun h => by simpa using congrArg Pt.x h, ?_, ?_⟩ <;> norm_num [cross, dot]

/-- A rotation by a right angle, with the value `cos(pi/2) = 0x1.1a62633145c07p-54` that the C library gives: the bound is about `1e-15`. -/
example : |(rotateF ⟨0, 0⟩ (4967757600021511 / 2 ^ 106) 1 ⟨3, 1⟩).x - -1| ≤ 1 / 2 ^ 48 := by
  have i : ∀ n : ℤ, |n| ≤ 2 ^ 53 → IsDouble n := fun n h => isDouble_int h
  have d0 : IsDouble 0 := by simpa using i 0 (by norm_num)
  have d1 : IsDouble 1 := by simpa using i 1 (by norm_num)
  have d3 : IsDouble 3 := by simpa using i 3 (by norm_num)
  have h := (C114_rotate ⟨0, 0⟩ ⟨3, 1⟩ ⟨-1, 3⟩ (π / 2) (4967757600021511 / 2 ^ 106) 1 (1 / 2 ^ 53) ⟨d0, d0⟩ ⟨d3, d1⟩
    (by rw [cos_pi_div_two]; norm_num [abs_of_pos]) (by rw [sin_pi_div_two]; norm_num)
    (by
      unfold IsRotated
      rw [Complex.ext_iff]
      simp [cpx, Complex.exp_re, Complex.exp_im])).1
  have t : (2 : ℝ) ^ (-1072 : ℤ) ≤ 1 / 2 ^ 100 := by
    calc (2 : ℝ) ^ (-1072 : ℤ) ≤ 2 ^ (-100 : ℤ) := zpow_le_zpow_right₀ (by norm_num) (by norm_num)
      _ = _ := by norm_num [zpow_neg]
  refine h.trans ?_
  norm_num [abs_of_pos] at *
  linarith

/-- The scaling of factors `2` and `3` with centre `(1, 1)`. -/
example : (⟨⟨1, 1⟩, 2, 3⟩ : ScalingXY).transformF ⟨3, 2⟩ = ⟨5, 4⟩ := by
  have i : ∀ n : ℤ, |n| ≤ 2 ^ 53 → fl n = n := fun n h => fl_double (isDouble_int h)
  have f1 : fl 1 = 1 := by simpa using i 1 (by norm_num)
  have f2 : fl 2 = 2 := by simpa using i 2 (by norm_num)
  have f3 : fl 3 = 3 := by simpa using i 3 (by norm_num)
  have f4 : fl 4 = 4 := by simpa using i 4 (by norm_num)
  have f5 : fl 5 = 5 := by simpa using i 5 (by norm_num)
  unfold ScalingXY.transformF subF
  norm_num [f1, f2, f3, f4, f5]

/-- The affine map of matrix `[[1, 2], [3, 4]]` and vector `(5, 6)` at `(7, 8)`. -/
example (kx ky : Fma) : (⟨!![1, 2; 3, 4], ⟨5, 6⟩⟩ : Affine).transformF kx ky ⟨7, 8⟩ = ⟨28, 59⟩ :=
  C114_affine_int kx ky _ _ _ 1 2 3 4 5 6 7 8 (by simp) (by simp) (by simp) (by simp) (by simp) (by simp) (by simp) (by simp)
    (by norm_num) (by norm_num) (by norm_num) (by norm_num)

/-- The map `(x, y) ↦ (2 x + y + 1, x + 3 y)` at `(1, 2)`, within `10^-14` of `(5, 7)`; the homothety of center `(1, 1)` and scale 3 at `(2, 2)`;
the centers of a rotation and of a scaling stay exactly. -/
example (kx ky : Fma) (c s : ℝ) : |((⟨!![2, 1; 1, 3], ⟨1, 0⟩⟩ : Affine).transformF kx ky ⟨1, 2⟩).x - 5| ≤ 1 / 10 ^ 14 ∧
    |((⟨⟨1, 1⟩, 3⟩ : Homothety).transformF ⟨2, 2⟩).x - 4| ≤ 1 / 10 ^ 14 ∧
    |((⟨⟨1, 1⟩, 3, 5⟩ : ScalingXY).transformF ⟨2, 2⟩).y - 6| ≤ 1 / 10 ^ 14 ∧
    rotateF ⟨1, 1⟩ c s ⟨1, 1⟩ = ⟨1, 1⟩ ∧ (⟨⟨1, 1⟩, 3, 5⟩ : ScalingXY).transformF ⟨1, 1⟩ = ⟨1, 1⟩ := by
  have h1 : DoublePt ⟨1, 1⟩ := by simpa using Ex.dbl 1 1 (by norm_num) (by norm_num)
  have h2 : DoublePt ⟨2, 2⟩ := by simpa using Ex.dbl 2 2 (by norm_num) (by norm_num)
  have h10 : DoublePt ⟨1, 0⟩ := by simpa using Ex.dbl 1 0 (by norm_num) (by norm_num)
  have z1 : (2 : ℝ) ^ (-1072 : ℤ) ≤ 2 ^ (-60 : ℤ) := zpow_le_zpow_right₀ (by norm_num) (by norm_num)
  have z2 : (2 : ℝ) ^ (-1073 : ℤ) ≤ 2 ^ (-60 : ℤ) := zpow_le_zpow_right₀ (by norm_num) (by norm_num)
  have z3 : (2 : ℝ) ^ (-1074 : ℤ) ≤ 2 ^ (-60 : ℤ) := zpow_le_zpow_right₀ (by norm_num) (by norm_num)
  have hz : (2 : ℝ) ^ (-60 : ℤ) = 1 / 1152921504606846976 := by norm_num
  rw [hz] at z1 z2 z3
  refine ⟨?_, ?_, ?_, C114_rotate_center _ c s h1, C114_scalingXY_center _ h1⟩
  · have := (C114_affine kx ky ⟨!![2, 1; 1, 3], ⟨1, 0⟩⟩ ⟨1, 2⟩ ⟨5, 7⟩ h10 (by norm_num) (by norm_num)).1
    norm_num [abs_of_pos] at this z1 ⊢; linarith
  · have := (C114_homothety ⟨⟨1, 1⟩, 3⟩ ⟨2, 2⟩ ⟨4, 4⟩ (by simpa using isDouble_int (n := 3) (by norm_num))
      (by unfold IsHomothetic; ext <;> norm_num)).1
    norm_num [abs_of_pos, abs_of_neg] at this z2 ⊢; linarith
  · have := (C114_scalingXY ⟨⟨1, 1⟩, 3, 5⟩ ⟨2, 2⟩ ⟨4, 6⟩ h1 h2 (by norm_num) (by norm_num)).2
    norm_num [abs_of_pos, abs_of_neg] at this z3 ⊢; linarith

/-- The inverse of `(3, 1)` with respect to the circle of radius 1 about the origin is `(3/10, 1/10)`; the computed one is close. -/
example (k : Fma) : ∀ Q, (⟨⟨0, 0⟩, 1⟩ : Inversion).invertF k ⟨3, 1⟩ = .ok (.fin Q) → |Q.x - 3 / 10| ≤ 1 / 10 ^ 14 := by
  have h0 : DoublePt ⟨0, 0⟩ := by simpa using Ex.dbl 0 0 (by norm_num) (by norm_num)
  have h1 : DoublePt ⟨3, 1⟩ := by simpa using Ex.dbl 3 1 (by norm_num) (by norm_num)
  have z : (2 : ℝ) ^ (-1073 : ℤ) ≤ 2 ^ (-60 : ℤ) := zpow_le_zpow_right₀ (by norm_num) (by norm_num)
  have hz : (2 : ℝ) ^ (-60 : ℤ) = 1 / 1152921504606846976 := by norm_num
  rw [hz] at z
  intro Q hQ
  rcases C114_invert k ⟨⟨0, 0⟩, 1⟩ ⟨3, 1⟩ ⟨3 / 10, 1 / 10⟩ h0 h1 (by norm_num [IsInverse, cross, dot]) with ⟨h, -⟩ | ⟨Q', h, -, -, hx, -⟩
  · rw [h] at hQ; simp at hQ
  · rw [h] at hQ
    simp at hQ
    subst hQ
    norm_num [abs_of_pos] at hx z ⊢
    linarith
