import Verif.Props.FloatGeom
import Verif.Model.Triangle

/-!
# C89: `Triangle.orientation` in double precision
-/

open Spec Real Classical FG

namespace FG

/-- The product of two rounded differences, rounded. -/
theorem prod_err {a b c d : ℝ} (ha : IsDouble a) (hb : IsDouble b) (hc : IsDouble c) (hd : IsDouble d) :
    |fl (fl (a - b) * fl (c - d)) - (a - b) * (c - d)| ≤ 7 / 2 / 2 ^ 53 * |(a - b) * (c - d)| + tiny := by
  have h1 := fl_sub_err ha hb
  have h2 := fl_sub_err hc hd
  have h3 := fl_err' (fl (a - b) * fl (c - d))
  obtain ⟨s, hs⟩ : ∃ s, s = fl (a - b) - (a - b) := ⟨_, rfl⟩
  obtain ⟨t, ht⟩ : ∃ t, t = fl (c - d) - (c - d) := ⟨_, rfl⟩
  have es : fl (a - b) = (a - b) + s := by rw [hs]; ring
  have et : fl (c - d) = (c - d) + t := by rw [ht]; ring
  rw [← hs] at h1
  rw [← ht] at h2
  rw [es, et] at h3 ⊢
  generalize a - b = x at *
  generalize c - d = y at *
  have hx := abs_nonneg x
  have hy := abs_nonneg y
  have hxy : |(x + s) * (y + t) - x * y| ≤ (2 / 2 ^ 53 + 1 / 2 ^ 106) * (|x| * |y|) := by
    have : (x + s) * (y + t) - x * y = x * t + s * y + s * t := by ring
    rw [this]
    have a1 : |x * t| ≤ |x| * (|y| / 2 ^ 53) := by rw [abs_mul]; gcongr
    have a2 : |s * y| ≤ (|x| / 2 ^ 53) * |y| := by rw [abs_mul]; gcongr
    have a3 : |s * t| ≤ (|x| / 2 ^ 53) * (|y| / 2 ^ 53) := by rw [abs_mul]; gcongr
    have := (abs_add_le (x * t + s * y) (s * t)).trans (add_le_add_left (abs_add_le _ _) _)
    calc _ ≤ |x * t| + |s * y| + |s * t| := this
      _ ≤ |x| * (|y| / 2 ^ 53) + (|x| / 2 ^ 53) * |y| + (|x| / 2 ^ 53) * (|y| / 2 ^ 53) := by gcongr
      _ = _ := by ring
  have hz : |(x + s) * (y + t)| ≤ |x| * |y| + (2 / 2 ^ 53 + 1 / 2 ^ 106) * (|x| * |y|) := by
    have := abs_sub_abs_le_abs_sub ((x + s) * (y + t)) (x * y)
    rw [abs_mul x y] at this
    linarith
  have hfin : |fl ((x + s) * (y + t)) - x * y| ≤ |fl ((x + s) * (y + t)) - (x + s) * (y + t)| + |(x + s) * (y + t) - x * y| := by
    have : fl ((x + s) * (y + t)) - x * y = (fl ((x + s) * (y + t)) - (x + s) * (y + t)) + ((x + s) * (y + t) - x * y) := by ring
    rw [this]; exact abs_add_le _ _
  rw [abs_mul x y]
  have hn := mul_nonneg hx hy
  generalize |x| * |y| = n at *
  norm_num at *
  linarith

/-- The sign of a rounded difference of doubles is exact. -/
theorem sign_sub {p q : ℝ} (hp : IsDouble p) (hq : IsDouble q) :
    (fl (p - q) = 0 ↔ p = q) ∧ (0 < fl (p - q) ↔ q < p) := by
  have hz := fl_sub_eq_zero hp hq
  refine ⟨hz, ?_⟩
  constructor
  · intro h
    by_contra hc
    push Not at hc
    have := fl_nonpos (sub_nonpos.2 hc)
    linarith
  · intro h
    refine lt_of_le_of_ne (fl_nonneg (sub_nonneg.2 h.le)) (fun h0 => ?_)
    have := hz.1 h0.symm
    linarith

theorem orientationF_eq (T : Triangle) (p q : ℝ) (hp : p = fl (fl (T.B.y - T.A.y) * fl (T.C.x - T.B.x)))
    (hq : q = fl (fl (T.B.x - T.A.x) * fl (T.C.y - T.B.y))) :
    T.orientationF = if p = q then 0 else if q < p then 1 else -1 := by
  have := sign_sub (fl_isDouble (fl (T.B.y - T.A.y) * fl (T.C.x - T.B.x))) (fl_isDouble (fl (T.B.x - T.A.x) * fl (T.C.y - T.B.y)))
  unfold Triangle.orientationF
  dsimp only
  rw [← hp, ← hq] at this ⊢
  simp only [this.1, gt_iff_lt, this.2]

end FG

/-- The vertices of the triangle are doubles. -/
def Spec.DoubleTriangle (T : Triangle) : Prop := DoublePt T.A ∧ DoublePt T.B ∧ DoublePt T.C

/-- C89: the orientation computed in double precision is the right one unless the triangle is nearly flat: the doubled area exceeds
2^-51 times the sum of the two products of which it is the difference. -/
theorem C89_orientation (T : Triangle) (hT : DoubleTriangle T)
    (h : (|(T.B.y - T.A.y) * (T.C.x - T.B.x)| + |(T.B.x - T.A.x) * (T.C.y - T.B.y)|) / 2 ^ 51 + 2 ^ (-1074 : ℤ) <
      |cross (T.B - T.A) (T.C - T.A)|) :
    T.orientationF = T.orientation := by
  obtain ⟨⟨a1, a2⟩, ⟨b1, b2⟩, c1, c2⟩ := hT
  have e1 := prod_err b2 a2 c1 b1
  have e2 := prod_err b1 a1 c2 b2
  rw [orientationF_eq T _ _ rfl rfl]
  unfold Triangle.orientation
  dsimp only
  have ec : cross (T.B - T.A) (T.C - T.A) = -((T.B.y - T.A.y) * (T.C.x - T.B.x) - (T.B.x - T.A.x) * (T.C.y - T.B.y)) := by
    unfold cross; simp only [Pt.sub_x, Pt.sub_y]; ring
  rw [ec, abs_neg] at h
  have et : (2 : ℝ) ^ (-1074 : ℤ) = 2 * tiny := by
    unfold tiny
    rw [show (-1074 : ℤ) = 1 + -1075 by norm_num, zpow_add₀ (by norm_num)]
    norm_num
  rw [et] at h
  have ht := tiny_pos
  generalize fl (fl (T.B.y - T.A.y) * fl (T.C.x - T.B.x)) = p' at *
  generalize fl (fl (T.B.x - T.A.x) * fl (T.C.y - T.B.y)) = q' at *
  generalize (T.B.y - T.A.y) * (T.C.x - T.B.x) = p at *
  generalize (T.B.x - T.A.x) * (T.C.y - T.B.y) = q at *
  have p0 := abs_nonneg p
  have q0 := abs_nonneg q
  rw [abs_le] at e1 e2
  norm_num at h e1 e2
  rcases lt_trichotomy p q with hlt | heq | hgt
  · rw [abs_of_neg (show p - q < 0 by linarith)] at h
    rw [if_neg (by intro h'; linarith), if_neg (by linarith), if_neg (by intro h'; linarith), if_neg (by linarith)]
  · rw [heq, sub_self, abs_zero] at h
    linarith
  · rw [abs_of_pos (show 0 < p - q by linarith)] at h
    rw [if_neg (by intro h'; linarith), if_pos (by linarith), if_neg (by intro h'; linarith), if_pos (by linarith)]

/-- Integer coordinates bounded by `N`. -/
def Spec.Grid (N : ℤ) (P : Pt) : Prop := ∃ m n : ℤ, |m| ≤ N ∧ |n| ≤ N ∧ P = ⟨m, n⟩

/-- C89: integer coordinates up to 2^52 (and 2^25): the computed orientation is never the opposite one (is exact). -/
theorem C89_grid (T : Triangle) (h : Grid (2 ^ 52) T.A ∧ Grid (2 ^ 52) T.B ∧ Grid (2 ^ 52) T.C) :
    (T.orientationF = 0 ∨ T.orientationF = T.orientation) ∧
    (T.orientation = 0 → T.orientationF = 0) ∧
    (Grid (2 ^ 25) T.A ∧ Grid (2 ^ 25) T.B ∧ Grid (2 ^ 25) T.C → T.orientationF = T.orientation) := by
  obtain ⟨⟨ax, ay, hax, hay, hA⟩, ⟨bx, bY, hbx, hby, hB⟩, cx, cy, hcx, hcy, hC⟩ := h
  have sub : ∀ m n : ℤ, |m| ≤ 2 ^ 52 → |n| ≤ 2 ^ 52 → fl ((m : ℝ) - n) = m - n := by
    intro m n hm hn
    have : IsDouble ((m - n : ℤ) : ℝ) := isDouble_int (by rw [abs_le] at *; constructor <;> omega)
    push_cast at this
    exact fl_double this
  have s1 := sub _ _ hby hay
  have s2 := sub _ _ hcx hbx
  have s3 := sub _ _ hbx hax
  have s4 := sub _ _ hcy hby
  have eo := orientationF_eq T _ _ rfl rfl
  rw [eo]
  unfold Triangle.orientation
  dsimp only
  rw [hA, hB, hC]
  dsimp only
  rw [s1, s2, s3, s4]
  have hgen : ∀ p q : ℝ, (((if fl p = fl q then 0 else if fl q < fl p then 1 else -1 : ℤ) = 0 ∨
      (if fl p = fl q then 0 else if fl q < fl p then 1 else -1 : ℤ) = if p - q = 0 then 0 else if p - q > 0 then 1 else -1)) ∧
      ((if p - q = 0 then 0 else if p - q > 0 then 1 else -1 : ℤ) = 0 → (if fl p = fl q then 0 else if fl q < fl p then 1 else -1 : ℤ) = 0) := by
    intro p q
    rcases lt_trichotomy p q with hlt | heq | hgt
    · have hm := fl_mono hlt.le
      rw [if_neg (show ¬ p - q = 0 by intro h; linarith), if_neg (show ¬ p - q > 0 by intro h; linarith)]
      refine ⟨?_, by simp⟩
      by_cases he : fl p = fl q
      · left; rw [if_pos he]
      · right; rw [if_neg he, if_neg (by linarith)]
    · rw [heq]; simp
    · have hm := fl_mono hgt.le
      rw [if_neg (show ¬ p - q = 0 by intro h; linarith), if_pos (show p - q > 0 by linarith)]
      refine ⟨?_, by simp⟩
      by_cases he : fl p = fl q
      · left; rw [if_pos he]
      · right; rw [if_neg he, if_pos (lt_of_le_of_ne hm (Ne.symm he))]
  obtain ⟨g1, g2⟩ := hgen (((bY : ℝ) - ay) * (cx - bx)) (((bx : ℝ) - ax) * (cy - bY))
  refine ⟨g1, g2, ?_⟩
  rintro ⟨⟨ax', ay', kax, kay, hA'⟩, ⟨bx', bY', kbx, kby, hB'⟩, cx', cy', kcx, kcy, hC'⟩
  have cast : ∀ {m n m' n' : ℤ}, (⟨m, n⟩ : Pt) = ⟨m', n'⟩ → m = m' ∧ n = n' := by
    intro m n m' n' h
    have h1 := congrArg Pt.x h
    have h2 := congrArg Pt.y h
    simp only [Int.cast_inj] at h1 h2
    exact ⟨h1, h2⟩
  obtain ⟨rfl, rfl⟩ := cast hA'
  obtain ⟨rfl, rfl⟩ := cast hB'
  obtain ⟨rfl, rfl⟩ := cast hC'
  have prod : ∀ k l m n : ℤ, |k| ≤ 2 ^ 25 → |l| ≤ 2 ^ 25 → |m| ≤ 2 ^ 25 → |n| ≤ 2 ^ 25 →
      fl (((k : ℝ) - l) * (m - n)) = (k - l) * (m - n) := by
    intro k l m n hk hl hm hn
    have : IsDouble (((k - l) * (m - n) : ℤ) : ℝ) := by
      apply isDouble_int
      rw [abs_mul]
      have h1 : |k - l| ≤ 2 ^ 26 := by rw [abs_le] at *; constructor <;> omega
      have h2 : |m - n| ≤ 2 ^ 26 := by rw [abs_le] at *; constructor <;> omega
      calc |k - l| * |m - n| ≤ 2 ^ 26 * 2 ^ 26 := by gcongr
        _ ≤ 2 ^ 53 := by norm_num
    push_cast at this
    exact fl_double this
  rw [prod _ _ _ _ kby kay kcx kbx, prod _ _ _ _ kbx kax kcy kby]
  simp only [sub_eq_zero, gt_iff_lt, sub_pos]

/-- C89 is false without the restriction: a triangle that is not flat, of orientation 0 in double precision. -/
theorem C89_orientation_counterexample :
    (⟨⟨0, 0⟩, ⟨1, 1⟩, ⟨2 ^ (-60 : ℤ), 0⟩⟩ : Triangle).orientationF = 0 ∧ ¬ Collinear ⟨0, 0⟩ ⟨1, 1⟩ ⟨2 ^ (-60 : ℤ), 0⟩ ∧
    DoubleTriangle ⟨⟨0, 0⟩, ⟨1, 1⟩, ⟨2 ^ (-60 : ℤ), 0⟩⟩ := by
  have d0 : IsDouble 0 := by simpa using isDouble_int (n := 0) (by norm_num)
  have d1 : IsDouble 1 := by simpa using isDouble_int (n := 1) (by norm_num)
  have f1 : fl 1 = 1 := fl_double d1
  have fm : fl (-1) = -1 := fl_double (isDouble_neg d1)
  refine ⟨?_, ?_, ⟨d0, d0⟩, ⟨d1, d1⟩, isDouble_pow _ (by norm_num), d0⟩
  · have hv : fl ((2 : ℝ) ^ (-60 : ℤ) - 1) = -1 := by
      have h := fl_eval (x := (2 : ℝ) ^ (-60 : ℤ) - 1) (e := -53) (n := -2 ^ 53) (by norm_num)
        (by rw [abs_of_neg (by norm_num)]; norm_num) (by rw [abs_of_neg (by norm_num)]; norm_num) (by
          rw [abs_lt]; norm_num)
      rw [h]; norm_num
    rw [orientationF_eq _ _ _ rfl rfl]
    dsimp only
    rw [hv, show (1 : ℝ) - 0 = 1 by norm_num, show (0 : ℝ) - 1 = -1 by norm_num, f1, fm]
    simp
  · unfold Spec.Collinear cross
    simp

/-- An ordinary triangle. -/
example : Grid (2 ^ 25) ⟨0, 0⟩ ∧ Grid (2 ^ 25) ⟨1000, 3⟩ ∧ Grid (2 ^ 52) ⟨-7, 12⟩ := by
  refine ⟨⟨0, 0, by norm_num, by norm_num, by simp⟩, ⟨1000, 3, by norm_num, by norm_num, by simp⟩, ⟨-7, 12, by norm_num, by norm_num, by simp⟩⟩

example : (|((1 : ℝ) - 0) * (0 - 1)| + |((1 : ℝ) - 0) * (1 - 1)|) / 2 ^ 51 + 2 ^ (-1074 : ℤ) <
    |cross ((⟨1, 1⟩ : Pt) - ⟨0, 0⟩) (⟨0, 1⟩ - ⟨0, 0⟩)| := by
  have hz : (2 : ℝ) ^ (-1074 : ℤ) ≤ 2 ^ (-2 : ℤ) := zpow_le_zpow_right₀ (by norm_num) (by norm_num)
  unfold cross
  norm_num at hz ⊢
  linarith

/-- The orientation of ordinary triangles is the exact one. -/
example : (⟨⟨0, 0⟩, ⟨1000, 3⟩, ⟨-7, 12⟩⟩ : Triangle).orientationF = (⟨⟨0, 0⟩, ⟨1000, 3⟩, ⟨-7, 12⟩⟩ : Triangle).orientation ∧
    (⟨⟨0, 0⟩, ⟨1, 1⟩, ⟨0, 1⟩⟩ : Triangle).orientationF = (⟨⟨0, 0⟩, ⟨1, 1⟩, ⟨0, 1⟩⟩ : Triangle).orientation := by
  have g : ∀ B : ℕ, 1000 ≤ B → Grid B ⟨0, 0⟩ ∧ Grid B ⟨1000, 3⟩ ∧ Grid B ⟨-7, 12⟩ := fun B hB =>
    ⟨⟨0, 0, by simp, by simp, by simp⟩, ⟨1000, 3, by norm_num; omega, by norm_num; omega, by simp⟩,
      ⟨-7, 12, by norm_num; omega, by norm_num; omega, by simp⟩⟩
  constructor
  · exact (C89_grid ⟨⟨0, 0⟩, ⟨1000, 3⟩, ⟨-7, 12⟩⟩ (g _ (by norm_num))).2.2 (g _ (by norm_num))
  · refine C89_orientation _ ⟨?_, ?_, ?_⟩ ?_
    · simpa using Ex.dbl 0 0 (by norm_num) (by norm_num)
    · simpa using Ex.dbl 1 1 (by norm_num) (by norm_num)
    · simpa using Ex.dbl 0 1 (by norm_num) (by norm_num)
    · have hz : (2 : ℝ) ^ (-1074 : ℤ) ≤ 2 ^ (-2 : ℤ) := zpow_le_zpow_right₀ (by norm_num) (by norm_num)
      unfold cross
      norm_num at hz ⊢
      linarith
