import Verif.Model.FloatIncircle
import Verif.Props.FloatMobius
import Verif.Props.Triangle

/-!
# C127: `Triangle.incircle` in double precision
-/

open Spec Real Classical FG FT

namespace FH

/-- `x` is `y` up to the relative error `α`. -/
def Rel (α x y : ℝ) : Prop := |x - y| ≤ α * y

theorem Rel.bounds {α x y : ℝ} (h : Rel α x y) : (1 - α) * y ≤ x ∧ x ≤ (1 + α) * y := by
  obtain ⟨h1, h2⟩ := abs_le.1 h
  constructor <;> linarith

theorem Rel.of {α x y : ℝ} (h1 : (1 - α) * y ≤ x) (h2 : x ≤ (1 + α) * y) : Rel α x y :=
  abs_le.2 ⟨by linarith, by linarith⟩

theorem Rel.mono {α β x y : ℝ} (h : Rel α x y) (hy : 0 ≤ y) (hb : α ≤ β) : Rel β x y :=
  le_trans h (mul_le_mul_of_nonneg_right hb hy)

theorem Rel.mul {α β γ x y x' y' : ℝ} (h : Rel α x y) (h' : Rel β x' y') (hy : 0 ≤ y) (hy' : 0 ≤ y') (ha : 0 ≤ α) (hg : α + β + α * β ≤ γ) :
    Rel γ (x * x') (y * y') := by
  unfold Rel at *
  have e : x * x' - y * y' = (x - y) * (x' - y') + (x - y) * y' + y * (x' - y') := by ring
  have e0 : 0 ≤ α * y := mul_nonneg ha hy
  calc |x * x' - y * y'| ≤ |(x - y) * (x' - y')| + |(x - y) * y'| + |y * (x' - y')| := by
        rw [e]; exact (abs_add_le _ _).trans (add_le_add (abs_add_le _ _) le_rfl)
    _ = |x - y| * |x' - y'| + |x - y| * y' + y * |x' - y'| := by rw [abs_mul, abs_mul, abs_mul, abs_of_nonneg hy, abs_of_nonneg hy']
    _ ≤ α * y * (β * y') + α * y * y' + y * (β * y') := by gcongr
    _ = (α + β + α * β) * (y * y') := by ring
    _ ≤ γ * (y * y') := mul_le_mul_of_nonneg_right hg (mul_nonneg hy hy')

theorem Rel.sqrt {α x y : ℝ} (h : Rel α x y) (hy : 0 ≤ y) (ha : 0 ≤ α) (ha' : α ≤ 1 / 4) : Rel (11 / 20 * α) (√x) (√y) := by
  obtain ⟨h1, h2⟩ := h.bounds
  have hs := Real.sq_sqrt hy
  have hn := Real.sqrt_nonneg y
  apply Rel.of
  · apply Real.le_sqrt_of_sq_le
    rw [mul_pow, hs]
    refine le_trans (mul_le_mul_of_nonneg_right ?_ hy) h1
    nlinarith
  · rw [Real.sqrt_le_left (by positivity), mul_pow, hs]
    refine h2.trans (mul_le_mul_of_nonneg_right ?_ hy)
    nlinarith

theorem Rel.div {α β γ x y x' y' : ℝ} (h : Rel α x y) (h' : Rel β x' y') (hy : 0 ≤ y) (hy' : 0 < y') (ha : 0 ≤ α) (ha' : α ≤ 1 / 4)
    (hb : 0 ≤ β) (hb' : β ≤ 1 / 100) (hg : α + 13 / 10 * β ≤ γ) : Rel γ (x / x') (y / y') := by
  obtain ⟨h1, h2⟩ := h.bounds
  obtain ⟨h3, h4⟩ := h'.bounds
  have hx' : 0 < x' := lt_of_lt_of_le (mul_pos (by linarith) hy') h3
  have hq : 0 ≤ y / y' := div_nonneg hy hy'.le
  refine Rel.mono (α := α + 13 / 10 * β) ?_ hq hg
  have e : y = y / y' * y' := by field_simp
  apply Rel.of
  · rw [le_div_iff₀ hx']
    rcases le_total 0 (1 - (α + 13 / 10 * β)) with h0 | h0
    · calc (1 - (α + 13 / 10 * β)) * (y / y') * x' ≤ (1 - (α + 13 / 10 * β)) * (y / y') * ((1 + β) * y') :=
            mul_le_mul_of_nonneg_left h4 (mul_nonneg h0 hq)
        _ = (1 - (α + 13 / 10 * β)) * (1 + β) * (y / y' * y') := by ring
        _ = (1 - (α + 13 / 10 * β)) * (1 + β) * y := by rw [← e]
        _ ≤ (1 - α) * y := mul_le_mul_of_nonneg_right (by nlinarith [mul_nonneg ha hb, mul_nonneg hb hb]) hy
        _ ≤ x := h1
    · linarith
  · rw [div_le_iff₀ hx']
    calc x ≤ (1 + α) * y := h2
      _ ≤ (1 + (α + 13 / 10 * β)) * (1 - β) * y := mul_le_mul_of_nonneg_right (by nlinarith [mul_nonneg ha hb, mul_nonneg hb hb]) hy
      _ = (1 + (α + 13 / 10 * β)) * (1 - β) * (y / y' * y') := by rw [← e]
      _ = (1 + (α + 13 / 10 * β)) * (y / y') * ((1 - β) * y') := by ring
      _ ≤ (1 + (α + 13 / 10 * β)) * (y / y') * x' := mul_le_mul_of_nonneg_left h3 (mul_nonneg (by linarith) hq)

theorem Rel.fl {α γ x y : ℝ} (h : Rel α x y) (hy : 1 / 2 ^ 50 ≤ y) (ha : 0 ≤ α) (ha' : α ≤ 1 / 4) (hg : α + 13 / 10 / 2 ^ 53 ≤ γ) :
    Rel γ (fl x) y := by
  obtain ⟨h1, h2⟩ := h.bounds
  have hy0 : 0 < y := lt_of_lt_of_le (by norm_num) hy
  have h3 : 3 / 4 * y ≤ x := le_trans (mul_le_mul_of_nonneg_right (by linarith) hy0.le) h1
  have hx : 0 < x := lt_of_lt_of_le (by positivity) h3
  have h4 : x ≤ 5 / 4 * y := h2.trans (mul_le_mul_of_nonneg_right (by linarith) hy0.le)
  have h5 := FM.fl_rel (x := x) (Or.inr (by
    rw [abs_of_pos hx]
    refine le_trans ?_ h3
    refine le_trans ?_ (mul_le_mul_of_nonneg_left hy (by norm_num))
    norm_num))
  rw [abs_of_pos hx] at h5
  unfold Rel at *
  calc |_root_.fl x - y| ≤ |_root_.fl x - x| + |x - y| := abs_sub_le _ _ _
    _ ≤ 101 / 100 / 2 ^ 53 * (5 / 4 * y) + α * y := add_le_add (h5.trans (mul_le_mul_of_nonneg_left h4 (by norm_num))) h
    _ ≤ (α + 13 / 10 / 2 ^ 53) * y := by
      have := mul_pos (show (0 : ℝ) < 1 / 2 ^ 53 by norm_num) hy0
      norm_num at this ⊢
      linarith
    _ ≤ γ * y := mul_le_mul_of_nonneg_right hg hy0.le

/-- Heron's formula from factors with the relative error `ε`. -/
theorem heron {ε s x y z s' x' y' z' : ℝ} (he : ε ≤ 1 / 64) (he' : 1 / 2 ^ 42 ≤ ε) (hs : 1 ≤ s) (hs2 : s ≤ 2 ^ 12)
    (hx : 0 < x) (hy : 0 < y) (hz : 0 < z) (hxs : x ≤ s) (hys : y ≤ s) (hzs : z ≤ s) (hA : 1 / 4 ≤ s * x * y * z)
    (rs : Rel (5 / 2 ^ 53) s' s) (rx : Rel ε x' x) (ry : Rel ε y' y) (rz : Rel ε z' z) :
    0 ≤ fl (fl (fl (s' * x') * y') * z') ∧
    Rel (9 / 5 * ε) (fl (fl (√(fl (fl (fl (s' * x') * y') * z'))) / s')) (√(s * x * y * z) / s) := by
  have hs0 : 0 < s := by linarith
  have e0 : 0 < ε := lt_of_lt_of_le (by norm_num) he'
  have u1 : (5 : ℝ) / 2 ^ 53 ≤ ε / 400 := by linarith [show (5 : ℝ) / 2 ^ 53 ≤ 1 / 2 ^ 42 / 400 by norm_num]
  have u2 : (13 : ℝ) / 10 / 2 ^ 53 ≤ ε / 1000 := by linarith [show (13 : ℝ) / 10 / 2 ^ 53 ≤ 1 / 2 ^ 42 / 1000 by norm_num]
  have rs' : Rel (ε / 400) s' s := rs.mono hs0.le u1
  have p1 : 0 < s * x := mul_pos hs0 hx
  have p2 : 0 < s * x * y := mul_pos p1 hy
  have p3 : 0 < s * x * y * z := mul_pos p2 hz
  have l2 : 1 / 2 ^ 50 ≤ s * x * y := by
    have : s * x * y * z ≤ s * x * y * 2 ^ 12 := mul_le_mul_of_nonneg_left (hzs.trans hs2) p2.le
    norm_num at this ⊢
    linarith
  have l1 : 1 / 2 ^ 50 ≤ s * x := by
    have h1 : s * x * y ≤ s * x * 2 ^ 12 := mul_le_mul_of_nonneg_left (hys.trans hs2) p1.le
    have h2 : s * x * y * z ≤ s * x * y * 2 ^ 12 := mul_le_mul_of_nonneg_left (hzs.trans hs2) p2.le
    norm_num at h1 h2 ⊢
    linarith
  have l3 : (1 : ℝ) / 2 ^ 50 ≤ s * x * y * z := le_trans (by norm_num) hA
  have q1 : Rel (1004 / 1000 * ε) (fl (s' * x')) (s * x) :=
    (rs'.mul rx hs0.le hx.le (by positivity) (γ := 10031 / 10000 * ε) (by nlinarith)).fl l1 (by positivity) (by linarith) (by linarith)
  have q2 : Rel (2022 / 1000 * ε) (fl (fl (s' * x') * y')) (s * x * y) :=
    (q1.mul ry p1.le hy.le (by positivity) (γ := 2021 / 1000 * ε) (by nlinarith)).fl l2 (by positivity) (by linarith) (by linarith)
  have q3 : Rel (306 / 100 * ε) (fl (fl (fl (s' * x') * y') * z')) (s * x * y * z) :=
    (q2.mul rz p2.le hz.le (by positivity) (γ := 3055 / 1000 * ε) (by nlinarith)).fl l3 (by positivity) (by linarith) (by linarith)
  have hr0 : 0 < √(s * x * y * z) := Real.sqrt_pos.2 p3
  have hr1 : 1 / 2 ≤ √(s * x * y * z) := Real.le_sqrt_of_sq_le (by norm_num at hA ⊢; linarith)
  have q4 : Rel (169 / 100 * ε) (fl (√(fl (fl (fl (s' * x') * y') * z')))) (√(s * x * y * z)) :=
    (q3.sqrt p3.le (by positivity) (by linarith)).fl (le_trans (by norm_num) hr1) (by positivity) (by linarith) (by linarith)
  refine ⟨?_, (q4.div rs' hr0.le hs0 (by positivity) (by linarith) (by positivity) (by linarith) (γ := 17 / 10 * ε) (by linarith)).fl
    ?_ (by positivity) (by linarith) (by linarith)⟩
  · refine le_trans ?_ q3.bounds.1
    exact mul_nonneg (by linarith) p3.le
  · rw [le_div_iff₀ hs0]
    refine le_trans ?_ hr1
    norm_num at hs2 ⊢
    linarith

/-- The rounded sides, perimeter and half perimeter. -/
theorem perimeter {a b c a' b' c' : ℝ} (ha : 0 ≤ a) (hb : 0 ≤ b) (hc : 0 ≤ c) (hp : 1 ≤ a + b + c) (da : IsDouble a') (db : IsDouble b')
    (dc : IsDouble c') (ra : Rel (101 / 100 / 2 ^ 53) a' a) (rb : Rel (101 / 100 / 2 ^ 53) b' b) (rc : Rel (101 / 100 / 2 ^ 53) c' c) :
    Rel (302 / 100 / 2 ^ 53) (fl (fl (a' + b') + c')) (a + b + c) ∧
    Rel (404 / 100 / 2 ^ 53) (fl (fl (fl (a' + b') + c') / 2)) ((a + b + c) / 2) := by
  have e1 := fl_add_err da db
  have e2 := fl_add_err (fl_isDouble (a' + b')) dc
  have p1 : Rel (302 / 100 / 2 ^ 53) (fl (fl (a' + b') + c')) (a + b + c) := by
    unfold Rel at *
    generalize fl (fl (a' + b') + c') = P at *
    generalize fl (a' + b') = q at *
    have h1 : |a' + b'| ≤ (1 + 101 / 100 / 2 ^ 53) * (a + b) := by
      rw [abs_le] at *; constructor <;> linarith
    have h2 : |q - (a + b)| ≤ 2011 / 1000 / 2 ^ 53 * (a + b) := by
      have : |q - (a + b)| ≤ |q - (a' + b')| + |a' - a| + |b' - b| := by
        rw [show q - (a + b) = (q - (a' + b')) + (a' - a) + (b' - b) by ring]
        exact (abs_add_le _ _).trans (add_le_add (abs_add_le _ _) le_rfl)
      generalize |q - (a + b)| = v at *
      generalize |q - (a' + b')| = v1 at *
      generalize |a' + b'| = v2 at *
      generalize |a' - a| = v3 at *
      generalize |b' - b| = v4 at *
      norm_num at *
      linarith
    have h3 : |q + c'| ≤ (1 + 1 / 2 ^ 50) * (a + b + c) := by
      rw [abs_le] at *
      norm_num at *
      constructor <;> linarith
    have : |P - (a + b + c)| ≤ |P - (q + c')| + |q - (a + b)| + |c' - c| := by
      rw [show P - (a + b + c) = (P - (q + c')) + (q - (a + b)) + (c' - c) by ring]
      exact (abs_add_le _ _).trans (add_le_add (abs_add_le _ _) le_rfl)
    generalize |P - (a + b + c)| = v at *
    generalize |P - (q + c')| = v1 at *
    generalize |q + c'| = v2 at *
    generalize |q - (a + b)| = v3 at *
    generalize |c' - c| = v4 at *
    norm_num at *
    linarith
  refine ⟨p1, ?_⟩
  have p2 : Rel (302 / 100 / 2 ^ 53) (fl (fl (a' + b') + c') / 2) ((a + b + c) / 2) := by
    unfold Rel at *
    rw [← sub_div, abs_div, abs_of_pos (show (0 : ℝ) < 2 by norm_num)]
    linarith
  obtain ⟨b1, b2⟩ := p2.bounds
  have hpos : 0 < fl (fl (a' + b') + c') / 2 := lt_of_lt_of_le (mul_pos (by norm_num) (by linarith)) b1
  have h5 := FM.fl_rel (x := fl (fl (a' + b') + c') / 2) (Or.inr (by
    rw [abs_of_pos hpos]
    refine le_trans ?_ b1
    norm_num
    linarith))
  rw [abs_of_pos hpos] at h5
  unfold Rel at *
  generalize fl (fl (a' + b') + c') / 2 = q at *
  have := abs_sub_le (fl q) q ((a + b + c) / 2)
  generalize |fl q - (a + b + c) / 2| = v at *
  generalize |fl q - q| = v1 at *
  generalize |q - (a + b + c) / 2| = v2 at *
  norm_num at *
  linarith

/-- A rounded factor `s - a` of Heron's formula. -/
theorem factor {ε s a x s' a' : ℝ} (ha : 0 ≤ a) (hx : 0 ≤ x) (hs : s = a + x) (ds : IsDouble s') (da : IsDouble a')
    (rs : Rel (404 / 100 / 2 ^ 53) s' s) (ra : Rel (101 / 100 / 2 ^ 53) a' a) (he : 506 / 100 / 2 ^ 53 * s ≤ ε * x) : Rel ε (fl (s' - a')) x := by
  have e := fl_sub_err ds da
  unfold Rel at *
  refine le_trans ?_ he
  have h1 : |s' - a' - x| ≤ |s' - s| + |a' - a| := by
    rw [show s' - a' - x = (s' - s) - (a' - a) by rw [hs]; ring]
    exact abs_sub _ _
  have h2 : |s' - a'| ≤ |s' - a' - x| + x := by
    have := abs_add_le (s' - a' - x) x
    rw [sub_add_cancel, abs_of_nonneg hx] at this
    exact this
  have h3 := abs_sub_le (fl (s' - a')) (s' - a') x
  generalize |fl (s' - a') - x| = v at *
  generalize |fl (s' - a') - (s' - a')| = v1 at *
  generalize |s' - a' - x| = v2 at *
  generalize |s' - a'| = v3 at *
  generalize |s' - s| = v4 at *
  generalize |a' - a| = v5 at *
  subst hs
  norm_num at *
  linarith

/-- A rounded product `a * x` with an integer `x`. -/
theorem weight {a a' x : ℝ} {B : ℕ} (ha : a = 0 ∨ 1 ≤ a) (ra : Rel (101 / 100 / 2 ^ 53) a' a) (hx : IntB B x) :
    |fl (a' * x) - a * x| ≤ 203 / 100 / 2 ^ 53 * (a * |x|) := by
  rcases ha with rfl | ha
  · unfold Rel at ra
    have : a' = 0 := by rw [mul_zero, sub_zero] at ra; exact abs_eq_zero.1 (le_antisymm ra (abs_nonneg _))
    rw [this]; simp [fl_zero]
  by_cases h0 : x = 0
  · rw [h0]; simp [fl_zero]
  have h1 := FI.one_le_abs hx h0
  obtain ⟨b1, b2⟩ := ra.bounds
  have hp : 0 < a' := lt_of_lt_of_le (mul_pos (by norm_num) (by linarith)) b1
  have h2 : |a' * x| = a' * |x| := by rw [abs_mul, abs_of_pos hp]
  have h3 : 1 / 2 ≤ a' := by norm_num at b1; linarith
  have h4 := FM.fl_rel (x := a' * x) (Or.inr (by
    rw [h2]
    calc (1 : ℝ) / 2 ^ 60 ≤ 1 / 2 * 1 := by norm_num
      _ ≤ a' * |x| := mul_le_mul h3 h1 (by norm_num) hp.le))
  have h5 : |a' * x - a * x| ≤ 101 / 100 / 2 ^ 53 * a * |x| := by
    rw [← sub_mul, abs_mul]; exact mul_le_mul_of_nonneg_right ra (abs_nonneg _)
  have h6 : a' * |x| ≤ (1 + 101 / 100 / 2 ^ 53) * (a * |x|) := by
    rw [← mul_assoc]; exact mul_le_mul_of_nonneg_right b2 (abs_nonneg _)
  have h8 : 0 ≤ a * |x| := by positivity
  have h7 := abs_sub_le (fl (a' * x)) (a' * x) (a * x)
  rw [h2] at h4
  rw [mul_assoc] at h5
  generalize |fl (a' * x) - a * x| = v at *
  generalize |fl (a' * x) - a' * x| = v1 at *
  generalize |a' * x - a * x| = v2 at *
  generalize a' * |x| = v3 at *
  generalize a * |x| = v4 at *
  norm_num at *
  linarith

/-- A coordinate of the center. -/
theorem weighted {a b c a' b' c' P x y z : ℝ} {B : ℕ} (hB : 1 ≤ B) (ha : a = 0 ∨ 1 ≤ a) (hb : b = 0 ∨ 1 ≤ b) (hc : c = 0 ∨ 1 ≤ c)
    (hp : 1 ≤ a + b + c) (ra : Rel (101 / 100 / 2 ^ 53) a' a) (rb : Rel (101 / 100 / 2 ^ 53) b' b) (rc : Rel (101 / 100 / 2 ^ 53) c' c)
    (rp : Rel (302 / 100 / 2 ^ 53) P (a + b + c)) (hx : IntB B x) (hy : IntB B y) (hz : IntB B z) :
    |weightedF a' b' c' P x y z - (a * x + b * y + c * z) / (a + b + c)| ≤ 9 / 2 ^ 53 * B := by
  have na : 0 ≤ a := by rcases ha with h | h <;> linarith
  have nb : 0 ≤ b := by rcases hb with h | h <;> linarith
  have nc : 0 ≤ c := by rcases hc with h | h <;> linarith
  have hB' : (1 : ℝ) ≤ B := by exact_mod_cast hB
  have wa := weight ha ra hx
  have wb := weight hb rb hy
  have wc := weight hc rc hz
  have e1 := fl_add_err (fl_isDouble (a' * x)) (fl_isDouble (b' * y))
  have e2 := fl_add_err (fl_isDouble (fl (a' * x) + fl (b' * y))) (fl_isDouble (c' * z))
  unfold weightedF
  have e3 := fl_err' (fl (fl (fl (a' * x) + fl (b' * y)) + fl (c' * z)) / P)
  have ht := FI.tiny_small
  have sx : a * |x| ≤ a * B := mul_le_mul_of_nonneg_left (FI.abs_le hx) na
  have sy : b * |y| ≤ b * B := mul_le_mul_of_nonneg_left (FI.abs_le hy) nb
  have sz : c * |z| ≤ c * B := mul_le_mul_of_nonneg_left (FI.abs_le hz) nc
  have mx : |a * x| ≤ a * B := by rw [abs_mul, abs_of_nonneg na]; exact sx
  have my : |b * y| ≤ b * B := by rw [abs_mul, abs_of_nonneg nb]; exact sy
  have mz : |c * z| ≤ c * B := by rw [abs_mul, abs_of_nonneg nc]; exact sz
  generalize fl (fl (fl (a' * x) + fl (b' * y)) + fl (c' * z)) = N at *
  generalize fl (fl (a' * x) + fl (b' * y)) = N2 at *
  generalize fl (a' * x) = t1 at *
  generalize fl (b' * y) = t2 at *
  generalize fl (c' * z) = t3 at *
  -- the numerator
  have n2 : |N2 - (a * x + b * y)| ≤ 304 / 100 / 2 ^ 53 * (a * B + b * B) := by
    have h1 : |t1 + t2| ≤ |t1 - a * x| + |t2 - b * y| + |a * x| + |b * y| := by
      rw [show t1 + t2 = (t1 - a * x) + (t2 - b * y) + a * x + b * y by ring]
      exact (abs_add_le _ _).trans (add_le_add ((abs_add_le _ _).trans (add_le_add (abs_add_le _ _) le_rfl)) le_rfl)
    have h2 : |N2 - (a * x + b * y)| ≤ |N2 - (t1 + t2)| + |t1 - a * x| + |t2 - b * y| := by
      rw [show N2 - (a * x + b * y) = (N2 - (t1 + t2)) + (t1 - a * x) + (t2 - b * y) by ring]
      exact (abs_add_le _ _).trans (add_le_add (abs_add_le _ _) le_rfl)
    have i1 : 0 ≤ a * B := mul_nonneg na (by linarith)
    have i2 : 0 ≤ b * B := mul_nonneg nb (by linarith)
    clear e2 e3 rp wc sz mz ra rb rc
    generalize |N2 - (a * x + b * y)| = v at *
    generalize |N2 - (t1 + t2)| = v1 at *
    generalize |t1 - a * x| = v2 at *
    generalize |t2 - b * y| = v3 at *
    generalize |t1 + t2| = v4 at *
    generalize |a * x| = v5 at *
    generalize |b * y| = v6 at *
    generalize a * |x| = v7 at *
    generalize b * |y| = v8 at *
    generalize a * (B : ℝ) = v9 at *
    generalize b * (B : ℝ) = v10 at *
    norm_num at *
    linarith
  have n3 : |N - (a * x + b * y + c * z)| ≤ 405 / 100 / 2 ^ 53 * ((a + b + c) * B) := by
    have h1 : |N2 + t3| ≤ |N2 - (a * x + b * y)| + |t3 - c * z| + |a * x| + |b * y| + |c * z| := by
      rw [show N2 + t3 = (N2 - (a * x + b * y)) + (t3 - c * z) + a * x + b * y + c * z by ring]
      exact (abs_add_le _ _).trans (add_le_add ((abs_add_le _ _).trans (add_le_add ((abs_add_le _ _).trans (add_le_add (abs_add_le _ _) le_rfl)) le_rfl)) le_rfl)
    have h2 : |N - (a * x + b * y + c * z)| ≤ |N - (N2 + t3)| + |N2 - (a * x + b * y)| + |t3 - c * z| := by
      rw [show N - (a * x + b * y + c * z) = (N - (N2 + t3)) + (N2 - (a * x + b * y)) + (t3 - c * z) by ring]
      exact (abs_add_le _ _).trans (add_le_add (abs_add_le _ _) le_rfl)
    have i1 : 0 ≤ a * B := mul_nonneg na (by linarith)
    have i2 : 0 ≤ b * B := mul_nonneg nb (by linarith)
    have i3 : 0 ≤ c * B := mul_nonneg nc (by linarith)
    clear e1 e3 rp wa wb sx sy ra rb rc
    rw [show (a + b + c) * (B : ℝ) = a * B + b * B + c * B by ring]
    generalize |N - (a * x + b * y + c * z)| = v at *
    generalize |N - (N2 + t3)| = v1 at *
    generalize |N2 - (a * x + b * y)| = v2 at *
    generalize |t3 - c * z| = v3 at *
    generalize |N2 + t3| = v4 at *
    generalize |a * x| = v5 at *
    generalize |b * y| = v6 at *
    generalize |c * z| = v11 at *
    generalize c * |z| = v8 at *
    generalize a * (B : ℝ) = v9 at *
    generalize b * (B : ℝ) = v10 at *
    generalize c * (B : ℝ) = v12 at *
    norm_num at *
    linarith
  have n4 : |a * x + b * y + c * z| ≤ (a + b + c) * B := by
    have := (abs_add_le (a * x + b * y) (c * z)).trans (add_le_add (abs_add_le (a * x) (b * y)) le_rfl)
    nlinarith
  clear e1 e2 n2 wa wb wc sx sy sz mx my mz
  obtain ⟨b1, b2⟩ := rp.bounds
  obtain ⟨p, hpe⟩ : ∃ p, p = a + b + c := ⟨_, rfl⟩
  obtain ⟨S, hSe⟩ : ∃ S, S = a * x + b * y + c * z := ⟨_, rfl⟩
  rw [← hpe, ← hSe] at n3
  rw [← hpe] at b1 b2 hp
  rw [← hpe, ← hSe] at n4 ⊢
  unfold Rel at rp
  rw [← hpe] at rp
  have hp0 : 0 < p := by linarith
  have hP : 0 < P := lt_of_lt_of_le (mul_pos (by norm_num) hp0) b1
  have n5 : |N / P - S / p| ≤ 708 / 100 / 2 ^ 53 * B := by
    have e : N / P - S / p = ((N - S) * p - S * (P - p)) / (P * p) := by field_simp; ring
    rw [e, abs_div, abs_of_pos (mul_pos hP hp0), div_le_iff₀ (mul_pos hP hp0)]
    have i0 : 0 ≤ p * (B : ℝ) := mul_nonneg hp0.le (by linarith)
    have h1 : |(N - S) * p - S * (P - p)| ≤ 405 / 100 / 2 ^ 53 * (p * B) * p + p * B * (302 / 100 / 2 ^ 53 * p) := by
      refine (abs_sub _ _).trans ?_
      rw [abs_mul, abs_mul, abs_of_pos hp0]
      exact add_le_add (mul_le_mul_of_nonneg_right n3 hp0.le) (mul_le_mul n4 rp (abs_nonneg _) i0)
    refine h1.trans ?_
    calc 405 / 100 / 2 ^ 53 * (p * B) * p + p * B * (302 / 100 / 2 ^ 53 * p) = 707 / 100 / 2 ^ 53 * B * (p * p) := by ring
      _ ≤ 708 / 100 / 2 ^ 53 * B * ((1 - 302 / 100 / 2 ^ 53) * p * p) := by
        have : 0 ≤ (B : ℝ) * (p * p) := by positivity
        norm_num
        linarith
      _ ≤ 708 / 100 / 2 ^ 53 * B * (P * p) := by gcongr
  have n6 : |N / P| ≤ (1 + 1 / 2 ^ 50) * B := by
    have h1 : |S / p| ≤ B := by rw [abs_div, abs_of_pos hp0, div_le_iff₀ hp0]; linarith
    have h2 : |N / P| ≤ |N / P - S / p| + |S / p| := by
      have := abs_add_le (N / P - S / p) (S / p); rwa [sub_add_cancel] at this
    norm_num at n5 ⊢
    linarith
  have h7 := abs_sub_le (fl (N / P)) (N / P) (S / p)
  generalize |fl (N / P) - S / p| = v at *
  generalize |fl (N / P) - N / P| = v1 at *
  generalize |N / P - S / p| = v2 at *
  generalize |N / P| = v3 at *
  generalize (B : ℝ) = v4 at *
  clear rp b1 b2 n3 n4 ra rb rc
  norm_num at *
  linarith

/-- The distance of two points with integer coordinates. -/
theorem distance {B : ℕ} (hB : B ≤ 512) (k : Fma) {P Q : Pt} (hP : IntPt B P) (hQ : IntPt B Q) :
    Rel (101 / 100 / 2 ^ 53) (distanceF k P Q) (Spec.dist P Q) ∧ (Spec.dist P Q = 0 ∨ 1 ≤ Spec.dist P Q) ∧
    Spec.dist P Q ^ 2 ≤ 8 * (B : ℝ) ^ 2 := by
  obtain ⟨e, hi⟩ := FI.subPt hQ hP (by omega)
  have hv := FI.vdot k hi hi (by nlinarith)
  have ex : vdotF k (subF Q P) (subF Q P) = sqDist P Q := by
    rw [e, hv]; unfold sqDist; simp only [Pt.sub_x, Pt.sub_y]; ring
  have hint : IntB ((B + B) * (B + B) + (B + B) * (B + B)) (sqDist P Q) := by
    have := FI.add (FI.mul hi.1 hi.1) (FI.mul hi.2 hi.2)
    rw [← ex, e, hv]; exact this
  have h0 : 0 ≤ sqDist P Q := by unfold sqDist; positivity
  have hd : Spec.dist P Q = 0 ∨ 1 ≤ Spec.dist P Q := by
    unfold Spec.dist
    rcases h0.eq_or_lt with h | h
    · left; rw [← h]; simp
    · right; exact Real.le_sqrt_of_sq_le (by rw [one_pow]; exact FI.one_le hint h)
  have hn : 0 ≤ Spec.dist P Q := Real.sqrt_nonneg _
  refine ⟨?_, hd, ?_⟩
  · unfold distanceF Rel
    rw [ex]
    have := FM.fl_rel (x := √(sqDist P Q)) (by
      rcases hd with h | h
      · left; exact h
      · right
        rw [abs_of_nonneg (Real.sqrt_nonneg _)]
        exact le_trans (by norm_num) h)
    rwa [abs_of_nonneg (Real.sqrt_nonneg _)] at this
  · unfold Spec.dist
    rw [Real.sq_sqrt h0]
    have := FI.abs_le hint
    rw [abs_of_nonneg h0] at this
    push_cast at this
    nlinarith

end FH

set_option maxHeartbeats 1000000 in
/-- **C127** `Triangle.incircle` in double precision.  For a triangle with integer vertices (of absolute value at most `512`) which is not
flat, the result is a circle, whose center is within `9 B / 2^53` (in each coordinate) of the center of the inscribed circle, the circle
inside the triangle which is tangent to the three sides; its radius has a relative error of at most `B^4 / 2^41`. -/
theorem C127_incircle (k : Fma) (T : Triangle) {B : ℕ} (hB : B ≤ 512) (hA : IntPt B T.A) (hB' : IntPt B T.B) (hC : IntPt B T.C)
    (h : ¬ Collinear T.A T.B T.C) :
    ∃ (O : Pt) (r : ℝ), 0 < r ∧ InTriangle T.A T.B T.C O ∧ TangentLine O r T.B T.C ∧ TangentLine O r T.C T.A ∧ TangentLine O r T.A T.B ∧
      ∃ c, T.incircleF k = .ok c ∧ |c.center.x - O.x| ≤ 9 / 2 ^ 53 * B ∧ |c.center.y - O.y| ≤ 9 / 2 ^ 53 * B ∧
        |c.radius - r| ≤ B ^ 4 / 2 ^ 41 * r := by
  obtain ⟨c, hc, hr, hin, t1, t2, t3⟩ := C38_incircle T h
  refine ⟨c.center, c.radius, hr, hin, t1, t2, t3, ?_⟩
  obtain ⟨x, y, z, hx, hy, hz, ea, eb, ec, hS⟩ := ravi h
  -- the exact circle
  have hcr : c.center.x = ((y + z) * T.A.x + (z + x) * T.B.x + (x + y) * T.C.x) / (y + z + (z + x) + (x + y)) ∧
      c.center.y = ((y + z) * T.A.y + (z + x) * T.B.y + (x + y) * T.C.y) / (y + z + (z + x) + (x + y)) ∧
      c.radius = √((x + y + z) * x * y * z) / (x + y + z) := by
    have hS0 : 0 < |cross (T.B - T.A) (T.C - T.A)| := abs_pos.2 h
    have hsq : √((x + y + z) * x * y * z) = |cross (T.B - T.A) (T.C - T.A)| / 2 := by
      rw [show (x + y + z) * x * y * z = (|cross (T.B - T.A) (T.C - T.A)| / 2) ^ 2 by rw [div_pow, sq_abs, hS]; ring]
      exact Real.sqrt_sq (by positivity)
    unfold Triangle.incircle at hc
    dsimp only at hc
    rw [distance_eq, distance_eq, distance_eq, dist_comm T.B T.A, ea, eb, ec, heron_sqrt hx hy hz hS, Res.ok_bind,
      if_neg (by positivity), mkCircle_pos (by positivity)] at hc
    rw [← Except.ok.inj hc]
    refine ⟨?_, ?_, ?_⟩
    · simp only [Pt.add_x, Pt.smul_x, Pt.div_x]
    · simp only [Pt.add_y, Pt.smul_y, Pt.div_y]
    · dsimp only
      rw [hsq]
      congr 1; ring
  obtain ⟨ra, da, sa⟩ := FH.distance hB k hB' hC
  obtain ⟨rb, db, sb⟩ := FH.distance hB k hA hC
  obtain ⟨rc, dc, sc⟩ := FH.distance hB k hB' hA
  rw [dist_comm T.B T.A, ec] at rc dc sc
  rw [ea] at ra da sa
  rw [eb] at rb db sb
  -- the area is at least one half
  have h4 : 1 / 4 ≤ (x + y + z) * x * y * z := by
    have i1 : IntB ((B + B) * (B + B) + (B + B) * (B + B)) (cross (T.B - T.A) (T.C - T.A)) := by
      have e1 := FI.mul (FI.sub hB'.1 hA.1) (FI.sub hC.2 hA.2)
      have e2 := FI.mul (FI.sub hB'.2 hA.2) (FI.sub hC.1 hA.1)
      exact FI.sub e1 e2
    have i2 := FI.one_le_abs i1 h
    have i3 : 1 ≤ cross (T.B - T.A) (T.C - T.A) ^ 2 := by rw [← sq_abs]; nlinarith
    nlinarith
  clear hc hin t1 t2 t3 hr hS h ea eb ec
  have hB1 : 1 ≤ B := by
    by_contra hc
    have : B = 0 := by omega
    rw [this] at sa
    norm_num at sa
    nlinarith
  have hBr : (1 : ℝ) ≤ B := by exact_mod_cast hB1
  have hBs : (B : ℝ) ≤ 512 := by exact_mod_cast hB
  have a1 : 1 ≤ y + z := by rcases da with h | h <;> linarith
  have b1 : 1 ≤ z + x := by rcases db with h | h <;> linarith
  have c1 : 1 ≤ x + y := by rcases dc with h | h <;> linarith
  obtain ⟨s, hs⟩ : ∃ s, s = x + y + z := ⟨_, rfl⟩
  have hs1 : 1 ≤ s := by linarith
  have hs2 : s ^ 2 ≤ 18 * (B : ℝ) ^ 2 := by
    rw [hs]
    nlinarith [sq_nonneg (x - y), sq_nonneg (y - z), sq_nonneg (z - x)]
  have hs4 : s ^ 4 ≤ 324 * (B : ℝ) ^ 4 := by
    calc s ^ 4 = s ^ 2 * s ^ 2 := by ring
      _ ≤ (18 * (B : ℝ) ^ 2) * (18 * (B : ℝ) ^ 2) := mul_le_mul hs2 hs2 (by positivity) (by positivity)
      _ = _ := by ring
  have hs12 : s ≤ 2 ^ 12 := by
    by_contra hc
    push Not at hc
    nlinarith
  have ia : IsDouble (distanceF k T.B T.C) := fl_isDouble _
  have ib : IsDouble (distanceF k T.A T.C) := fl_isDouble _
  have ic : IsDouble (distanceF k T.B T.A) := fl_isDouble _
  obtain ⟨rp, rs⟩ := FH.perimeter (by linarith) (by linarith) (by linarith) (by linarith) ia ib ic ra rb rc
  have es : (y + z + (z + x) + (x + y)) / 2 = s := by rw [hs]; ring
  rw [es] at rs
  have hε1 : (1 : ℝ) / 2 ^ 42 ≤ B ^ 4 / 2 ^ 42 := by
    have : (1 : ℝ) ≤ B ^ 4 := one_le_pow₀ hBr
    gcongr
  have hε2 : (B : ℝ) ^ 4 / 2 ^ 42 ≤ 1 / 64 := by
    have : (B : ℝ) ^ 4 ≤ 512 ^ 4 := by gcongr
    norm_num at this ⊢
    linarith
  have small : ∀ u v w : ℝ, 0 < u → 0 < v → 0 < w → s = u + v + w → 1 / 4 ≤ s * u * v * w →
      506 / 100 / 2 ^ 53 * s ≤ (B : ℝ) ^ 4 / 2 ^ 42 * u := by
    intro u v w hu hv hw e h
    have h1 : v * w ≤ s ^ 2 / 4 := by rw [e]; nlinarith [sq_nonneg (v - w)]
    have h2 : 1 ≤ u * s ^ 3 := by
      have : s * u * (v * w) ≤ s * u * (s ^ 2 / 4) := mul_le_mul_of_nonneg_left h1 (by positivity)
      nlinarith
    have h3 : 506 / 100 / 2 ^ 53 * s ^ 4 ≤ (B : ℝ) ^ 4 / 2 ^ 42 := by
      norm_num at hs4 ⊢
      nlinarith [show (0 : ℝ) ≤ B ^ 4 by positivity]
    have h5 : 506 / 100 / 2 ^ 53 * s ^ 4 * 1 ≤ (B : ℝ) ^ 4 / 2 ^ 42 * (u * s ^ 3) := mul_le_mul h3 h2 zero_le_one (by positivity)
    have h6 : 0 < s ^ 3 := by positivity
    refine le_of_mul_le_mul_right ?_ h6
    calc 506 / 100 / 2 ^ 53 * s * s ^ 3 = 506 / 100 / 2 ^ 53 * s ^ 4 * 1 := by ring
      _ ≤ (B : ℝ) ^ 4 / 2 ^ 42 * (u * s ^ 3) := h5
      _ = _ := by ring
  rw [← hs] at h4
  have fx := FH.factor (s := s) (by linarith) hx.le (by linarith) (fl_isDouble _) ia rs ra (small x y z hx hy hz hs h4)
  have fy := FH.factor (s := s) (by linarith) hy.le (by linarith) (fl_isDouble _) ib rs rb
    (small y z x hy hz hx (by linarith) (by linarith))
  have fz := FH.factor (s := s) (by linarith) hz.le (by linarith) (fl_isDouble _) ic rs rc
    (small z x y hz hx hy (by linarith) (by linarith))
  obtain ⟨hn, hh⟩ := FH.heron hε2 hε1 hs1 hs12 hx hy hz (by linarith) (by linarith) (by linarith) h4
    (rs.mono (by linarith) (by norm_num)) fx fy fz
  have hp0 : fl (fl (distanceF k T.B T.C + distanceF k T.A T.C) + distanceF k T.B T.A) ≠ 0 := by
    have := rp.bounds.1
    intro e
    rw [e] at this
    norm_num at this
    linarith
  have hrad : 0 < √(s * x * y * z) / s := div_pos (Real.sqrt_pos.2 (by linarith)) (by linarith)
  unfold Triangle.incircleF
  dsimp only
  have hps : ∀ v, 0 ≤ v → pySqrt v = .ok (√v) := fun v hv => if_neg (not_lt.2 hv)
  unfold heronF
  rw [hps _ hn, Res.ok_bind, if_neg hp0]
  unfold mkCircleF
  rw [if_neg (not_le.2 (lt_of_lt_of_le (mul_pos (by linarith) hrad) hh.bounds.1))]
  refine ⟨_, rfl, ?_, ?_, ?_⟩
  · rw [hcr.1]
    exact FH.weighted hB1 da db dc (by linarith) ra rb rc rp hA.1 hB'.1 hC.1
  · rw [hcr.2.1]
    exact FH.weighted hB1 da db dc (by linarith) ra rb rc rp hA.2 hB'.2 hC.2
  · rw [hcr.2.2, ← hs]
    refine le_trans hh (mul_le_mul_of_nonneg_right ?_ hrad.le)
    have : (0 : ℝ) ≤ B ^ 4 := by positivity
    norm_num
    linarith

namespace FH

/-- Rounding of a tie. -/
theorem fl_tie {x : ℝ} {e n : ℤ} (he : -1074 ≤ e) (h1 : 2 ^ (e + 52) ≤ |x|) (h2 : |x| < 2 ^ (e + 53))
    (hn : Even n) (h3 : x / 2 ^ e = n + 1 / 2 ∨ x / 2 ^ e = n - 1 / 2) : fl x = n * 2 ^ e := by
  unfold fl
  rw [ulpExp_eq he h1 h2]
  congr 2
  unfold roundEven
  rcases h3 with h | h <;> rw [h]
  · have hf : ⌊(n : ℝ) + 1 / 2⌋ = n := by rw [Int.floor_eq_iff]; constructor <;> linarith
    rw [hf, if_neg (by linarith), if_neg (by linarith), if_pos hn]
  · have hf : ⌊(n : ℝ) - 1 / 2⌋ = n - 1 := by rw [Int.floor_eq_iff]; push_cast; constructor <;> linarith
    rw [hf, if_neg (by push_cast; linarith), if_neg (by push_cast; linarith), if_neg (by
      rw [Int.not_even_iff_odd]; exact hn.sub_odd odd_one)]
    ring

/-- Rounding of a square root. -/
theorem fl_sqrt {v : ℝ} {e n : ℤ} (he : -1074 ≤ e) (hn : 2 ^ 52 < n) (hn' : n < 2 ^ 53) (h1 : ((n - 1 / 2) * 2 ^ e) ^ 2 < v)
    (h2 : v < ((n + 1 / 2) * 2 ^ e) ^ 2) : fl (√v) = n * 2 ^ e := by
  have hn1 : (2 : ℝ) ^ 52 + 1 ≤ n := by exact_mod_cast hn
  have hn2 : (n : ℝ) + 1 ≤ 2 ^ 53 := by exact_mod_cast hn'
  have pe : (0 : ℝ) < 2 ^ e := by positivity
  have p1 : (0 : ℝ) < n - 1 / 2 := by linarith [show (0 : ℝ) < 2 ^ 52 by positivity]
  have p2 : (0 : ℝ) < n + 1 / 2 := by linarith
  have l1 : (n - 1 / 2) * 2 ^ e < √v := Real.lt_sqrt_of_sq_lt h1
  have l2 : √v < (n + 1 / 2) * 2 ^ e := by
    rw [Real.sqrt_lt' (by positivity)]; exact h2
  have h52 : (2 : ℝ) ^ (e + 52) = 2 ^ 52 * 2 ^ e := by rw [zpow_add₀ (by norm_num)]; norm_num; ring
  have h53 : (2 : ℝ) ^ (e + 53) = 2 ^ 53 * 2 ^ e := by rw [zpow_add₀ (by norm_num)]; norm_num; ring
  apply fl_eval he
  · rw [abs_of_nonneg (Real.sqrt_nonneg _), h52]
    exact le_trans (mul_le_mul_of_nonneg_right (by linarith) pe.le) l1.le
  · rw [abs_of_nonneg (Real.sqrt_nonneg _), h53]
    exact lt_of_lt_of_le l2 (mul_le_mul_of_nonneg_right (by linarith) pe.le)
  · rw [abs_lt]
    constructor
    · have := (lt_div_iff₀ pe).2 l1; linarith
    · have := (div_lt_iff₀ pe).2 l2; linarith

theorem distance_int {B : ℕ} (hB : B ≤ 512) (k : Fma) {P Q : Pt} (hP : IntPt B P) (hQ : IntPt B Q) :
    distanceF k P Q = fl (√(sqDist P Q)) := by
  obtain ⟨e, hi⟩ := FI.subPt hQ hP (by omega)
  have hv := FI.vdot k hi hi (by nlinarith)
  unfold distanceF
  rw [e, hv]
  congr 2
  unfold sqDist; simp only [Pt.sub_x, Pt.sub_y]; ring

theorem int_diag (n : ℤ) (h : |n| ≤ 512) : IntPt 512 ⟨n, n⟩ := ⟨⟨n, rfl, by exact_mod_cast h⟩, ⟨n, rfl, by exact_mod_cast h⟩⟩

theorem dbl (m e : ℤ) {x : ℝ} (hx : x = m * 2 ^ e) (he : -1074 ≤ e) (hm : |m| ≤ 2 ^ 53) : fl x = x := fl_double ⟨m, e, he, hm, hx⟩

theorem neg_mul' {u v w : ℝ} (h : u ≤ -v) (hv : 0 < v) (hw : 1 ≤ w) : u * w ≤ -v := by nlinarith

theorem ge_pow (e : ℤ) {x : ℝ} (he : -1074 ≤ e) (h : 2 ^ e ≤ x) : 2 ^ e ≤ fl x := by
  have := fl_mono h
  rwa [fl_double (isDouble_pow _ he)] at this

theorem le_neg_pow (e : ℤ) {x : ℝ} (he : -1074 ≤ e) (h : x ≤ -2 ^ e) : fl x ≤ -2 ^ e := by
  have := fl_mono h
  rwa [fl_neg, fl_double (isDouble_pow _ he)] at this

end FH

/-- **C127** A flat triangle has no inscribed circle, and with exact arithmetic the constructor of circles rejects the radius zero; in double
precision the area of the flat triangle with the vertices `(0,0)`, `(1,1)`, `(3,3)` is positive, and a circle is returned. -/
theorem C127_incircle_flat_counterexample (k : Fma) :
    Collinear (⟨0, 0⟩ : Pt) ⟨1, 1⟩ ⟨3, 3⟩ ∧
    (⟨⟨0, 0⟩, ⟨1, 1⟩, ⟨3, 3⟩⟩ : Triangle).incircle = .error (.valueError "`radius` is not positive.") ∧
    ∃ c, (⟨⟨0, 0⟩, ⟨1, 1⟩, ⟨3, 3⟩⟩ : Triangle).incircleF k = .ok c ∧ 0 < c.radius := by
  have hcol : Collinear (⟨0, 0⟩ : Pt) ⟨1, 1⟩ ⟨3, 3⟩ := by norm_num [Collinear, cross]
  refine ⟨hcol, C38_incircle_flat_partial _ hcol (Or.inl (by simp)), ?_⟩
  have i0 : IntPt 512 ⟨0, 0⟩ := by simpa using FH.int_diag 0 (by norm_num)
  have i1 : IntPt 512 ⟨1, 1⟩ := by simpa using FH.int_diag 1 (by norm_num)
  have i3 : IntPt 512 ⟨3, 3⟩ := by simpa using FH.int_diag 3 (by norm_num)
  have ea : distanceF k ⟨1, 1⟩ ⟨3, 3⟩ = 6369051672525773 / 2 ^ 51 := by
    rw [FH.distance_int le_rfl k i1 i3, FH.fl_sqrt (e := -51) (n := 6369051672525773) (by norm_num) (by norm_num) (by norm_num)
      (by norm_num [sqDist]) (by norm_num [sqDist])]
    norm_num
  have eb : distanceF k ⟨0, 0⟩ ⟨3, 3⟩ = 4776788754394329 / 2 ^ 50 := by
    rw [FH.distance_int le_rfl k i0 i3, FH.fl_sqrt (e := -50) (n := 4776788754394329) (by norm_num) (by norm_num) (by norm_num)
      (by norm_num [sqDist]) (by norm_num [sqDist])]
    norm_num
  have ec : distanceF k ⟨1, 1⟩ ⟨0, 0⟩ = 6369051672525773 / 2 ^ 52 := by
    rw [FH.distance_int le_rfl k i1 i0, FH.fl_sqrt (e := -52) (n := 6369051672525773) (by norm_num) (by norm_num) (by norm_num)
      (by norm_num [sqDist]) (by norm_num [sqDist])]
    norm_num
  have e1 : fl (6369051672525773 / 2 ^ 51 + 4776788754394329 / 2 ^ 50) = 7961314590657216 / 2 ^ 50 := by
    rw [FH.fl_tie (e := -50) (n := 7961314590657216) (by norm_num) (by norm_num [abs_of_pos]) (by norm_num [abs_of_pos]) (by decide)
      (Or.inr (by norm_num))]
    norm_num
  have e2 : fl (7961314590657216 / 2 ^ 50 + 6369051672525773 / 2 ^ 52) = 4776788754394330 / 2 ^ 49 := by
    rw [fl_eval (e := -49) (n := 4776788754394330) (by norm_num) (by norm_num [abs_of_pos]) (by norm_num [abs_of_pos]) (by norm_num [abs_lt])]
    norm_num
  have e3 : fl (4776788754394330 / 2 ^ 49 / 2) = 4776788754394330 / 2 ^ 50 := by
    rw [FH.dbl 4776788754394330 (-50) (by norm_num) (by norm_num) (by norm_num)]; norm_num
  have h1 : (1 : ℝ) ≤ fl (4776788754394330 / 2 ^ 50 - 6369051672525773 / 2 ^ 51) := by
    simpa using FH.ge_pow 0 (by norm_num) (by norm_num : (2 : ℝ) ^ (0 : ℤ) ≤ 4776788754394330 / 2 ^ 50 - 6369051672525773 / 2 ^ 51)
  have h2 := FH.ge_pow (-50) (by norm_num) (by norm_num : (2 : ℝ) ^ (-50 : ℤ) ≤ 4776788754394330 / 2 ^ 50 - 4776788754394329 / 2 ^ 50)
  have h3 : (1 : ℝ) ≤ fl (4776788754394330 / 2 ^ 50 - 6369051672525773 / 2 ^ 52) := by
    simpa using FH.ge_pow 0 (by norm_num) (by norm_num : (2 : ℝ) ^ (0 : ℤ) ≤ 4776788754394330 / 2 ^ 50 - 6369051672525773 / 2 ^ 52)
  unfold Triangle.incircleF
  dsimp only
  rw [ea, eb, ec, e1, e2, e3]
  have hh : (2 : ℝ) ^ (-50 : ℤ) ≤ heronF (4776788754394330 / 2 ^ 50) (6369051672525773 / 2 ^ 51) (4776788754394329 / 2 ^ 50) (6369051672525773 / 2 ^ 52) := by
    unfold heronF
    generalize fl (4776788754394330 / 2 ^ 50 - 6369051672525773 / 2 ^ 51) = f1 at *
    generalize fl (4776788754394330 / 2 ^ 50 - 4776788754394329 / 2 ^ 50) = f2 at *
    generalize fl (4776788754394330 / 2 ^ 50 - 6369051672525773 / 2 ^ 52) = f3 at *
    have g1 : (1 : ℝ) ≤ fl (4776788754394330 / 2 ^ 50 * f1) := by
      have := FH.ge_pow 0 (x := 4776788754394330 / 2 ^ 50 * f1) (by norm_num) (by norm_num; linarith)
      simpa using this
    have g2 : (2 : ℝ) ^ (-50 : ℤ) ≤ fl (fl (4776788754394330 / 2 ^ 50 * f1) * f2) :=
      FH.ge_pow (-50) (by norm_num) (h2.trans (le_mul_of_one_le_left (le_trans (by positivity) h2) g1))
    exact FH.ge_pow (-50) (by norm_num) (g2.trans (le_mul_of_one_le_right (le_trans (by positivity) g2) h3))
  generalize heronF (4776788754394330 / 2 ^ 50) (6369051672525773 / 2 ^ 51) (4776788754394329 / 2 ^ 50) (6369051672525773 / 2 ^ 52) = H at *
  have hH : pySqrt H = .ok (√H) := if_neg (not_lt.2 (le_trans (by positivity) hh))
  rw [hH, Res.ok_bind, if_neg (by norm_num)]
  have g1 : (2 : ℝ) ^ (-25 : ℤ) ≤ fl (√H) := by
    apply FH.ge_pow (-25) (by norm_num)
    apply Real.le_sqrt_of_sq_le
    refine le_trans (by norm_num) hh
  have g2 : (2 : ℝ) ^ (-28 : ℤ) ≤ fl (fl (√H) / (4776788754394330 / 2 ^ 50)) := by
    apply FH.ge_pow (-28) (by norm_num)
    rw [le_div_iff₀ (by norm_num)]
    refine le_trans (by norm_num) g1
  have g3 : 0 < fl (fl (√H) / (4776788754394330 / 2 ^ 50)) := lt_of_lt_of_le (by positivity) g2
  unfold mkCircleF
  rw [if_neg (not_le.2 g3)]
  exact ⟨_, rfl, g3⟩

/-- **C127** For the flat triangle with the vertices `(0,0)`, `(3,3)`, `(4,4)` the product in Heron's formula is rounded to a negative number:
the exception comes from `sqrt` and not from the constructor of circles. -/
theorem C127_incircle_domain_counterexample (k : Fma) :
    (⟨⟨0, 0⟩, ⟨3, 3⟩, ⟨4, 4⟩⟩ : Triangle).incircle = .error (.valueError "`radius` is not positive.") ∧
    (⟨⟨0, 0⟩, ⟨3, 3⟩, ⟨4, 4⟩⟩ : Triangle).incircleF k = .error (.valueError "math domain error") := by
  refine ⟨C38_incircle_flat_partial _ (by norm_num [Collinear, cross]) (Or.inl (by simp)), ?_⟩
  have i0 : IntPt 512 ⟨0, 0⟩ := by simpa using FH.int_diag 0 (by norm_num)
  have i3 : IntPt 512 ⟨3, 3⟩ := by simpa using FH.int_diag 3 (by norm_num)
  have i4 : IntPt 512 ⟨4, 4⟩ := by simpa using FH.int_diag 4 (by norm_num)
  have ea : distanceF k ⟨3, 3⟩ ⟨4, 4⟩ = 6369051672525773 / 2 ^ 52 := by
    rw [FH.distance_int le_rfl k i3 i4, FH.fl_sqrt (e := -52) (n := 6369051672525773) (by norm_num) (by norm_num) (by norm_num)
      (by norm_num [sqDist]) (by norm_num [sqDist])]
    norm_num
  have eb : distanceF k ⟨0, 0⟩ ⟨4, 4⟩ = 6369051672525773 / 2 ^ 50 := by
    rw [FH.distance_int le_rfl k i0 i4, FH.fl_sqrt (e := -50) (n := 6369051672525773) (by norm_num) (by norm_num) (by norm_num)
      (by norm_num [sqDist]) (by norm_num [sqDist])]
    norm_num
  have ec : distanceF k ⟨3, 3⟩ ⟨0, 0⟩ = 4776788754394329 / 2 ^ 50 := by
    rw [FH.distance_int le_rfl k i3 i0, FH.fl_sqrt (e := -50) (n := 4776788754394329) (by norm_num) (by norm_num) (by norm_num)
      (by norm_num [sqDist]) (by norm_num [sqDist])]
    norm_num
  have e1 : fl (6369051672525773 / 2 ^ 52 + 6369051672525773 / 2 ^ 50) = 7961314590657216 / 2 ^ 50 := by
    rw [fl_eval (e := -50) (n := 7961314590657216) (by norm_num) (by norm_num [abs_of_pos]) (by norm_num [abs_of_pos]) (by norm_num [abs_lt])]
    norm_num
  have e2 : fl (7961314590657216 / 2 ^ 50 + 4776788754394329 / 2 ^ 50) = 6369051672525772 / 2 ^ 49 := by
    rw [FH.fl_tie (e := -49) (n := 6369051672525772) (by norm_num) (by norm_num [abs_of_pos]) (by norm_num [abs_of_pos]) (by decide)
      (Or.inl (by norm_num))]
    norm_num
  have e3 : fl (6369051672525772 / 2 ^ 49 / 2) = 6369051672525772 / 2 ^ 50 := by
    rw [FH.dbl 6369051672525772 (-50) (by norm_num) (by norm_num) (by norm_num)]; norm_num
  have h1 : (1 : ℝ) ≤ fl (6369051672525772 / 2 ^ 50 - 6369051672525773 / 2 ^ 52) := by
    simpa using FH.ge_pow 0 (by norm_num) (by norm_num : (2 : ℝ) ^ (0 : ℤ) ≤ 6369051672525772 / 2 ^ 50 - 6369051672525773 / 2 ^ 52)
  have h2 := FH.le_neg_pow (-50) (by norm_num) (by norm_num : (6369051672525772 / 2 ^ 50 - 6369051672525773 / 2 ^ 50 : ℝ) ≤ -2 ^ (-50 : ℤ))
  have h3 : (1 : ℝ) ≤ fl (6369051672525772 / 2 ^ 50 - 4776788754394329 / 2 ^ 50) := by
    simpa using FH.ge_pow 0 (by norm_num) (by norm_num : (2 : ℝ) ^ (0 : ℤ) ≤ 6369051672525772 / 2 ^ 50 - 4776788754394329 / 2 ^ 50)
  unfold Triangle.incircleF
  dsimp only
  rw [ea, eb, ec, e1, e2, e3]
  have hh : heronF (6369051672525772 / 2 ^ 50) (6369051672525773 / 2 ^ 52) (6369051672525773 / 2 ^ 50) (4776788754394329 / 2 ^ 50) ≤ -2 ^ (-50 : ℤ) := by
    unfold heronF
    generalize fl (6369051672525772 / 2 ^ 50 - 6369051672525773 / 2 ^ 52) = f1 at *
    generalize fl (6369051672525772 / 2 ^ 50 - 6369051672525773 / 2 ^ 50) = f2 at *
    generalize fl (6369051672525772 / 2 ^ 50 - 4776788754394329 / 2 ^ 50) = f3 at *
    have hz : (0 : ℝ) < 2 ^ (-50 : ℤ) := by positivity
    have g1 : (1 : ℝ) ≤ fl (6369051672525772 / 2 ^ 50 * f1) := by
      have := FH.ge_pow 0 (x := 6369051672525772 / 2 ^ 50 * f1) (by norm_num) (by norm_num; linarith)
      simpa using this
    have g2 : fl (fl (6369051672525772 / 2 ^ 50 * f1) * f2) ≤ -2 ^ (-50 : ℤ) :=
      FH.le_neg_pow (-50) (by norm_num) (by rw [mul_comm]; exact FH.neg_mul' h2 hz g1)
    exact FH.le_neg_pow (-50) (by norm_num) (FH.neg_mul' g2 hz h3)
  have hH : ∀ v : ℝ, v < 0 → pySqrt v = .error (.valueError "math domain error") := fun v hv => if_pos hv
  rw [hH _ (lt_of_le_of_lt hh (neg_lt_zero.2 (by positivity)))]
  rfl

/-- The triangle with the vertices `(0,0)`, `(4,0)`, `(0,3)`: the circle of center `(1,1)` and radius `1` up to the stated errors. -/
example (k : Fma) : ∃ c, (⟨⟨0, 0⟩, ⟨4, 0⟩, ⟨0, 3⟩⟩ : Triangle).incircleF k = .ok c ∧ 0 < c.radius := by
  obtain ⟨O, r, hr, -, -, -, -, c, hc, -, -, h⟩ := C127_incircle k ⟨⟨0, 0⟩, ⟨4, 0⟩, ⟨0, 3⟩⟩ (B := 4) (by norm_num)
    ⟨⟨0, by norm_num, by norm_num⟩, ⟨0, by norm_num, by norm_num⟩⟩ ⟨⟨4, by norm_num, by norm_num⟩, ⟨0, by norm_num, by norm_num⟩⟩
    ⟨⟨0, by norm_num, by norm_num⟩, ⟨3, by norm_num, by norm_num⟩⟩ (by norm_num [Collinear, cross])
  refine ⟨c, hc, ?_⟩
  have := (abs_le.1 h).1
  norm_num at this
  linarith

/-- In fact every operation is exact for this triangle. -/
example (k : Fma) : (⟨⟨0, 0⟩, ⟨4, 0⟩, ⟨0, 3⟩⟩ : Triangle).incircleF k = .ok ⟨⟨1, 1⟩, 1⟩ := by
  have i0 : IntPt 512 ⟨0, 0⟩ := ⟨⟨0, by norm_num, by norm_num⟩, ⟨0, by norm_num, by norm_num⟩⟩
  have i4 : IntPt 512 ⟨4, 0⟩ := ⟨⟨4, by norm_num, by norm_num⟩, ⟨0, by norm_num, by norm_num⟩⟩
  have i3 : IntPt 512 ⟨0, 3⟩ := ⟨⟨0, by norm_num, by norm_num⟩, ⟨3, by norm_num, by norm_num⟩⟩
  have hn : ∀ n : ℕ, n ≤ 1000 → fl (n : ℝ) = n := fun n h => by
    have := fl_double (isDouble_int (n := (n : ℤ)) (by rw [abs_of_nonneg (by positivity)]; norm_num; omega))
    simpa using this
  have f1 : fl 1 = 1 := by simpa using hn 1 (by norm_num)
  have sq : ∀ n : ℕ, n ≤ 1000 → fl (√((n : ℝ) ^ 2)) = n := fun n h => by rw [Real.sqrt_sq (by positivity)]; exact hn n h
  have ea : distanceF k ⟨4, 0⟩ ⟨0, 3⟩ = 5 := by
    rw [FH.distance_int le_rfl k i4 i3, show sqDist ⟨4, 0⟩ ⟨0, 3⟩ = ((5 : ℕ) : ℝ) ^ 2 by norm_num [sqDist], sq 5 (by norm_num)]; norm_num
  have eb : distanceF k ⟨0, 0⟩ ⟨0, 3⟩ = 3 := by
    rw [FH.distance_int le_rfl k i0 i3, show sqDist ⟨0, 0⟩ ⟨0, 3⟩ = ((3 : ℕ) : ℝ) ^ 2 by norm_num [sqDist], sq 3 (by norm_num)]; norm_num
  have ec : distanceF k ⟨4, 0⟩ ⟨0, 0⟩ = 4 := by
    rw [FH.distance_int le_rfl k i4 i0, show sqDist ⟨4, 0⟩ ⟨0, 0⟩ = ((4 : ℕ) : ℝ) ^ 2 by norm_num [sqDist], sq 4 (by norm_num)]; norm_num
  have s36 : √(36 : ℝ) = 6 := by rw [show (36 : ℝ) = 6 ^ 2 by norm_num]; exact Real.sqrt_sq (by norm_num)
  have q2 : fl 2 = 2 := by simpa using hn 2 (by norm_num)
  have q3 : fl 3 = 3 := by simpa using hn 3 (by norm_num)
  have q4 : fl 4 = 4 := by simpa using hn 4 (by norm_num)
  have q6 : fl 6 = 6 := by simpa using hn 6 (by norm_num)
  have q8 : fl 8 = 8 := by simpa using hn 8 (by norm_num)
  have q12 : fl 12 = 12 := by simpa using hn 12 (by norm_num)
  have q18 : fl 18 = 18 := by simpa using hn 18 (by norm_num)
  have q36 : fl 36 = 36 := by simpa using hn 36 (by norm_num)
  unfold Triangle.incircleF heronF weightedF mkCircleF
  dsimp only
  rw [ea, eb, ec]
  norm_num [fl_zero, f1, q2, q3, q4, q6, q8, q12, q18, q36, pySqrt, s36, Res.ok_bind]
