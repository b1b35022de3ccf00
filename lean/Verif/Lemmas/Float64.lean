import Verif.Model.Float64
import Mathlib.Tactic.Linarith
import Mathlib.Tactic.Positivity
import Mathlib.Tactic.FieldSimp
import Mathlib.Tactic.Ring
import Mathlib.Tactic.NormNum

/-!
# Lemmas on the rounding to doubles
-/

theorem roundEven_int (n : ℤ) : roundEven n = n := by
  unfold roundEven
  rw [Int.floor_intCast, if_pos (by norm_num)]

theorem roundEven_floor (x : ℝ) : ⌊x⌋ ≤ roundEven x ∧ roundEven x ≤ ⌊x⌋ + 1 := by
  unfold roundEven
  split_ifs <;> constructor <;> omega

theorem roundEven_err (x : ℝ) : |(roundEven x : ℝ) - x| ≤ 1 / 2 := by
  have h0 := Int.floor_le x
  have h1 := Int.lt_floor_add_one x
  unfold roundEven
  rw [abs_le]
  split_ifs <;> push_cast <;> constructor <;> linarith

theorem roundEven_mono {x y : ℝ} (h : x ≤ y) : roundEven x ≤ roundEven y := by
  rcases (Int.floor_le_floor h).lt_or_eq with hf | hf
  · have := (roundEven_floor x).2
    have := (roundEven_floor y).1
    omega
  · unfold roundEven
    rw [hf]
    split_ifs <;> first | omega | (exfalso; linarith)

theorem roundEven_neg (x : ℝ) : roundEven (-x) = -roundEven x := by
  by_cases hx : (⌊x⌋ : ℝ) = x
  · rw [← hx, ← Int.cast_neg, roundEven_int, roundEven_int]
  · have h0 := Int.floor_le x
    have h1 := Int.lt_floor_add_one x
    have h2 : (⌊x⌋ : ℝ) < x := lt_of_le_of_ne h0 hx
    have hf : ⌊-x⌋ = -⌊x⌋ - 1 := by
      rw [Int.floor_eq_iff]
      push_cast
      constructor <;> linarith
    have he : Even (-⌊x⌋ - 1) ↔ ¬ Even ⌊x⌋ := by
      rw [Int.even_sub_one, even_neg]
    unfold roundEven
    rw [hf]
    push_cast
    simp only [he]
    split_ifs <;> first | omega | (exfalso; linarith) | (exfalso; tauto)

theorem ulpExp_neg (x : ℝ) : ulpExp (-x) = ulpExp x := by
  unfold ulpExp; rw [abs_neg]

theorem two_zpow_pos (e : ℤ) : (0 : ℝ) < 2 ^ e := zpow_pos (by norm_num) e

/-- Rounding is odd. -/
theorem fl_neg (x : ℝ) : fl (-x) = -fl x := by
  unfold fl
  rw [ulpExp_neg, neg_div, roundEven_neg]
  push_cast
  ring

theorem fl_zero : fl 0 = 0 := by
  have := roundEven_int 0
  unfold fl
  rw [zero_div]
  simp at this
  rw [this]; simp

/-- The absolute error is at most half a unit in the last place. -/
theorem fl_err_ulp (x : ℝ) : |fl x - x| ≤ 1 / 2 * 2 ^ ulpExp x := by
  have hp := two_zpow_pos (ulpExp x)
  have h := roundEven_err (x / 2 ^ ulpExp x)
  have e : fl x - x = (roundEven (x / 2 ^ ulpExp x) - x / 2 ^ ulpExp x) * 2 ^ ulpExp x := by
    unfold fl; field_simp
  rw [e, abs_mul, abs_of_pos hp]
  exact mul_le_mul_of_nonneg_right h hp.le

theorem zpow_log_abs {x : ℝ} (hx : x ≠ 0) : (2 : ℝ) ^ Int.log 2 |x| ≤ |x| := by
  have := Int.zpow_log_le_self (b := 2) (by norm_num) (abs_pos.2 hx)
  exact_mod_cast this

theorem lt_zpow_log_abs (x : ℝ) : |x| < (2 : ℝ) ^ (Int.log 2 |x| + 1) := by
  have := Int.lt_zpow_succ_log_self (b := 2) (by norm_num) |x|
  exact_mod_cast this

/-- The error bound of binary64: relative above the subnormal range, absolute in it. -/
theorem fl_err (x : ℝ) : |fl x - x| ≤ |x| / 2 ^ 53 ∨ |fl x - x| ≤ 2 ^ (-1075 : ℤ) ∧ ulpExp x = -1074 := by
  have h := fl_err_ulp x
  by_cases hx : x = 0
  · left; rw [hx, fl_zero]; simp
  rcases max_choice (Int.log 2 |x| - 52) (-1074) with hm | hm
  · left
    refine h.trans ?_
    unfold ulpExp
    rw [hm, zpow_sub₀ (by norm_num)]
    have := zpow_log_abs hx
    have e : (2 : ℝ) ^ (52 : ℤ) = 2 ^ 52 := by norm_cast
    rw [e, show (1 / 2 : ℝ) * (2 ^ Int.log 2 |x| / 2 ^ 52) = 2 ^ Int.log 2 |x| / 2 ^ 53 by ring]
    gcongr
  · right
    refine ⟨h.trans_eq ?_, hm⟩
    unfold ulpExp
    rw [hm, show (-1074 : ℤ) = -1075 + 1 by norm_num, zpow_add_one₀ (by norm_num)]
    ring

/-- One bound for both cases. -/
theorem fl_err_le (x : ℝ) : |fl x - x| ≤ |x| / 2 ^ 53 + 2 ^ (-1075 : ℤ) := by
  have h1 : 0 ≤ |x| / 2 ^ 53 := by positivity
  have h2 : (0 : ℝ) ≤ 2 ^ (-1075 : ℤ) := (two_zpow_pos _).le
  rcases fl_err x with h | h
  · linarith
  · linarith [h.1]

theorem roundEven_le {x : ℝ} {n : ℤ} (h : x ≤ n) : roundEven x ≤ n := by
  have := roundEven_mono h
  rwa [roundEven_int] at this

theorem le_roundEven {x : ℝ} {n : ℤ} (h : (n : ℝ) ≤ x) : n ≤ roundEven x := by
  have := roundEven_mono h
  rwa [roundEven_int] at this

theorem log_le_ulpExp (x : ℝ) : Int.log 2 |x| ≤ ulpExp x + 52 := by
  have := le_max_left (Int.log 2 |x| - 52) (-1074)
  unfold ulpExp; omega

theorem neg_le_ulpExp (x : ℝ) : -1074 ≤ ulpExp x := le_max_right _ _

theorem scaled_lt (x : ℝ) : |x| < 2 ^ 53 * 2 ^ ulpExp x := by
  refine (lt_zpow_log_abs x).trans_le ?_
  have e : (2 : ℝ) ^ 53 = 2 ^ (53 : ℤ) := by norm_cast
  rw [e, ← zpow_add₀ (by norm_num)]
  apply zpow_le_zpow_right₀ (by norm_num)
  have := log_le_ulpExp x
  omega

/-- Rounding gives doubles. -/
theorem fl_isDouble (x : ℝ) : IsDouble (fl x) := by
  refine ⟨roundEven (x / 2 ^ ulpExp x), ulpExp x, neg_le_ulpExp x, ?_, rfl⟩
  have hp := two_zpow_pos (ulpExp x)
  have h := scaled_lt x
  rw [abs_lt] at h
  rw [abs_le]
  constructor
  · apply le_roundEven
    rw [le_div_iff₀ hp]; push_cast; linarith
  · apply roundEven_le
    rw [div_le_iff₀ hp]; push_cast; linarith

/-- A multiple of the unit in the last place is not changed. -/
theorem fl_of_multiple {x : ℝ} {k : ℤ} (h : x = k * 2 ^ ulpExp x) : fl x = x := by
  have hp := two_zpow_pos (ulpExp x)
  have : x / 2 ^ ulpExp x = k := by rw [div_eq_iff hp.ne']; exact h
  unfold fl
  rw [this, roundEven_int]
  exact h.symm

theorem multiple_of_le {x : ℝ} {m e : ℤ} (h : x = m * 2 ^ e) (he : ulpExp x ≤ e) : ∃ k : ℤ, x = k * 2 ^ ulpExp x := by
  obtain ⟨n, hn⟩ := Int.eq_ofNat_of_zero_le (sub_nonneg.2 he)
  refine ⟨m * 2 ^ n, ?_⟩
  have : e = n + ulpExp x := by omega
  conv_lhs => rw [h, this, zpow_add₀ (by norm_num : (2 : ℝ) ≠ 0)]
  push_cast
  rw [zpow_natCast]
  ring

/-- Doubles are not changed. -/
theorem fl_double {x : ℝ} (h : IsDouble x) : fl x = x := by
  obtain ⟨m, e, he, hm, hx⟩ := h
  by_cases hx0 : x = 0
  · rw [hx0, fl_zero]
  by_cases hle : ulpExp x ≤ e
  · obtain ⟨k, hk⟩ := multiple_of_le hx hle
    exact fl_of_multiple hk
  · push Not at hle
    have hexp : ulpExp x = Int.log 2 |x| - 52 := by
      rcases max_choice (Int.log 2 |x| - 52) (-1074) with hm | hm
      · exact hm
      · exfalso
        have : ulpExp x = -1074 := hm
        omega
    have hp := two_zpow_pos e
    have hm' : (|m| : ℝ) ≤ 2 ^ 53 := by exact_mod_cast hm
    have habs : |x| = |(m : ℝ)| * 2 ^ e := by rw [hx, abs_mul, abs_of_pos hp]
    have h1 := zpow_log_abs hx0
    rw [show Int.log 2 |x| = ulpExp x + 52 by omega] at h1
    have h2 : (2 : ℝ) ^ (ulpExp x + 52) ≤ 2 ^ (53 + e) := by
      refine h1.trans ?_
      rw [habs, zpow_add₀ (by norm_num)]
      have : (2 : ℝ) ^ (53 : ℤ) = 2 ^ 53 := by norm_cast
      rw [this]
      exact mul_le_mul_of_nonneg_right hm' hp.le
    have h3 : ulpExp x + 52 ≤ 53 + e := (zpow_le_zpow_iff_right₀ (by norm_num : (1 : ℝ) < 2)).1 h2
    have h4 : ulpExp x = e + 1 := by omega
    have h5 : (2 : ℝ) ^ 53 ≤ |(m : ℝ)| := by
      rw [h4, habs, show e + 1 + 52 = 53 + e by ring, zpow_add₀ (by norm_num)] at h1
      have : (2 : ℝ) ^ (53 : ℤ) = 2 ^ 53 := by norm_cast
      rw [this] at h1
      exact le_of_mul_le_mul_right h1 hp
    have h6 : |m| = 2 ^ 53 := le_antisymm hm (by exact_mod_cast h5)
    rcases abs_eq (by norm_num : (0 : ℤ) ≤ 2 ^ 53) |>.1 h6 with h7 | h7
    · apply fl_of_multiple (k := 2 ^ 52)
      rw [h4, zpow_add₀ (by norm_num), hx, h7]
      push_cast; ring
    · apply fl_of_multiple (k := -2 ^ 52)
      rw [h4, zpow_add₀ (by norm_num), hx, h7]
      push_cast; ring

theorem fl_fl (x : ℝ) : fl (fl x) = fl x := fl_double (fl_isDouble x)

theorem fl_nonneg {x : ℝ} (h : 0 ≤ x) : 0 ≤ fl x := by
  have hp := two_zpow_pos (ulpExp x)
  have : (0 : ℤ) ≤ roundEven (x / 2 ^ ulpExp x) := le_roundEven (by push_cast; positivity)
  unfold fl
  have h' : (0 : ℝ) ≤ (roundEven (x / 2 ^ ulpExp x) : ℝ) := by exact_mod_cast this
  positivity

theorem ulpExp_mono {x y : ℝ} (hx : 0 < x) (h : x ≤ y) : ulpExp x ≤ ulpExp y := by
  unfold ulpExp
  have : Int.log 2 |x| ≤ Int.log 2 |y| := by
    rw [abs_of_pos hx, abs_of_pos (hx.trans_le h)]
    exact Int.log_mono_right hx h
  omega

theorem fl_mono_pos {x y : ℝ} (hx : 0 < x) (h : x ≤ y) : fl x ≤ fl y := by
  have hy := hx.trans_le h
  rcases (ulpExp_mono hx h).lt_or_eq with hlt | heq
  · have hpx := two_zpow_pos (ulpExp x)
    have hpy := two_zpow_pos (ulpExp y)
    have hexp : ulpExp y = Int.log 2 |y| - 52 := by
      rcases max_choice (Int.log 2 |y| - 52) (-1074) with hm | hm
      · exact hm
      · exfalso
        have : ulpExp y = -1074 := hm
        have := neg_le_ulpExp x
        omega
    have h1 : (2 : ℤ) ^ 52 ≤ roundEven (y / 2 ^ ulpExp y) := by
      apply le_roundEven
      rw [le_div_iff₀ hpy]
      push_cast
      have := zpow_log_abs hy.ne'
      rw [abs_of_pos hy] at this
      refine le_trans (le_of_eq ?_) this
      rw [show Int.log 2 y = 52 + ulpExp y by rw [hexp, abs_of_pos hy]; ring, zpow_add₀ (by norm_num)]
      norm_cast
    have h2 : roundEven (x / 2 ^ ulpExp x) ≤ 2 ^ 53 := by
      apply roundEven_le
      rw [div_le_iff₀ hpx]
      have := scaled_lt x
      rw [abs_of_pos hx] at this
      push_cast; linarith
    have h1' : (2 : ℝ) ^ 52 ≤ roundEven (y / 2 ^ ulpExp y) := by exact_mod_cast h1
    have h2' : (roundEven (x / 2 ^ ulpExp x) : ℝ) ≤ 2 ^ 53 := by exact_mod_cast h2
    have h3 : (2 : ℝ) * 2 ^ ulpExp x ≤ 2 ^ ulpExp y := by
      rw [mul_comm, ← zpow_add_one₀ (by norm_num)]
      exact zpow_le_zpow_right₀ (by norm_num) (by omega)
    unfold fl
    calc (roundEven (x / 2 ^ ulpExp x) : ℝ) * 2 ^ ulpExp x ≤ 2 ^ 53 * 2 ^ ulpExp x := by gcongr
      _ = 2 ^ 52 * (2 * 2 ^ ulpExp x) := by ring
      _ ≤ 2 ^ 52 * 2 ^ ulpExp y := by gcongr
      _ ≤ _ := by gcongr
  · have hp := two_zpow_pos (ulpExp y)
    unfold fl
    rw [heq]
    have : roundEven (x / 2 ^ ulpExp y) ≤ roundEven (y / 2 ^ ulpExp y) := roundEven_mono (by gcongr)
    have : (roundEven (x / 2 ^ ulpExp y) : ℝ) ≤ roundEven (y / 2 ^ ulpExp y) := by exact_mod_cast this
    gcongr

theorem fl_nonpos {x : ℝ} (h : x ≤ 0) : fl x ≤ 0 := by
  have := fl_nonneg (neg_nonneg.2 h)
  rw [fl_neg] at this
  linarith

/-- Rounding is monotone. -/
theorem fl_mono {x y : ℝ} (h : x ≤ y) : fl x ≤ fl y := by
  rcases lt_trichotomy x 0 with hx | hx | hx
  · rcases lt_or_ge y 0 with hy | hy
    · have := fl_mono_pos (neg_pos.2 hy) (neg_le_neg h)
      rw [fl_neg, fl_neg] at this
      linarith
    · exact (fl_nonpos hx.le).trans (fl_nonneg hy)
  · rw [hx, fl_zero]; exact fl_nonneg (hx ▸ h)
  · exact fl_mono_pos hx h

theorem isDouble_neg {x : ℝ} (h : IsDouble x) : IsDouble (-x) := by
  obtain ⟨m, e, he, hm, rfl⟩ := h
  exact ⟨-m, e, he, by rwa [abs_neg], by push_cast; ring⟩

/-- The sum of two doubles has no underflow error. -/
theorem fl_add_err {x y : ℝ} (hx : IsDouble x) (hy : IsDouble y) : |fl (x + y) - (x + y)| ≤ |x + y| / 2 ^ 53 := by
  rcases fl_err (x + y) with h | ⟨-, h⟩
  · exact h
  · obtain ⟨m, e, he, -, ex⟩ := hx
    obtain ⟨m', e', he', -, ey⟩ := hy
    have conv : ∀ (m e : ℤ), -1074 ≤ e → ∃ k : ℤ, (m : ℝ) * 2 ^ e = k * 2 ^ (-1074 : ℤ) := by
      intro m e he
      obtain ⟨n, hn⟩ := Int.eq_ofNat_of_zero_le (sub_nonneg.2 he)
      refine ⟨m * 2 ^ n, ?_⟩
      have : e = n + (-1074) := by omega
      rw [this, zpow_add₀ (by norm_num : (2 : ℝ) ≠ 0)]
      push_cast
      rw [zpow_natCast]
      ring
    obtain ⟨k, hk⟩ := conv m e he
    obtain ⟨k', hk'⟩ := conv m' e' he'
    have : fl (x + y) = x + y := by
      apply fl_of_multiple (k := k + k')
      rw [h, ex, ey, hk, hk']
      push_cast; ring
    rw [this, sub_self, abs_zero]
    positivity

theorem fl_sub_err {x y : ℝ} (hx : IsDouble x) (hy : IsDouble y) : |fl (x - y) - (x - y)| ≤ |x - y| / 2 ^ 53 := by
  have := fl_add_err hx (isDouble_neg hy)
  rwa [← sub_eq_add_neg] at this

/-- Comparisons through a rounded difference are exact. -/
theorem fl_sub_eq_zero {x y : ℝ} (hx : IsDouble x) (hy : IsDouble y) : fl (x - y) = 0 ↔ x = y := by
  constructor
  · intro h
    have := fl_sub_err hx hy
    rw [h, zero_sub, abs_neg] at this
    have h0 := abs_nonneg (x - y)
    have : |x - y| = 0 := by
      rw [le_div_iff₀ (by positivity)] at this
      nlinarith [show (2 : ℝ) ≤ 2 ^ 53 by norm_num]
    exact sub_eq_zero.1 (abs_eq_zero.1 this)
  · rintro rfl
    rw [sub_self, fl_zero]

theorem isDouble_int {n : ℤ} (h : |n| ≤ 2 ^ 53) : IsDouble n := ⟨n, 0, by norm_num, h, by simp⟩

theorem isDouble_pow (e : ℤ) (h : -1074 ≤ e) : IsDouble (2 ^ e) := ⟨1, e, h, by norm_num, by simp⟩

theorem roundEven_near {x : ℝ} {n : ℤ} (h : |x - n| < 1 / 2) : roundEven x = n := by
  rw [abs_lt] at h
  rcases le_or_gt (n : ℝ) x with h0 | h0
  · have hf : ⌊x⌋ = n := by rw [Int.floor_eq_iff]; constructor <;> linarith
    unfold roundEven
    rw [hf, if_pos (by linarith)]
  · have hf : ⌊x⌋ = n - 1 := by rw [Int.floor_eq_iff]; push_cast; constructor <;> linarith
    unfold roundEven
    rw [hf, if_neg (by push_cast; linarith), if_pos (by push_cast; linarith)]
    ring

theorem ulpExp_eq {x : ℝ} {e : ℤ} (he : -1074 ≤ e) (h1 : 2 ^ (e + 52) ≤ |x|) (h2 : |x| < 2 ^ (e + 53)) : ulpExp x = e := by
  have hx : 0 < |x| := (two_zpow_pos _).trans_le h1
  have l1 : e + 52 ≤ Int.log 2 |x| := (Int.zpow_le_iff_le_log (b := 2) (by norm_num) hx).1 (by exact_mod_cast h1)
  have l2 : Int.log 2 |x| < e + 53 := (Int.lt_zpow_iff_log_lt (b := 2) (by norm_num) hx).1 (by exact_mod_cast h2)
  unfold ulpExp
  omega

/-- Evaluation of the rounding. -/
theorem fl_eval {x : ℝ} {e n : ℤ} (he : -1074 ≤ e) (h1 : 2 ^ (e + 52) ≤ |x|) (h2 : |x| < 2 ^ (e + 53))
    (h3 : |x / 2 ^ e - n| < 1 / 2) : fl x = n * 2 ^ e := by
  unfold fl
  rw [ulpExp_eq he h1 h2, roundEven_near h3]

/-- Adding a much smaller number changes nothing. -/
theorem fl_absorb {x y : ℝ} (hx : IsDouble x) (hx0 : 0 < x) (hy : 0 ≤ y) (h : y ≤ x / 2 ^ 54) : fl (x + y) = x := by
  have hp := two_zpow_pos (ulpExp x)
  have hs := scaled_lt x
  rw [abs_of_pos hx0] at hs
  have hsmall : y < 1 / 2 * 2 ^ ulpExp x := by
    refine h.trans_lt ?_
    rw [div_lt_iff₀ (by positivity)]
    calc x < 2 ^ 53 * 2 ^ ulpExp x := hs
      _ = _ := by ring
  -- the number of units
  have hm : ∃ m : ℤ, x = m * 2 ^ ulpExp x := by
    refine ⟨roundEven (x / 2 ^ ulpExp x), ?_⟩
    have := fl_double hx
    conv_lhs => rw [← this]
    rfl
  obtain ⟨m, hm⟩ := hm
  have hm53 : m + 1 ≤ 2 ^ 53 := by
    have : (m : ℝ) < 2 ^ 53 := by
      rw [hm, ← hm] at hs
      have hs' : (m : ℝ) * 2 ^ ulpExp x < 2 ^ 53 * 2 ^ ulpExp x := by rw [← hm]; exact hs
      exact lt_of_mul_lt_mul_right hs' hp.le
    have : m < 2 ^ 53 := by exact_mod_cast this
    omega
  have hsame : ulpExp (x + y) = ulpExp x := by
    have hle := ulpExp_mono hx0 (show x ≤ x + y by linarith)
    refine le_antisymm ?_ hle
    have hlt : x + y < 2 ^ (ulpExp x + 53) := by
      have : (m : ℝ) + 1 ≤ 2 ^ 53 := by exact_mod_cast hm53
      have e53 : (2 : ℝ) ^ (53 : ℤ) = 2 ^ 53 := by norm_cast
      rw [zpow_add₀ (by norm_num), e53]
      nlinarith
    have hl : Int.log 2 |x + y| < ulpExp x + 53 := by
      rw [abs_of_pos (by linarith)]
      exact (Int.lt_zpow_iff_log_lt (b := 2) (by norm_num) (by linarith)).1 (by exact_mod_cast hlt)
    have := neg_le_ulpExp x
    unfold ulpExp at this ⊢
    unfold ulpExp at hl
    omega
  unfold fl
  rw [hsame, roundEven_near (n := m), ← hm]
  have : (x + y) / 2 ^ ulpExp x - m = y / 2 ^ ulpExp x := by
    rw [add_div]
    conv_lhs => rw [show x / 2 ^ ulpExp x = m from by rw [div_eq_iff hp.ne']; exact hm]
    ring
  rw [this, abs_of_nonneg (by positivity), div_lt_iff₀ hp]
  exact hsmall
