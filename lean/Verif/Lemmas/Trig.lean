import Verif.Lemmas.Basic

open Spec Real

theorem pyMod_nonneg (x : ℝ) {m : ℝ} (hm : 0 < m) : 0 ≤ pyMod x m := by
  unfold pyMod
  have := Int.floor_le (x / m)
  rw [le_div_iff₀ hm] at this
  linarith

theorem pyMod_lt (x : ℝ) {m : ℝ} (hm : 0 < m) : pyMod x m < m := by
  unfold pyMod
  have := Int.lt_floor_add_one (x / m)
  rw [div_lt_iff₀ hm] at this
  linarith

theorem pyMod_eq_self {x m : ℝ} (h0 : 0 ≤ x) (h1 : x < m) : pyMod x m = x := by
  have hm : 0 < m := lt_of_le_of_lt h0 h1
  have : ⌊x / m⌋ = 0 := by
    rw [Int.floor_eq_iff]; constructor
    · simp; positivity
    · simp; rw [div_lt_one hm]; exact h1
  simp [pyMod, this]

theorem pyMod_add_int_mul (x : ℝ) {m : ℝ} (hm : m ≠ 0) (k : ℤ) : pyMod (x + k * m) m = pyMod x m := by
  unfold pyMod
  have : (x + k * m) / m = x / m + k := by field_simp
  rw [this, Int.floor_add_intCast]; push_cast; ring

theorem cos_pyMod (x : ℝ) : cos (pyMod x (2 * π)) = cos x := by
  unfold pyMod
  rw [show x - 2 * π * (⌊x / (2 * π)⌋ : ℝ) = x - (⌊x / (2 * π)⌋ : ℝ) * (2 * π) by ring]
  exact cos_sub_int_mul_two_pi x _

theorem sin_pyMod (x : ℝ) : sin (pyMod x (2 * π)) = sin x := by
  unfold pyMod
  rw [show x - 2 * π * (⌊x / (2 * π)⌋ : ℝ) = x - (⌊x / (2 * π)⌋ : ℝ) * (2 * π) by ring]
  exact sin_sub_int_mul_two_pi x _

/-- `atan2` in terms of sine and cosine. -/
theorem cos_atan2 {y x : ℝ} (h : x ≠ 0 ∨ y ≠ 0) : cos (atan2 y x) = x / sqrt (x * x + y * y) := by
  have hz : (⟨x, y⟩ : ℂ) ≠ 0 := by
    intro h0; rw [Complex.ext_iff] at h0; simp at h0; tauto
  unfold atan2
  rw [Complex.cos_arg hz, Complex.norm_def, Complex.normSq_mk]

theorem sin_atan2 (y x : ℝ) : sin (atan2 y x) = y / sqrt (x * x + y * y) := by
  unfold atan2
  rw [Complex.sin_arg, Complex.norm_def, Complex.normSq_mk]
