import Verif.Props.Line
import Mathlib.Analysis.SpecialFunctions.Trigonometric.Bounds

/-! C04, what `Line.is_equal` decides up to its tolerances: the two lines are the same, or one is the image of the other by the central symmetry
about the origin. -/

open Spec Real Classical

/-- The two directions agree modulo `π` and the offsets agree, up to the tolerances. -/
theorem is_equal_mod_pi (l1 l2 : Line) (h1 : l1.Valid) (h2 : l2.Valid) (he : l1.is_equal l2) :
    ∃ k : ℤ, |l1.direction_offset.1 - l2.direction_offset.1 - k * π| ≤ 1 / 10 ^ 4 ∧
    |l1.direction_offset.2 - l2.direction_offset.2| ≤ 1 / 10 ^ 4 * (1 + l1.direction_offset.2) := by
  obtain ⟨a1, a2, a3, -⟩ := C03_direction_offset l1 h1
  obtain ⟨b1, b2, b3, -⟩ := C03_direction_offset l2 h2
  have p1 := pi_gt_three
  have p2 := pi_lt_four
  unfold Line.is_equal at he
  dsimp only at he
  set d1 := l1.direction_offset.1
  set d2 := l2.direction_offset.1
  set o1 := l1.direction_offset.2
  set o2 := l2.direction_offset.2
  split_ifs at he with ha
  · have m1 := pyMod_nonneg d1 pi_pos
    have m2 := pyMod_nonneg d2 pi_pos
    have n1 := pyMod_lt d1 pi_pos
    have n2 := pyMod_lt d2 pi_pos
    have hb : |pyMod d1 π - pyMod d2 π| ≤ 1 / 10 ^ 4 := by
      have := approx_equal_bound he
      have h3 : max |pyMod d1 π| |pyMod d2 π| ≤ 4 := by
        rw [abs_of_nonneg m1, abs_of_nonneg m2]; apply max_le <;> linarith
      linarith
    have hk : pyMod d1 π - pyMod d2 π = d1 - d2 - ((⌊d1 / π⌋ - ⌊d2 / π⌋ : ℤ) : ℝ) * π := by
      unfold pyMod; push_cast; ring
    rw [hk] at hb
    refine ⟨_, hb, ?_⟩
    have := approx_equal_bound ha
    rw [abs_of_nonneg a3, abs_of_nonneg b3] at this
    rcases le_total o1 o2 with h | h
    · rw [max_eq_right h] at this
      rw [abs_of_nonpos (by linarith)] at this ⊢
      linarith
    · rw [max_eq_left h] at this; linarith
  · obtain ⟨c1, c2⟩ := he
    unfold npClose at c1 c2
    rw [abs_of_nonneg b1] at c1
    rw [abs_of_nonneg b3] at c2
    refine ⟨0, by simp only [Int.cast_zero, zero_mul, sub_zero]; linarith, ?_⟩
    have := abs_le.1 c2
    linarith

/-- C04 (what the answer `True` means, for every pair of lines): either every point of the first line is within the tolerance of a point of the
second one (`s = 1`), or every point of the image of the first line by the central symmetry about the origin is (`s = -1`). -/
theorem C04_exact (l1 l2 : Line) (h1 : l1.Valid) (h2 : l2.Valid) (he : l1.is_equal l2) :
    ∃ s : ℝ, (s = 1 ∨ s = -1) ∧ ∀ P, OnLine l1.A l1.B P →
      ∃ Q, OnLine l2.A l2.B Q ∧ Spec.dist (s • P) Q ≤ 3 / 10 ^ 4 * (1 + |P.x| + |P.y|) := by
  obtain ⟨a1, a2, a3, a4⟩ := C03_direction_offset l1 h1
  obtain ⟨b1, b2, b3, b4⟩ := C03_direction_offset l2 h2
  obtain ⟨k, hk, ho⟩ := is_equal_mod_pi l1 l2 h1 h2 he
  set d1 := l1.direction_offset.1
  set d2 := l2.direction_offset.1
  set o1 := l1.direction_offset.2
  set o2 := l2.direction_offset.2
  obtain ⟨s, hs, hc, hsn⟩ : ∃ s : ℝ, (s = 1 ∨ s = -1) ∧ cos (d2 + k * π) = s * cos d2 ∧ sin (d2 + k * π) = s * sin d2 := by
    rcases Int.even_or_odd' k with ⟨m, hm | hm⟩
    · refine ⟨1, Or.inl rfl, ?_, ?_⟩ <;> subst hm <;> push_cast
      · rw [show d2 + 2 * (m : ℝ) * π = d2 + m * (2 * π) by ring, cos_add_int_mul_two_pi, one_mul]
      · rw [show d2 + 2 * (m : ℝ) * π = d2 + m * (2 * π) by ring, sin_add_int_mul_two_pi, one_mul]
    · refine ⟨-1, Or.inr rfl, ?_, ?_⟩ <;> subst hm <;> push_cast
      · rw [show d2 + (2 * (m : ℝ) + 1) * π = (d2 + m * (2 * π)) + π by ring, cos_add_pi, cos_add_int_mul_two_pi]; ring
      · rw [show d2 + (2 * (m : ℝ) + 1) * π = (d2 + m * (2 * π)) + π by ring, sin_add_pi, sin_add_int_mul_two_pi]; ring
  refine ⟨s, hs, fun P hP => ?_⟩
  rw [a4] at hP
  have hx := (abs_cos_sub_cos_le d1 (d2 + k * π))
  have hy := (abs_sin_sub_sin_le d1 (d2 + k * π))
  rw [← sub_sub] at hx hy
  replace hx := hx.trans hk
  replace hy := hy.trans hk
  rw [hc] at hx
  rw [hsn] at hy
  have cs := sin_sq_add_cos_sq d2
  obtain ⟨e, he⟩ : ∃ e, e = cos d2 * (s * P.x) + sin d2 * (s * P.y) - o2 := ⟨_, rfl⟩
  have o1le : o1 ≤ |P.x| + |P.y| := by
    rw [← hP]
    have g1 := le_abs_self (cos d1 * P.x)
    have g2 := le_abs_self (sin d1 * P.y)
    rw [abs_mul] at g1 g2
    have g3 := abs_cos_le_one d1
    have g4 := abs_sin_le_one d1
    have g5 := abs_nonneg P.x
    have g6 := abs_nonneg P.y
    nlinarith
  have hb : |e| ≤ 3 / 10 ^ 4 * (1 + |P.x| + |P.y|) := by
    have e1 : e = -((cos d1 - s * cos d2) * P.x) + -((sin d1 - s * sin d2) * P.y) + (o1 - o2) := by
      rw [he, ← hP]; ring
    have g1 := abs_add_three (-((cos d1 - s * cos d2) * P.x)) (-((sin d1 - s * sin d2) * P.y)) (o1 - o2)
    rw [← e1, abs_neg, abs_neg, abs_mul, abs_mul] at g1
    have g5 := abs_nonneg P.x
    have g6 := abs_nonneg P.y
    nlinarith
  refine ⟨⟨s * P.x - e * cos d2, s * P.y - e * sin d2⟩, ?_, ?_⟩
  · rw [b4]
    dsimp only
    linear_combination -he - e * cs
  · have : Spec.dist (s • P) ⟨s * P.x - e * cos d2, s * P.y - e * sin d2⟩ = |e| := by
      unfold Spec.dist Spec.sqDist
      rw [← sqrt_sq_eq_abs]
      congr 1
      simp
      linear_combination e ^ 2 * cs
    rw [this]
    exact hb

/-- Both cases occur: `s = 1` for a line and itself, `s = -1` for the lines `x = 1` and `x = -1`. -/
example : lineX1.is_equal lineX1 ∧ lineX1.is_equal lineXm1 :=
  ⟨C04_is_equal_complete _ _ C04_is_equal_unsound.1 C04_is_equal_unsound.1 (fun _ => Iff.rfl), C04_is_equal_unsound.2.2.1⟩
