import Verif.Model.FloatOrthOn
import Verif.Props.FloatCircleAngle
import Verif.Props.FloatLineEq

/-!
# The orthogonal circle through two points of a circle in double precision: C138
-/

open Spec Real Classical FG FT

namespace FOO

/-- Accuracy of the library: `2 ^ -51` relative for `cos` and `tan`, absolute for `sin`. -/
structure Accurate (M : MathLib) (tanF : ℝ → ℝ) : Prop where
  cos : ∀ t, |M.cos t - Real.cos t| ≤ 4 / 2 ^ 53 * |Real.cos t|
  sin : ∀ t, |M.sin t - Real.sin t| ≤ 4 / 2 ^ 53
  tan : ∀ t, |tanF t - Real.tan t| ≤ 4 / 2 ^ 53 * |Real.tan t|

theorem IO_apx {M : MathLib} {tanF : ℝ → ℝ} (hM : Accurate M tanF) {r t : ℝ} (hr : 1 ≤ r) (hc : Real.cos t ≠ 0) :
    M.cos t ≠ 0 ∧ Apx (503 / 100) (r / |Real.cos t|) (fl (r / M.cos t)) (r / Real.cos t) ∧ 1 ≤ r / |Real.cos t| := by
  have h := hM.cos t
  have c0 := abs_pos.2 hc
  have c1 := abs_cos_le_one t
  have hl : (1 - 4 / 2 ^ 53) * |Real.cos t| ≤ |M.cos t| := by
    have := abs_sub_abs_le_abs_sub (Real.cos t) (M.cos t)
    rw [abs_sub_comm] at this
    linarith
  have hp : 0 < |M.cos t| := lt_of_lt_of_le (mul_pos (by norm_num) c0) hl
  have hn : M.cos t ≠ 0 := abs_pos.1 hp
  have h1 : 1 ≤ r / |Real.cos t| := by rw [le_div_iff₀ c0]; linarith
  refine ⟨hn, ?_, h1⟩
  have hA : Apx (401 / 100) (r / |Real.cos t|) (r / M.cos t) (r / Real.cos t) := by
    refine ⟨?_, by rw [abs_div, abs_of_pos (by linarith : 0 < r)]⟩
    have e : r / M.cos t - r / Real.cos t = r / Real.cos t * ((Real.cos t - M.cos t) / M.cos t) := by field_simp
    rw [e, abs_mul, abs_div, abs_div, abs_of_pos (by linarith : 0 < r), abs_sub_comm, mul_comm]
    refine mul_le_mul_of_nonneg_right ?_ (by positivity)
    rw [div_le_iff₀ hp]
    refine h.trans ?_
    have : 401 / 100 / 2 ^ 53 * ((1 - 4 / 2 ^ 53) * |Real.cos t|) ≤ 401 / 100 / 2 ^ 53 * |M.cos t| := mul_le_mul_of_nonneg_left hl (by norm_num)
    refine le_trans ?_ this
    rw [← mul_assoc]
    exact mul_le_mul_of_nonneg_right (by norm_num) c0.le
  exact (hA.round (by norm_num) (by norm_num) (le_trans (by norm_num) h1)).mono (by norm_num) (by norm_num) le_rfl

/-- A coordinate of the center, relative to the center of the given circle. -/
theorem center_apx {io' io m i u u' R : ℝ} (h : Apx (503 / 100) m io' io) (hm : 1 ≤ m) (hi : |i| ≤ R) (hu : |u| ≤ 1) (hu' : |u' - u| ≤ 4 / 2 ^ 53) :
    Apx (1108 / 100) (m + R) (fl (i + fl (io' * u')) - i) (io * u) := by
  have R0 : 0 ≤ R := (abs_nonneg _).trans hi
  have h1 : Apx 4 1 u' u := ⟨by rw [mul_one]; exact hu', hu⟩
  have h2 := (h.mul (e3 := 904 / 100) h1 (by norm_num) (by norm_num) (by norm_num) (by norm_num) (by norm_num)).round (by norm_num) (by norm_num)
    (by rw [mul_one]; exact le_trans (by norm_num) hm)
  rw [mul_one] at h2
  have h3 := ((Apx.exact hi).mono (e' := 904 / 100 + 101 / 100) (by norm_num) (by norm_num) le_rfl).add h2
  have h4 := h3.round (by norm_num) (by norm_num) (le_trans (by norm_num) (show 1 ≤ R + m by linarith))
  refine ⟨?_, h2.2.trans (by linarith)⟩
  have := h4.1
  rw [show fl (i + fl (io' * u')) - i - io * u = fl (i + fl (io' * u')) - (i + io * u) by ring]
  refine this.trans ?_
  rw [add_comm R m]
  refine mul_le_mul_of_nonneg_right (by norm_num) (by linarith)

/-- The radius. -/
theorem radius_apx {M : MathLib} {tanF : ℝ → ℝ} (hM : Accurate M tanF) {r t : ℝ} (hr : 1 ≤ r) (hc : Real.cos t ≠ 0) :
    Apx (502 / 100) (r / |Real.cos t|) (fl (r * |tanF t|)) (r * |Real.tan t|) := by
  have c0 := abs_pos.2 hc
  have h1 : Apx 4 |Real.tan t| |tanF t| |Real.tan t| := ⟨(abs_abs_sub_abs_le _ _).trans (hM.tan t), by rw [abs_abs]⟩
  have h2 := (Apx.exact (abs_of_pos (by linarith : 0 < r)).le).mul (e3 := 4001 / 1000) h1 (by norm_num) (by norm_num) (by norm_num) (by norm_num)
    (by norm_num)
  have hm : r * |Real.tan t| ≤ r / |Real.cos t| := by
    rw [tan_eq_sin_div_cos, abs_div, ← mul_div_assoc]
    exact div_le_div_of_nonneg_right (mul_le_of_le_one_right (by linarith) (abs_sin_le_one t)) c0.le
  have h3 : 1 ≤ r / |Real.cos t| := by rw [le_div_iff₀ c0]; linarith [abs_cos_le_one t]
  exact ((h2.mono le_rfl (by norm_num) hm).round (by norm_num) (by norm_num) (le_trans (by norm_num) h3)).mono (by norm_num) (by norm_num) le_rfl

/-- A translation by a known number. -/
theorem shift {S a b w : ℝ} (h : Apx (1108 / 100) S a b) (hw : |w| ≤ S) : Apx (554 / 100) (S + S) (a - w) (b - w) := by
  refine ⟨?_, (abs_sub _ _).trans (add_le_add h.2 hw)⟩
  rw [sub_sub_sub_cancel_right]
  refine h.1.trans (le_of_eq ?_)
  ring

end FOO

/-- **C138.** The circle returned by `orthogonal_through_two_points_on_circle` in double precision. Here `t` and `β` are the rounded half difference
and half sum of the angles, `r ≥ 1` is the radius, `R` bounds the coordinates of the center, and `S = r / |cos t| + R`. Unless the difference
of the angles is a multiple of the number `math.pi`, the method returns a circle that is orthogonal to the given one up to `67 S² / 2 ^ 53` (in terms
of squared lengths), and the points of the given circle at the angles `β + t` and `β - t` are on it up to `100 S² / 2 ^ 53`. -/
theorem C138_orthogonal {M : MathLib} {tanF : ℝ → ℝ} (hM : FOO.Accurate M tanF) (c : Circle) (α1 α2 : ℝ) {t β R : ℝ}
    (ht : t = fl (fl (α1 - α2) / 2)) (hβ : β = fl (fl (α1 + α2) / 2)) (hr : 1 ≤ c.radius) (hx : |c.center.x| ≤ R) (hy : |c.center.y| ≤ R)
    (hmod : pyModF (fl (α1 - α2)) piF ≠ 0) (htan : 1 / 2 ^ 200 ≤ |Real.tan t|) :
    ∃ o : Circle, c.orthogonalOnF M tanF α1 α2 = .ok (.circle o) ∧ 0 < o.radius ∧
      |sqDist c.center o.center - (c.radius ^ 2 + o.radius ^ 2)| ≤ 67 / 2 ^ 53 * (c.radius / |Real.cos t| + R) ^ 2 ∧
      ∀ σ : ℝ, (σ = 1 ∨ σ = -1) →
        |sqDist ⟨c.center.x + c.radius * Real.cos (β + σ * t), c.center.y + c.radius * Real.sin (β + σ * t)⟩ o.center - o.radius ^ 2| ≤
          100 / 2 ^ 53 * (c.radius / |Real.cos t| + R) ^ 2 := by
  have hc : Real.cos t ≠ 0 := by
    intro h
    rw [tan_eq_sin_div_cos, h, div_zero, abs_zero] at htan
    norm_num at htan
  obtain ⟨hn, hio, hm⟩ := FOO.IO_apx hM hr hc
  have hrad := FOO.radius_apx hM hr hc
  have R0 : 0 ≤ R := (abs_nonneg _).trans hx
  have hX := FOO.center_apx hio hm hx (abs_cos_le_one β) ((hM.cos β).trans (mul_le_of_le_one_right (by norm_num) (abs_cos_le_one β)))
  have hY := FOO.center_apx hio hm hy (abs_sin_le_one β) (hM.sin β)
  have r0 : 0 < fl (c.radius * |tanF t|) := by
    have h1 := hM.tan t
    have h2 := abs_sub_abs_le_abs_sub (Real.tan t) (tanF t)
    rw [abs_sub_comm (Real.tan t)] at h2
    have h3 : (2 : ℝ) ^ (-201 : ℤ) ≤ |tanF t| := by
      have : (2 : ℝ) ^ (-201 : ℤ) = 1 / 2 ^ 200 * (1 / 2) := by norm_num [zpow_neg]
      rw [this]
      have h4 : 4 / 2 ^ 53 * |Real.tan t| ≤ 1 / 2 * |Real.tan t| := mul_le_mul_of_nonneg_right (by norm_num) (abs_nonneg _)
      linarith
    have h5 : (2 : ℝ) ^ (-201 : ℤ) ≤ c.radius * |tanF t| := h3.trans (le_mul_of_one_le_left (abs_nonneg _) hr)
    exact lt_of_lt_of_le (by positivity) (FH.ge_pow (-201) (by norm_num) h5)
  refine ⟨⟨⟨fl (c.center.x + fl (fl (c.radius / M.cos t) * M.cos β)), fl (c.center.y + fl (fl (c.radius / M.cos t) * M.sin β))⟩,
    fl (c.radius * |tanF t|)⟩, ?_, r0, ?_, ?_⟩
  · unfold Circle.orthogonalOnF mkCircleF
    dsimp only
    rw [if_neg hmod, ← ht, ← hβ, if_neg hn, if_neg (not_le.2 r0)]
    rfl
  all_goals
    generalize fl (c.center.x + fl (fl (c.radius / M.cos t) * M.cos β)) = X at *
    generalize fl (c.center.y + fl (fl (c.radius / M.cos t) * M.sin β)) = Y at *
    generalize fl (c.radius * |tanF t|) = ρ at *
    have hm0 : c.radius / |Real.cos t| ≤ c.radius / |Real.cos t| + R := by linarith
    have hS : 1 ≤ c.radius / |Real.cos t| + R := by linarith
    have hρ := hrad.mono (e' := 502 / 100) le_rfl (by norm_num) hm0
    have hrS : |c.radius| ≤ c.radius / |Real.cos t| + R := by
      rw [abs_of_pos (by linarith)]
      refine le_trans ?_ hm0
      rw [le_div_iff₀ (abs_pos.2 hc)]
      exact mul_le_of_le_one_right (by linarith) (abs_cos_le_one t)
    have etan : (c.radius / Real.cos t) ^ 2 = c.radius ^ 2 + (c.radius * |Real.tan t|) ^ 2 := by
      rw [mul_pow, sq_abs, tan_eq_sin_div_cos]
      have := sin_sq_add_cos_sq t
      field_simp
      linarith
    generalize c.radius / |Real.cos t| + R = S at *
  · have xx := hX.mul (e3 := 2217 / 100) hX (by norm_num) (by norm_num) (by norm_num) (by norm_num) (by norm_num)
    have yy := hY.mul (e3 := 2217 / 100) hY (by norm_num) (by norm_num) (by norm_num) (by norm_num) (by norm_num)
    have rr := hρ.mul (e3 := 2217 / 100) hρ (by norm_num) (by norm_num) (by norm_num) (by norm_num) (by norm_num)
    have f := ((xx.add yy).sub rr).1
    have e1 : sqDist c.center ⟨X, Y⟩ - (c.radius ^ 2 + ρ ^ 2) = (X - c.center.x) * (X - c.center.x) + (Y - c.center.y) * (Y - c.center.y) - ρ * ρ -
        (c.radius / Real.cos t * Real.cos β * (c.radius / Real.cos t * Real.cos β) + c.radius / Real.cos t * Real.sin β *
          (c.radius / Real.cos t * Real.sin β) - c.radius * |Real.tan t| * (c.radius * |Real.tan t|)) := by
      unfold sqDist
      simp only
      have := sin_sq_add_cos_sq β
      linear_combination etan + (c.radius / Real.cos t) ^ 2 * this
    rw [e1]
    refine f.trans ?_
    rw [sq]
    nlinarith [mul_self_nonneg S]
  · intro σ hσ
    have ex : ∀ w, |w| ≤ 1 → |c.radius * w| ≤ S := fun w hw => by
      rw [abs_mul]; exact (mul_le_of_le_one_right (abs_nonneg _) hw).trans hrS
    have dx := FOO.shift hX (ex _ (abs_cos_le_one (β + σ * t)))
    have dy := FOO.shift hY (ex _ (abs_sin_le_one (β + σ * t)))
    have xx := dx.mul (e3 := 1109 / 100) dx (by norm_num) (by norm_num) (by norm_num) (by norm_num) (by norm_num)
    have yy := dy.mul (e3 := 1109 / 100) dy (by norm_num) (by norm_num) (by norm_num) (by norm_num) (by norm_num)
    have rr := hρ.mul (e3 := 1109 / 100) hρ (by norm_num) (by norm_num) (by norm_num) (by norm_num) (by norm_num)
    have f := ((xx.add yy).sub rr).1
    have ecos : Real.cos β * Real.cos (β + σ * t) + Real.sin β * Real.sin (β + σ * t) = Real.cos t := by
      rw [← cos_sub]
      rcases hσ with rfl | rfl
      · rw [show β - (β + 1 * t) = -t by ring, cos_neg]
      · rw [show β - (β + -1 * t) = t by ring]
    have e1 : sqDist ⟨c.center.x + c.radius * Real.cos (β + σ * t), c.center.y + c.radius * Real.sin (β + σ * t)⟩ ⟨X, Y⟩ - ρ ^ 2 =
        (X - c.center.x - c.radius * Real.cos (β + σ * t)) * (X - c.center.x - c.radius * Real.cos (β + σ * t)) +
        (Y - c.center.y - c.radius * Real.sin (β + σ * t)) * (Y - c.center.y - c.radius * Real.sin (β + σ * t)) - ρ * ρ -
        ((c.radius / Real.cos t * Real.cos β - c.radius * Real.cos (β + σ * t)) * (c.radius / Real.cos t * Real.cos β - c.radius * Real.cos (β + σ * t)) +
        (c.radius / Real.cos t * Real.sin β - c.radius * Real.sin (β + σ * t)) * (c.radius / Real.cos t * Real.sin β - c.radius * Real.sin (β + σ * t)) -
        c.radius * |Real.tan t| * (c.radius * |Real.tan t|)) := by
      unfold sqDist
      simp only
      have h1 := sin_sq_add_cos_sq β
      have h2 := sin_sq_add_cos_sq (β + σ * t)
      have h3 : c.radius / Real.cos t * Real.cos t = c.radius := by field_simp
      generalize Real.cos (β + σ * t) = C at *
      generalize Real.sin (β + σ * t) = D at *
      generalize c.radius / Real.cos t = q at *
      linear_combination etan + q ^ 2 * h1 + c.radius ^ 2 * h2 - 2 * q * c.radius * ecos - 2 * c.radius * h3
    rw [e1]
    refine f.trans ?_
    rw [sq]
    nlinarith [mul_self_nonneg S]

/-- **C138, angles.** The angles `β + t` and `β - t` of `C138_orthogonal` are the given angles up to rounding. -/
theorem C138_angles (α1 α2 : ℝ) :
    |fl (fl (α1 + α2) / 2) + fl (fl (α1 - α2) / 2) - α1| ≤ 3 / 2 ^ 53 * (|α1| + |α2|) + 1 / 2 ^ 150 ∧
    |fl (fl (α1 + α2) / 2) - fl (fl (α1 - α2) / 2) - α2| ≤ 3 / 2 ^ 53 * (|α1| + |α2|) + 1 / 2 ^ 150 := by
  have half : ∀ s : ℝ, |fl (fl s / 2) - s / 2| ≤ 101 / 100 / 2 ^ 53 * |s| + 1 / 2 ^ 160 := by
    intro s
    have h1 := FG.fl_err' s
    have h2 := FG.fl_err' (fl s / 2)
    have h3 := FI.tiny_small
    have h4 : |fl s| ≤ |s| + |fl s - s| := by
      have := abs_sub_abs_le_abs_sub (fl s) s
      linarith
    rw [abs_div, abs_two] at h2
    have h5 : |fl (fl s / 2) - s / 2| ≤ |fl (fl s / 2) - fl s / 2| + |fl s - s| / 2 := by
      have : fl (fl s / 2) - s / 2 = (fl (fl s / 2) - fl s / 2) + (fl s - s) / 2 := by ring
      rw [this]
      refine (abs_add_le _ _).trans (le_of_eq ?_)
      rw [abs_div, abs_two]
    have h6 := abs_nonneg s
    generalize |fl (fl s / 2) - s / 2| = A at *
    generalize |fl (fl s / 2) - fl s / 2| = B at *
    generalize |fl s - s| = C at *
    generalize |fl s| = D at *
    generalize |s| = E at *
    clear * - h1 h2 h3 h4 h5 h6
    norm_num at *
    linarith
  have a1 := half (α1 + α2)
  have a2 := half (α1 - α2)
  have b1 : |α1 + α2| ≤ |α1| + |α2| := abs_add_le _ _
  have b2 : |α1 - α2| ≤ |α1| + |α2| := abs_sub _ _
  have e1 : fl (fl (α1 + α2) / 2) + fl (fl (α1 - α2) / 2) - α1 = (fl (fl (α1 + α2) / 2) - (α1 + α2) / 2) + (fl (fl (α1 - α2) / 2) - (α1 - α2) / 2) := by ring
  have e2 : fl (fl (α1 + α2) / 2) - fl (fl (α1 - α2) / 2) - α2 = (fl (fl (α1 + α2) / 2) - (α1 + α2) / 2) - (fl (fl (α1 - α2) / 2) - (α1 - α2) / 2) := by ring
  have s0 : 0 ≤ |α1| + |α2| := by positivity
  rw [e1, e2]
  constructor
  · refine (abs_add_le _ _).trans ?_
    generalize |fl (fl (α1 + α2) / 2) - (α1 + α2) / 2| = A at *
    generalize |fl (fl (α1 - α2) / 2) - (α1 - α2) / 2| = B at *
    generalize |α1 + α2| = C at *
    generalize |α1 - α2| = D at *
    generalize |α1| + |α2| = E at *
    clear * - a1 a2 b1 b2 s0
    norm_num at *
    linarith
  · refine (abs_sub _ _).trans ?_
    generalize |fl (fl (α1 + α2) / 2) - (α1 + α2) / 2| = A at *
    generalize |fl (fl (α1 - α2) / 2) - (α1 - α2) / 2| = B at *
    generalize |α1 + α2| = C at *
    generalize |α1 - α2| = D at *
    generalize |α1| + |α2| = E at *
    clear * - a1 a2 b1 b2 s0
    norm_num at *
    linarith

/-- The half sum and half difference of `1/10` and `1/5` give the angles back up to `2 ^ -53`. -/
example : |fl (fl (1 / 10 + 1 / 5) / 2) + fl (fl (1 / 10 - 1 / 5) / 2) - 1 / 10| ≤ 1 / 2 ^ 53 := by
  refine (C138_angles (1 / 10) (1 / 5)).1.trans ?_
  rw [abs_of_pos (by norm_num : (0 : ℝ) < 1 / 10), abs_of_pos (by norm_num : (0 : ℝ) < 1 / 5)]
  norm_num

theorem FOO.piF_eq : piF = 7074237752028440 / 2 ^ 51 := by
  have h1 := pi_gt_d20
  have h2 := pi_lt_d20
  unfold piF
  rw [fl_eval (e := -51) (n := 7074237752028440) (by norm_num)]
  · norm_num
  · rw [abs_of_pos pi_pos]; norm_num; linarith
  · rw [abs_of_pos pi_pos]; norm_num; linarith
  · rw [abs_lt]; constructor <;> norm_num at * <;> linarith

/-- **C138, opposite points (counterexample).** For the unit circle and the angles `7 π / 4` and `7 π / 4 + π`, two opposite points, the method returns
in exact arithmetic the diameter. With the angles of double precision `a = 7*pi/4` and `a + pi` the remainder of the difference modulo `math.pi` is
`2 ^ -50` and not 0, and the method returns a circle whose radius is greater than `2 ^ 46`. -/
theorem C138_opposite_counterexample {M : MathLib} {tanF : ℝ → ℝ} (hM : FOO.Accurate M tanF) :
    (∃ l, (⟨⟨0, 0⟩, 1⟩ : Circle).orthogonal_through_two_points_on_circle (7 * π / 4) (7 * π / 4 + π) = .ok (.line l)) ∧
    (∃ o : Circle, (⟨⟨0, 0⟩, 1⟩ : Circle).orthogonalOnF M tanF (fl (fl (7 * piF) / 4)) (fl (fl (fl (7 * piF) / 4) + piF)) = .ok (.circle o) ∧
      2 ^ 46 ≤ o.radius) := by
  constructor
  · have e : pyMod (7 * π / 4 - (7 * π / 4 + π)) π = 0 := by
      have : (7 * π / 4 - (7 * π / 4 + π)) / π = ((-1 : ℤ) : ℝ) := by field_simp; norm_num
      unfold pyMod
      rw [this, Int.floor_intCast]
      push_cast
      ring
    have hc : (unit_vector_ (7 * π / 4)).x = √2 / 2 := by
      unfold unit_vector_
      simp only
      rw [show 7 * π / 4 = 2 * π - π / 4 by ring, cos_two_pi_sub, cos_pi_div_four]
    have hl : ¬ allclose ((⟨0, 0⟩ : Pt) + (1 : ℝ) • unit_vector_ (7 * π / 4)) ((⟨0, 0⟩ : Pt) - (1 : ℝ) • unit_vector_ (7 * π / 4)) := by
      intro h
      have h1 := h.1
      unfold npClose at h1
      simp only [Pt.add_x, Pt.sub_x, Pt.smul_x, hc, zero_add, zero_sub, one_mul] at h1
      have s1 : 1 ≤ √2 := by rw [Real.le_sqrt' (by norm_num)]; norm_num
      have s2 : √2 ≤ 2 := by rw [Real.sqrt_le_left (by norm_num)]; norm_num
      rw [abs_neg, abs_of_pos (by positivity : 0 < √2 / 2), abs_of_pos (by linarith)] at h1
      norm_num at h1
      linarith
    refine ⟨⟨(⟨0, 0⟩ : Pt) + (1 : ℝ) • unit_vector_ (7 * π / 4), (⟨0, 0⟩ : Pt) - (1 : ℝ) • unit_vector_ (7 * π / 4), true, true⟩, ?_⟩
    unfold Circle.orthogonal_through_two_points_on_circle mkLine
    dsimp only
    rw [if_pos e, if_neg hl]
    rfl
  · have v1 : fl (7 * (7074237752028440 / 2 ^ 51)) = 6189958033024885 / 2 ^ 48 :=
      (FH.dbl (x := 7 * (7074237752028440 / 2 ^ 51)) 6189958033024885 (-48) (by norm_num) (by norm_num) (by norm_num)).trans (by norm_num)
    have v2 : fl (6189958033024885 / 2 ^ 48 / 4) = 6189958033024885 / 2 ^ 50 :=
      (FH.dbl (x := 6189958033024885 / 2 ^ 48 / 4) 6189958033024885 (-50) (by norm_num) (by norm_num) (by norm_num)).trans (by norm_num)
    have v3 : fl (6189958033024885 / 2 ^ 50 + 7074237752028440 / 2 ^ 51) = 4863538454519552 / 2 ^ 49 := by
      rw [FH.fl_tie (e := -49) (n := 4863538454519552) (by norm_num) (by norm_num [abs_of_pos]) (by norm_num [abs_of_pos]) (by decide) (by norm_num)]
      norm_num
    have v4 : fl (6189958033024885 / 2 ^ 50 - 4863538454519552 / 2 ^ 49) = -(7074237752028438 / 2 ^ 51) :=
      (FH.dbl (x := 6189958033024885 / 2 ^ 50 - 4863538454519552 / 2 ^ 49) (-7074237752028438) (-51) (by norm_num) (by norm_num) (by norm_num)).trans
        (by norm_num)
    have v5 : fl (-(7074237752028438 / 2 ^ 51) + 7074237752028440 / 2 ^ 51) = 1 / 2 ^ 50 :=
      (FH.dbl (x := -(7074237752028438 / 2 ^ 51) + 7074237752028440 / 2 ^ 51) 1 (-50) (by norm_num) (by norm_num) (by norm_num)).trans (by norm_num)
    have v6 : fl (-(7074237752028438 / 2 ^ 51) / 2) = -(7074237752028438 / 2 ^ 52) :=
      (FH.dbl (x := -(7074237752028438 / 2 ^ 51) / 2) (-7074237752028438) (-52) (by norm_num) (by norm_num) (by norm_num)).trans (by norm_num)
    obtain ⟨x, hx⟩ : ∃ x, x = π / 2 - 7074237752028438 / 2 ^ 52 := ⟨_, rfl⟩
    have h1 := pi_gt_d20
    have h2 := pi_lt_d20
    have x0 : 0 < x := by rw [hx]; norm_num at *; linarith
    have x1 : x ≤ 1 / 2 ^ 49 := by rw [hx]; norm_num at *; linarith
    have et : -(7074237752028438 / 2 ^ 52) = x - π / 2 := by rw [hx]; ring
    have sx : 0 < Real.sin x := sin_pos_of_pos_of_lt_pi x0 (by linarith [pi_gt_three, show (1 : ℝ) / 2 ^ 49 < 1 by norm_num])
    have sx' := sin_le x0.le
    have cx : 1 / 2 ≤ Real.cos x := by
      have := one_sub_sq_div_two_le_cos (x := x)
      have : x ^ 2 ≤ 1 := pow_le_one₀ x0.le (x1.trans (by norm_num))
      linarith
    have hcos : Real.cos (x - π / 2) ≠ 0 := by rw [cos_sub_pi_div_two]; exact sx.ne'
    have htan : 2 ^ 48 ≤ |Real.tan (x - π / 2)| := by
      rw [tan_eq_sin_div_cos, cos_sub_pi_div_two, sin_sub_pi_div_two, abs_div, abs_neg, abs_of_pos sx, abs_of_pos (by linarith), le_div_iff₀ sx]
      have : (2 : ℝ) ^ 48 * Real.sin x ≤ 2 ^ 48 * (1 / 2 ^ 49) := mul_le_mul_of_nonneg_left (sx'.trans x1) (by norm_num)
      norm_num at this ⊢
      linarith
    obtain ⟨hn, -, -⟩ := FOO.IO_apx hM (r := 1) le_rfl hcos
    have htF : (2 : ℝ) ^ (46 : ℤ) ≤ 1 * |tanF (x - π / 2)| := by
      have h3 := hM.tan (x - π / 2)
      have h4 := abs_sub_abs_le_abs_sub (Real.tan (x - π / 2)) (tanF (x - π / 2))
      rw [abs_sub_comm (Real.tan (x - π / 2))] at h4
      rw [one_mul]
      generalize |Real.tan (x - π / 2)| = a at *
      generalize |tanF (x - π / 2)| = b at *
      generalize |tanF (x - π / 2) - Real.tan (x - π / 2)| = d at *
      clear * - h3 h4 htan
      norm_num at *
      linarith
    have hr0 := FH.ge_pow 46 (by norm_num) htF
    have hr0' : (2 : ℝ) ^ 46 ≤ fl (1 * |tanF (x - π / 2)|) := by exact_mod_cast hr0
    have hmod : pyModF (-(7074237752028438 / 2 ^ 51)) piF = 1 / 2 ^ 50 := by
      rw [FLE.mod_neg (by norm_num) (by rw [FOO.piF_eq]; norm_num), FOO.piF_eq, v5]
    rw [FOO.piF_eq, v1, v2, v3]
    have : ∃ P : Pt, (⟨⟨0, 0⟩, 1⟩ : Circle).orthogonalOnF M tanF (6189958033024885 / 2 ^ 50) (4863538454519552 / 2 ^ 49) =
        .ok (.circle ⟨P, fl (1 * |tanF (x - π / 2)|)⟩) := by
      unfold Circle.orthogonalOnF mkCircleF
      dsimp only
      rw [v4, hmod, if_neg (by norm_num), v6, et, if_neg hn, if_neg (not_le.2 (lt_of_lt_of_le (by norm_num) hr0'))]
      exact ⟨_, rfl⟩
    obtain ⟨P, hP⟩ := this
    exact ⟨_, hP, hr0'⟩

/-- Exact functions are accurate. -/
example : FOO.Accurate ⟨atan2, Real.cos, Real.sin⟩ Real.tan :=
  ⟨fun t => by simp, fun t => by norm_num, fun t => by simp⟩

/-- The unit circle and the angles 2 and 1: orthogonal up to `2 ^ -46`. -/
example {M : MathLib} {tanF : ℝ → ℝ} (hM : FOO.Accurate M tanF) :
    ∃ o : Circle, (⟨⟨0, 0⟩, 1⟩ : Circle).orthogonalOnF M tanF 2 1 = .ok (.circle o) ∧
      |sqDist ⟨0, 0⟩ o.center - (1 + o.radius ^ 2)| ≤ 1 / 2 ^ 45 := by
  have d1 : fl (2 - 1) = 1 := (FH.dbl (x := 2 - 1) 1 0 (by norm_num) (by norm_num) (by norm_num)).trans (by norm_num)
  have d2 : fl (1 / 2) = 1 / 2 := FH.dbl (x := 1 / 2) 1 (-1) (by norm_num) (by norm_num) (by norm_num)
  have c1 : 7 / 8 ≤ Real.cos (1 / 2) := by
    have := one_sub_sq_div_two_le_cos (x := 1 / 2)
    norm_num at this ⊢
    linarith
  have c2 := cos_le_one (1 / 2)
  have s1 : 1 / 4 ≤ Real.sin (1 / 2) := by
    have := sin_gt_sub_cube (x := 1 / 2) (by norm_num)
    norm_num at this ⊢
    linarith
  have ht : 1 / 2 ^ 200 ≤ |Real.tan (fl (fl (2 - 1) / 2))| := by
    rw [d1, d2, tan_eq_sin_div_cos, abs_of_pos (div_pos (by linarith) (by linarith)), le_div_iff₀ (by linarith)]
    have : 1 / 2 ^ 200 * Real.cos (1 / 2) ≤ 1 / 2 ^ 200 * 1 := mul_le_mul_of_nonneg_left c2 (by norm_num)
    refine this.trans (le_trans (by norm_num) s1)
  obtain ⟨o, h1, -, h2, -⟩ := C138_orthogonal hM ⟨⟨0, 0⟩, 1⟩ 2 1 (R := 0) rfl rfl (by norm_num) (by norm_num) (by norm_num)
    (by rw [d1, FLE.mod_small (by norm_num) (by rw [FOO.piF_eq]; norm_num)]; norm_num) ht
  refine ⟨o, h1, ?_⟩
  rw [d1, d2, abs_of_pos (by linarith : 0 < Real.cos (1 / 2)), add_zero] at h2
  simp only [one_pow] at h2
  refine h2.trans ?_
  have h3 : 1 / Real.cos (1 / 2) ≤ 8 / 7 := by rw [div_le_div_iff₀ (by linarith) (by norm_num)]; linarith
  have h4 : (1 / Real.cos (1 / 2)) ^ 2 ≤ (8 / 7) ^ 2 := pow_le_pow_left₀ (by positivity) h3 2
  have h5 := mul_le_mul_of_nonneg_left h4 (show (0 : ℝ) ≤ 67 / 2 ^ 53 by norm_num)
  refine h5.trans (by norm_num)
