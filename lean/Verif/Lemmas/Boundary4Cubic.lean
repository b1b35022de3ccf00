import Verif.Spec.Plane
import Mathlib.Analysis.Calculus.Deriv.MeanValue
import Mathlib.Analysis.Calculus.Deriv.Pow
import Mathlib.Analysis.Calculus.Deriv.Inv
import Mathlib.Topology.Order.IntermediateValue
import Mathlib.Topology.Algebra.Polynomial

/-!
# The cubic equation of `from_boundary4`

The conics through the points `(-a0, 0)`, `(0, a1)`, `(a2, 0)`, `(0, -a3)` with `a0 a2 = a1 a3 = p` that are ellipses are
`x^2 + 2 s x y + y^2 - M x - M' y - p = 0` with `-1 < s < 1`, `M = a2 - a0`, `M' = a1 - a3`.
-/

namespace Boundary4
noncomputable section

/-- The cubic polynomial, up to the factor `a1 ^ 2`. -/
def cubic (p M M' s : ℝ) : ℝ := -4 * p * s ^ 3 - 4 * (M * M') * s ^ 2 + (4 * p + 3 * (M ^ 2 + M' ^ 2)) * s - 2 * (M * M')

/-- `4 (1 - s^2)` times the squared radius. -/
def num (p M M' s : ℝ) : ℝ := 4 * p * (1 - s ^ 2) + M ^ 2 + M' ^ 2 - 2 * s * (M * M')

theorem num_pos {p M M' s : ℝ} (hp : 0 < p) (h1 : -1 < s) (h2 : s < 1) : 0 < num p M M' s := by
  unfold num
  have h3 : 0 < 1 - s ^ 2 := by nlinarith
  have h4 : 0 < p * (1 - s ^ 2) := mul_pos hp h3
  have h5 : 0 ≤ (1 + s) * (M - M') ^ 2 := mul_nonneg (by linarith) (sq_nonneg _)
  have h6 : 0 ≤ (1 - s) * (M + M') ^ 2 := mul_nonneg (by linarith) (sq_nonneg _)
  nlinarith

/-- The other factor of the cubic at a root `r`. -/
def quot (p M M' r s : ℝ) : ℝ :=
  -4 * p * s ^ 2 - (4 * (M * M') + 4 * p * r) * s + (4 * p + 3 * (M ^ 2 + M' ^ 2) - 4 * (M * M') * r - 4 * p * r ^ 2)

theorem cubic_factor {p M M' r : ℝ} (hr : cubic p M M' r = 0) (s : ℝ) :
    cubic p M M' s = (s - r) * quot p M M' r s := by
  unfold cubic at hr
  unfold cubic quot
  linear_combination hr

theorem quot_pos {p M M' r s : ℝ} (hp : 0 < p) (hr : cubic p M M' r = 0) (h1 : -1 < r) (h2 : r < 1) (h3 : -1 < s)
    (h4 : s < 1) : 0 < quot p M M' r s := by
  have e1 := cubic_factor hr 1
  have e2 := cubic_factor hr (-1)
  have k1 : 0 ≤ quot p M M' r 1 := by
    have : 0 ≤ (1 - r) * quot p M M' r 1 := by
      rw [← e1]
      have : cubic p M M' 1 = 3 * (M - M') ^ 2 := by unfold cubic; ring
      rw [this]; positivity
    exact nonneg_of_mul_nonneg_right this (by linarith)
  have k2 : 0 ≤ quot p M M' r (-1) := by
    have : 0 ≤ (1 + r) * quot p M M' r (-1) := by
      have h : cubic p M M' (-1) = -(3 * (M + M') ^ 2) := by unfold cubic; ring
      have : (1 + r) * quot p M M' r (-1) = 3 * (M + M') ^ 2 := by linear_combination e2 - h
      rw [this]; positivity
    exact nonneg_of_mul_nonneg_right this (by linarith)
  have e3 : quot p M M' r s = (1 + s) / 2 * quot p M M' r 1 + (1 - s) / 2 * quot p M M' r (-1) + 4 * p * (1 - s ^ 2) := by
    unfold quot; ring
  rw [e3]
  have k3 : 0 < 1 - s ^ 2 := by nlinarith
  have k4 : 0 ≤ (1 + s) / 2 * quot p M M' r 1 := mul_nonneg (by linarith) k1
  have k5 : 0 ≤ (1 - s) / 2 * quot p M M' r (-1) := mul_nonneg (by linarith) k2
  have k6 : 0 < 4 * p * (1 - s ^ 2) := by positivity
  linarith

/-- Exactly one root in the open interval. -/
theorem cubic_unique {p M M' r s : ℝ} (hp : 0 < p) (hr : cubic p M M' r = 0) (h1 : -1 < r) (h2 : r < 1) (h3 : -1 < s)
    (h4 : s < 1) (hs : cubic p M M' s = 0) : s = r := by
  rw [cubic_factor hr] at hs
  rcases mul_eq_zero.1 hs with h | h
  · linarith
  · exact absurd h (quot_pos hp hr h1 h2 h3 h4).ne'

theorem cubic_continuous (p M M' : ℝ) : Continuous (cubic p M M') := by unfold cubic; fun_prop

theorem cubic_root (p M M' : ℝ) (hp : 0 < p) : ∃ r, -1 < r ∧ r < 1 ∧ cubic p M M' r = 0 := by
  have e1 : cubic p M M' 1 = 3 * (M - M') ^ 2 := by unfold cubic; ring
  have e2 : cubic p M M' (-1) = -(3 * (M + M') ^ 2) := by unfold cubic; ring
  by_cases h1 : M = M'
  · subst h1
    have hc : ContinuousOn (fun s : ℝ => 4 * p * s ^ 2 + (4 * p + 4 * M ^ 2) * s - 2 * M ^ 2) (Set.Icc 0 1) := by fun_prop
    have := intermediate_value_Icc (by norm_num : (0 : ℝ) ≤ 1) hc
    obtain ⟨r, ⟨hr0, hr1⟩, hr⟩ := this (show (0 : ℝ) ∈ Set.Icc _ _ from ⟨by nlinarith [sq_nonneg M], by nlinarith [sq_nonneg M]⟩)
    dsimp only at hr
    refine ⟨r, by linarith, lt_of_le_of_ne hr1 ?_, ?_⟩
    · rintro rfl
      nlinarith [sq_nonneg M]
    · unfold cubic
      linear_combination (1 - r) * hr
  by_cases h2 : M = -M'
  · have hM' : M' = -M := by linarith
    subst hM'
    have hc : ContinuousOn (fun s : ℝ => 4 * p * s ^ 2 + (4 * p + 4 * M ^ 2) * s - 2 * M ^ 2) (Set.Icc 0 1) := by fun_prop
    have := intermediate_value_Icc (by norm_num : (0 : ℝ) ≤ 1) hc
    obtain ⟨r, ⟨hr0, hr1⟩, hr⟩ := this (show (0 : ℝ) ∈ Set.Icc _ _ from ⟨by nlinarith [sq_nonneg M], by nlinarith [sq_nonneg M]⟩)
    dsimp only at hr
    have hr1' : r < 1 := by
      refine lt_of_le_of_ne hr1 ?_
      rintro rfl
      nlinarith [sq_nonneg M]
    refine ⟨-r, by linarith, by linarith, ?_⟩
    unfold cubic
    linear_combination (-(1 - r)) * hr
  · have k1 : 0 < (M - M') ^ 2 := by
      have : M - M' ≠ 0 := sub_ne_zero.2 h1
      positivity
    have k2 : 0 < (M + M') ^ 2 := by
      have : M + M' ≠ 0 := fun h => h2 (by linarith)
      positivity
    obtain ⟨r, ⟨hr0, hr1⟩, hr⟩ := intermediate_value_Ioo (by norm_num : (-1 : ℝ) ≤ 1) (cubic_continuous p M M').continuousOn
      (show (0 : ℝ) ∈ Set.Ioo _ _ from ⟨by rw [e2]; linarith, by rw [e1]; linarith⟩)
    exact ⟨r, hr0, hr1, hr⟩

/-- The square of the area, up to a constant factor. -/
def areaSq (p M M' s : ℝ) : ℝ := num p M M' s ^ 2 / (1 - s ^ 2) ^ 3

theorem areaSq_deriv {p M M' s : ℝ} (h1 : -1 < s) (h2 : s < 1) :
    HasDerivAt (areaSq p M M') (2 * num p M M' s * cubic p M M' s / (1 - s ^ 2) ^ 4) s := by
  have h3 : (1 - s ^ 2) ≠ 0 := by nlinarith
  have d1 : HasDerivAt (num p M M') (-8 * p * s - 2 * (M * M')) s := by
    have e : num p M M' = fun s => -4 * p * s ^ 2 + (-2 * (M * M')) * s + (4 * p + M ^ 2 + M' ^ 2) := by
      funext s; unfold num; ring
    rw [e]
    have k := ((((hasDerivAt_id s).pow 2).const_mul (-4 * p)).add ((hasDerivAt_id s).const_mul (-2 * (M * M')))).add_const
      (4 * p + M ^ 2 + M' ^ 2)
    refine HasDerivAt.congr_deriv k ?_
    simp only [id, Nat.cast_ofNat]
    norm_num
    ring
  have d2 : HasDerivAt (fun s : ℝ => (1 - s ^ 2) ^ 3) (3 * (1 - s ^ 2) ^ 2 * (-2 * s)) s := by
    have k := (((hasDerivAt_id s).pow 2).const_sub 1).pow 3
    refine HasDerivAt.congr_deriv k ?_
    simp
  have d3 := (d1.pow 2).div d2 (pow_ne_zero 3 h3)
  have e : areaSq p M M' = (num p M M' ^ 2) / (fun s : ℝ => (1 - s ^ 2) ^ 3) := by
    funext s; rfl
  rw [e]
  refine HasDerivAt.congr_deriv d3 ?_
  symm
  simp only [Pi.pow_apply]
  rw [div_eq_div_iff (pow_ne_zero 4 h3) (pow_ne_zero 2 (pow_ne_zero 3 h3))]
  have e2 : cubic p M M' s = (-8 * p * s - 2 * (M * M')) * (1 - s ^ 2) + 3 * s * num p M M' s := by
    unfold cubic num; ring
  rw [e2]
  push_cast
  ring

/-- The root of the cubic is the only minimiser of the area. -/
theorem areaSq_min {p M M' r s : ℝ} (hp : 0 < p) (hr : cubic p M M' r = 0) (h1 : -1 < r) (h2 : r < 1) (h3 : -1 < s)
    (h4 : s < 1) (hne : s ≠ r) : areaSq p M M' r < areaSq p M M' s := by
  rcases lt_or_gt_of_ne hne with h | h
  · have hanti : StrictAntiOn (areaSq p M M') (Set.Icc s r) := by
      apply strictAntiOn_of_deriv_neg (convex_Icc s r)
      · intro x hx
        exact (areaSq_deriv (lt_of_lt_of_le h3 hx.1) (lt_of_le_of_lt hx.2 h2)).continuousAt.continuousWithinAt
      · intro x hx
        rw [interior_Icc] at hx
        have k1 : -1 < x := h3.trans hx.1
        have k2 : x < 1 := hx.2.trans h2
        rw [(areaSq_deriv k1 k2).deriv, cubic_factor hr]
        have k3 := num_pos (M := M) (M' := M') hp k1 k2
        have k4 := quot_pos hp hr h1 h2 k1 k2
        have k5 : 0 < 1 - x ^ 2 := by nlinarith
        have k6 : x - r < 0 := by linarith [hx.2]
        apply div_neg_of_neg_of_pos _ (by positivity)
        exact mul_neg_of_pos_of_neg (by positivity) (mul_neg_of_neg_of_pos k6 k4)
    exact hanti ⟨le_refl _, h.le⟩ ⟨h.le, le_refl _⟩ h
  · have hmono : StrictMonoOn (areaSq p M M') (Set.Icc r s) := by
      apply strictMonoOn_of_deriv_pos (convex_Icc r s)
      · intro x hx
        exact (areaSq_deriv (lt_of_lt_of_le h1 hx.1) (lt_of_le_of_lt hx.2 h4)).continuousAt.continuousWithinAt
      · intro x hx
        rw [interior_Icc] at hx
        have k1 : -1 < x := h1.trans hx.1
        have k2 : x < 1 := hx.2.trans h4
        rw [(areaSq_deriv k1 k2).deriv, cubic_factor hr]
        have k3 := num_pos (M := M) (M' := M') hp k1 k2
        have k4 := quot_pos hp hr h1 h2 k1 k2
        have k5 : 0 < 1 - x ^ 2 := by nlinarith
        have k6 : 0 < x - r := by linarith [hx.1]
        positivity
    exact hmono ⟨le_refl _, h.le⟩ ⟨h.le, le_refl _⟩ h

/-- The complex roots of the cubic are real. -/
theorem cubic_real {p M M' r : ℝ} (hp : 0 < p) (hr : cubic p M M' r = 0) (h1 : -1 < r) (h2 : r < 1) {z : ℂ}
    (hz : -4 * (p : ℂ) * z ^ 3 - 4 * (M * M') * z ^ 2 + (4 * p + 3 * (M ^ 2 + M' ^ 2)) * z - 2 * (M * M') = 0) :
    z.im = 0 := by
  have hrC : -4 * (p : ℂ) * r ^ 3 - 4 * (M * M') * r ^ 2 + (4 * p + 3 * (M ^ 2 + M' ^ 2)) * r - 2 * (M * M') = 0 := by
    have : ((cubic p M M' r : ℝ) : ℂ) = 0 := by rw [hr]; simp
    unfold cubic at this
    push_cast at this
    exact this
  have hf : (z - r) * (-4 * (p : ℂ) * z ^ 2 - (4 * (M * M') + 4 * p * r) * z +
      (4 * p + 3 * (M ^ 2 + M' ^ 2) - 4 * (M * M') * r - 4 * p * r ^ 2)) = 0 := by
    linear_combination hz - hrC
  rcases mul_eq_zero.1 hf with h | h
  · have : z = r := by linear_combination h
    rw [this]; simp
  · have q0 := quot_pos hp hr h1 h2 (show (-1 : ℝ) < 0 by norm_num) one_pos
    unfold quot at q0
    have hre := congrArg Complex.re h
    have him := congrArg Complex.im h
    simp [pow_two] at hre him
    by_contra hne
    have k1 : -8 * p * z.re = 4 * (M * M') + 4 * p * r := by
      apply mul_right_cancel₀ hne
      linear_combination him
    have k2 : 4 * p * (z.re ^ 2 + z.im ^ 2) + (4 * p + 3 * (M ^ 2 + M' ^ 2) - 4 * (M * M') * r - 4 * p * r ^ 2) = 0 := by
      linear_combination hre - z.re * k1
    have k3 : 0 ≤ 4 * p * (z.re ^ 2 + z.im ^ 2) := by positivity
    linarith

end
end Boundary4
