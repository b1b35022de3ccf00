import Verif.Lemmas.Uniform
import Mathlib.MeasureTheory.Integral.IntegralEqImproper

/-!
# The law of a normal vector divided by its length, and the uniform law of a disc
-/

open MeasureTheory Set Spec Filter Topology
open scoped ENNReal Real

namespace UL

/-- A vector divided by its length. -/
noncomputable def unitv (p : ℝ × ℝ) : ℝ × ℝ := (p.1 / √(p.1 * p.1 + p.2 * p.2), p.2 / √(p.1 * p.1 + p.2 * p.2))

/-- The angles for which the point at distance `r` is in `E`. -/
def angles (E : Set (ℝ × ℝ)) (r : ℝ) : Set ℝ := {θ | (r * Real.cos θ, r * Real.sin θ) ∈ E}

theorem angles_measurable {E : Set (ℝ × ℝ)} (hE : MeasurableSet E) (r : ℝ) : MeasurableSet (angles E r) := by
  have : Measurable fun θ : ℝ => (r * Real.cos θ, r * Real.sin θ) := by fun_prop
  exact this hE

theorem unitv_measurable : Measurable unitv := by
  unfold unitv
  fun_prop

theorem unitv_polar {r θ : ℝ} (hr : 0 < r) : unitv (r * Real.cos θ, r * Real.sin θ) = (Real.cos θ, Real.sin θ) := by
  have : √(r * Real.cos θ * (r * Real.cos θ) + r * Real.sin θ * (r * Real.sin θ)) = r := by
    rw [show r * Real.cos θ * (r * Real.cos θ) + r * Real.sin θ * (r * Real.sin θ) = r ^ 2 by
      linear_combination r ^ 2 * Real.sin_sq_add_cos_sq θ]
    exact Real.sqrt_sq hr.le
  unfold unitv
  dsimp only
  rw [this]
  ext <;> dsimp only <;> field_simp

/-- The radial part of the normal law has mass 1. -/
theorem radial : ∫⁻ r in Ioi (0 : ℝ), ENNReal.ofReal (r * Real.exp (-r ^ 2 / 2)) = 1 := by
  have hd : ∀ x ∈ Ici (0 : ℝ), HasDerivAt (fun r : ℝ => -Real.exp (-r ^ 2 / 2)) (x * Real.exp (-x ^ 2 / 2)) x := by
    intro x _
    have h1 : HasDerivAt (fun r : ℝ => -r ^ 2 / 2) (-x) x := by
      have := ((hasDerivAt_pow 2 x).neg).div_const 2
      refine this.congr_deriv ?_
      norm_num
      ring
    refine (h1.exp.neg).congr_deriv ?_
    ring
  have hp : ∀ x ∈ Ioi (0 : ℝ), 0 ≤ x * Real.exp (-x ^ 2 / 2) := fun x hx => mul_nonneg (le_of_lt hx) (Real.exp_pos _).le
  have ht : Tendsto (fun r : ℝ => -Real.exp (-r ^ 2 / 2)) atTop (𝓝 (-0)) := by
    apply Tendsto.neg
    apply Real.tendsto_exp_atBot.comp
    have : Tendsto (fun r : ℝ => r ^ 2 / 2) atTop atTop := (tendsto_pow_atTop two_ne_zero).atTop_div_const two_pos
    refine (tendsto_neg_atTop_atBot.comp this).congr fun r => ?_
    simp [neg_div]
  have hi := integrableOn_Ioi_deriv_of_nonneg' hd hp ht
  have hv := integral_Ioi_of_hasDerivAt_of_nonneg' hd hp ht
  rw [← ofReal_integral_eq_lintegral_ofReal hi ((ae_restrict_mem measurableSet_Ioi).mono hp), hv]
  norm_num

theorem polar_target : polarCoord.target = Ioi (0 : ℝ) ×ˢ Ioo (-π) π := rfl

theorem restrict_target : (volume : Measure (ℝ × ℝ)).restrict polarCoord.target = (volume.restrict (Ioi (0 : ℝ))).prod (volume.restrict (Ioo (-π) π)) := by
  rw [Measure.prod_restrict, polar_target]
  rfl

/-- A normal vector divided by its length has a uniform angle. -/
theorem unit_law {E : Set (ℝ × ℝ)} (hE : MeasurableSet E) :
    normal2 (unitv ⁻¹' E) = ENNReal.ofReal (1 / (2 * π)) * volume (angles E 1 ∩ Ioo (-π) π) := by
  have hm : MeasurableSet (unitv ⁻¹' E) := unitv_measurable hE
  unfold normal2
  rw [withDensity_apply _ hm, ← lintegral_indicator hm, ← lintegral_comp_polarCoord_symm]
  have hc : ∀ p ∈ polarCoord.target, ENNReal.ofReal p.1 • (unitv ⁻¹' E).indicator
      (fun p : ℝ × ℝ => ENNReal.ofReal (Real.exp (-(p.1 ^ 2 + p.2 ^ 2) / 2) / (2 * π))) (polarCoord.symm p) =
      (fun r : ℝ => ENNReal.ofReal (1 / (2 * π)) * ENNReal.ofReal (r * Real.exp (-r ^ 2 / 2))) p.1 * (angles E 1).indicator (fun _ => (1 : ℝ≥0∞)) p.2 := by
    rintro ⟨r, θ⟩ ⟨hr, hθ⟩
    have hr : 0 < r := hr
    have e : polarCoord.symm (r, θ) = (r * Real.cos θ, r * Real.sin θ) := rfl
    rw [e, smul_eq_mul]
    have hmem : (r * Real.cos θ, r * Real.sin θ) ∈ unitv ⁻¹' E ↔ θ ∈ angles E 1 := by
      rw [mem_preimage, unitv_polar hr]
      unfold angles
      simp
    by_cases h : θ ∈ angles E 1
    · rw [indicator_of_mem (hmem.2 h), indicator_of_mem h, mul_one]
      dsimp only
      rw [← ENNReal.ofReal_mul hr.le, ← ENNReal.ofReal_mul (by positivity)]
      congr 1
      rw [show (r * Real.cos θ) ^ 2 + (r * Real.sin θ) ^ 2 = r ^ 2 by linear_combination r ^ 2 * Real.sin_sq_add_cos_sq θ]
      field_simp
    · rw [indicator_of_notMem (fun hh => h (hmem.1 hh)), indicator_of_notMem h, mul_zero, mul_zero]
  have ht : MeasurableSet polarCoord.target := measurableSet_Ioi.prod measurableSet_Ioo
  rw [setLIntegral_congr_fun ht hc, restrict_target,
    lintegral_prod_mul (f := fun r : ℝ => ENNReal.ofReal (1 / (2 * π)) * ENNReal.ofReal (r * Real.exp (-r ^ 2 / 2)))
      (g := (angles E 1).indicator fun _ => (1 : ℝ≥0∞)) (by fun_prop) ((measurable_const.indicator (angles_measurable hE 1)).aemeasurable), lintegral_const_mul _ (by fun_prop), radial, mul_one,
    lintegral_indicator (angles_measurable hE 1), setLIntegral_const, one_mul, Measure.restrict_apply (angles_measurable hE 1)]

/-- The unit disc. -/
def disc : Set (ℝ × ℝ) := {p | p.1 ^ 2 + p.2 ^ 2 ≤ 1}

theorem disc_measurable : MeasurableSet disc := by
  have : Measurable fun p : ℝ × ℝ => p.1 ^ 2 + p.2 ^ 2 := by fun_prop
  exact this measurableSet_Iic

/-- Area in polar coordinates. -/
theorem area_polar {E : Set (ℝ × ℝ)} (hE : MeasurableSet E) :
    volume (E ∩ disc) = ∫⁻ r in Ioo (0 : ℝ) 1, ENNReal.ofReal r * volume (angles E r ∩ Ioo (-π) π) := by
  have hm := hE.inter disc_measurable
  rw [← lintegral_indicator_one hm, ← lintegral_comp_polarCoord_symm, restrict_target]
  have hmeas : Measurable fun p : ℝ × ℝ => ENNReal.ofReal p.1 • (E ∩ disc).indicator (1 : ℝ × ℝ → ℝ≥0∞) (polarCoord.symm p) := by
    have : Measurable fun p : ℝ × ℝ => polarCoord.symm p := by
      have : Measurable fun p : ℝ × ℝ => ((p.1 * Real.cos p.2, p.1 * Real.sin p.2) : ℝ × ℝ) := by fun_prop
      exact this
    exact (by fun_prop : Measurable fun p : ℝ × ℝ => ENNReal.ofReal p.1).mul ((measurable_one.indicator hm).comp this)
  rw [lintegral_prod _ hmeas.aemeasurable]
  have h1 : ∀ r ∈ Ioi (0 : ℝ), ∫⁻ θ in Ioo (-π) π, ENNReal.ofReal r • (E ∩ disc).indicator (1 : ℝ × ℝ → ℝ≥0∞) (polarCoord.symm (r, θ)) =
      (Iic (1 : ℝ)).indicator (fun r => ENNReal.ofReal r * volume (angles E r ∩ Ioo (-π) π)) r := by
    intro r hr
    have hr : 0 < r := hr
    have hmem : ∀ θ, polarCoord.symm (r, θ) ∈ E ∩ disc ↔ θ ∈ angles E r ∧ r ≤ 1 := by
      intro θ
      have e : polarCoord.symm (r, θ) = (r * Real.cos θ, r * Real.sin θ) := rfl
      rw [e]
      refine and_congr Iff.rfl ?_
      show (r * Real.cos θ) ^ 2 + (r * Real.sin θ) ^ 2 ≤ 1 ↔ _
      rw [show (r * Real.cos θ) ^ 2 + (r * Real.sin θ) ^ 2 = r ^ 2 by linear_combination r ^ 2 * Real.sin_sq_add_cos_sq θ]
      exact sq_le_one_iff₀ hr.le
    by_cases h : r ≤ 1
    · rw [indicator_of_mem (show r ∈ Iic 1 from h)]
      have : ∀ θ, ENNReal.ofReal r • (E ∩ disc).indicator (1 : ℝ × ℝ → ℝ≥0∞) (polarCoord.symm (r, θ)) =
          ENNReal.ofReal r * (angles E r).indicator (fun _ => (1 : ℝ≥0∞)) θ := by
        intro θ
        rw [smul_eq_mul]
        by_cases hθ : θ ∈ angles E r
        · rw [indicator_of_mem ((hmem θ).2 ⟨hθ, h⟩), indicator_of_mem hθ]; rfl
        · rw [indicator_of_notMem (fun hh => hθ ((hmem θ).1 hh).1), indicator_of_notMem hθ]
      simp_rw [this]
      rw [lintegral_const_mul _ (measurable_const.indicator (angles_measurable hE r)), lintegral_indicator (angles_measurable hE r), setLIntegral_const,
        one_mul, Measure.restrict_apply (angles_measurable hE r)]
    · rw [indicator_of_notMem (show r ∉ Iic 1 from h)]
      have : ∀ θ, ENNReal.ofReal r • (E ∩ disc).indicator (1 : ℝ × ℝ → ℝ≥0∞) (polarCoord.symm (r, θ)) = 0 := by
        intro θ
        rw [indicator_of_notMem (fun hh => h ((hmem θ).1 hh).2), smul_zero]
      simp_rw [this]
      simp
  rw [setLIntegral_congr_fun measurableSet_Ioi h1, lintegral_indicator measurableSet_Iic, Measure.restrict_restrict measurableSet_Iic]
  refine setLIntegral_congr ?_
  have : Iic (1 : ℝ) ∩ Ioi 0 = Ioc 0 1 := by rw [inter_comm]; rfl
  rw [this]
  exact Ioo_ae_eq_Ioc.symm

/-- The square root of a uniform number, as a radius. -/
theorem sqrt_subst (h : ℝ → ℝ≥0∞) : ∫⁻ u in Ioo (0 : ℝ) 1, h (√u) = 2 * ∫⁻ r in Ioo (0 : ℝ) 1, ENNReal.ofReal r * h r := by
  have him : (fun r : ℝ => r ^ 2) '' Ioo 0 1 = Ioo 0 1 := by
    ext u
    constructor
    · rintro ⟨r, ⟨h0, h1⟩, rfl⟩
      exact ⟨by positivity, by dsimp only; nlinarith⟩
    · rintro ⟨h0, h1⟩
      refine ⟨√u, ⟨Real.sqrt_pos.2 h0, ?_⟩, Real.sq_sqrt h0.le⟩
      rw [Real.sqrt_lt' one_pos]
      simpa using h1
  have h1 := lintegral_image_eq_lintegral_abs_deriv_mul (f := fun r : ℝ => r ^ 2) (f' := fun r => 2 * r) (s := Ioo (0 : ℝ) 1) measurableSet_Ioo
    (fun x _ => by simpa using (hasDerivAt_pow 2 x).hasDerivWithinAt)
    (fun x hx y hy e => by
      dsimp only at e
      exact (pow_left_inj₀ hx.1.le hy.1.le two_ne_zero).1 e)
    (fun u => h (√u))
  rw [him] at h1
  rw [h1, ← lintegral_const_mul' _ _ (by simp)]
  refine setLIntegral_congr_fun measurableSet_Ioo fun r hr => ?_
  rw [Real.sqrt_sq hr.1.le, abs_of_pos (by linarith [hr.1]), ENNReal.ofReal_mul (by norm_num), mul_assoc]
  simp

/-- The unit disc has area `π`, and the square root of a uniform number times a unit vector with uniform angle is uniform in it. -/
theorem disc_law {E : Set (ℝ × ℝ)} (hE : MeasurableSet E) :
    (normal2.prod unif01) {q | √q.2 • unitv q.1 ∈ E} * ENNReal.ofReal π = volume (E ∩ disc) := by
  have hm : MeasurableSet {q : (ℝ × ℝ) × ℝ | √q.2 • unitv q.1 ∈ E} := by
    have : Measurable fun q : (ℝ × ℝ) × ℝ => √q.2 • unitv q.1 := by
      have := unitv_measurable
      fun_prop
    exact this hE
  haveI : SFinite normal2 := by unfold normal2; infer_instance
  haveI : SFinite unif01 := by unfold unif01; infer_instance
  rw [Measure.prod_apply_symm hm, unif01_eq]
  have h1 : ∀ u ∈ Ioo (0 : ℝ) 1, normal2 ((fun p => (p, u)) ⁻¹' {q : (ℝ × ℝ) × ℝ | √q.2 • unitv q.1 ∈ E}) =
      (fun r => ENNReal.ofReal (1 / (2 * π)) * volume (angles E r ∩ Ioo (-π) π)) (√u) := by
    intro u _
    have e : (fun p => (p, u)) ⁻¹' {q : (ℝ × ℝ) × ℝ | √q.2 • unitv q.1 ∈ E} = unitv ⁻¹' {p | √u • p ∈ E} := rfl
    have hE' : MeasurableSet {p : ℝ × ℝ | √u • p ∈ E} := by
      have : Measurable fun p : ℝ × ℝ => √u • p := by fun_prop
      exact this hE
    rw [e, unit_law hE']
    congr 3
    ext θ
    unfold angles
    simp
  rw [setLIntegral_congr_fun measurableSet_Ioo h1, sqrt_subst (fun r => ENNReal.ofReal (1 / (2 * π)) * volume (angles E r ∩ Ioo (-π) π)), area_polar hE]
  have h2 : ∀ r : ℝ, ENNReal.ofReal r * (ENNReal.ofReal (1 / (2 * π)) * volume (angles E r ∩ Ioo (-π) π)) =
      ENNReal.ofReal (1 / (2 * π)) * (ENNReal.ofReal r * volume (angles E r ∩ Ioo (-π) π)) := fun r => by rw [mul_left_comm]
  simp_rw [h2]
  rw [lintegral_const_mul' _ _ (by finiteness)]
  generalize ∫⁻ r in Ioo (0 : ℝ) 1, ENNReal.ofReal r * volume (angles E r ∩ Ioo (-π) π) = z
  rw [show 2 * (ENNReal.ofReal (1 / (2 * π)) * z) * ENNReal.ofReal π = 2 * ENNReal.ofReal (1 / (2 * π)) * ENNReal.ofReal π * z by ring,
    show (2 : ℝ≥0∞) = ENNReal.ofReal 2 by simp, ← ENNReal.ofReal_mul (by norm_num), ← ENNReal.ofReal_mul (by positivity)]
  have := Real.pi_pos
  rw [show 2 * (1 / (2 * π)) * π = 1 by field_simp]
  simp

end UL
