import Verif.Lemmas.UniformDisc

/-!
# Affine images of the uniform laws, and the uniform law on a segment
-/

open MeasureTheory Set Spec
open scoped ENNReal Real

namespace UL

/-- The linear map with matrix `!![a, b; c, d]`. -/
noncomputable def lin (a b c d : ℝ) : ℝ × ℝ →ₗ[ℝ] ℝ × ℝ := Matrix.toLin (.finTwoProd ℝ) (.finTwoProd ℝ) !![a, b; c, d]

theorem lin_apply (a b c d : ℝ) (p : ℝ × ℝ) : lin a b c d p = (a * p.1 + b * p.2, c * p.1 + d * p.2) := by
  unfold lin
  rw [Matrix.toLin_finTwoProd_apply]

theorem lin_det (a b c d : ℝ) : LinearMap.det (lin a b c d) = a * d - b * c := by
  unfold lin
  rw [LinearMap.det_toLin, Matrix.det_fin_two_of]

/-- An affine map multiplies areas by the absolute value of its determinant. -/
theorem aff_area {a b c d : ℝ} (h : a * d - b * c ≠ 0) (v : ℝ × ℝ) (S : Set (ℝ × ℝ)) :
    volume {p | lin a b c d p + v ∈ S} * ENNReal.ofReal |a * d - b * c| = volume S := by
  have h1 : {p | lin a b c d p + v ∈ S} = lin a b c d ⁻¹' ((fun q => q + v) ⁻¹' S) := rfl
  rw [h1, Measure.addHaar_preimage_linearMap _ (by rwa [lin_det]), lin_det, measure_preimage_add_right, mul_comm, ← mul_assoc,
    ← ENNReal.ofReal_mul (abs_nonneg _), ← abs_mul, mul_inv_cancel₀ h]
  simp

theorem lin_measurable (a b c d : ℝ) : Measurable (lin a b c d) := (lin a b c d).continuous_of_finiteDimensional.measurable

/-- The affine image of a uniform point is uniform. -/
theorem aff_law {α : Type*} [MeasurableSpace α] {μ : Measure α} {X : α → ℝ × ℝ} {D S : Set (ℝ × ℝ)}
    (hX : ∀ E, MeasurableSet E → μ (X ⁻¹' E) * volume D = volume (E ∩ D))
    {a b c d : ℝ} (h : a * d - b * c ≠ 0) (v : ℝ × ℝ) (hS : ∀ p, lin a b c d p + v ∈ S ↔ p ∈ D) {E : Set (ℝ × ℝ)} (hE : MeasurableSet E) :
    μ {x | lin a b c d (X x) + v ∈ E} * volume S = volume (E ∩ S) := by
  have hm : MeasurableSet {p | lin a b c d p + v ∈ E} := ((lin_measurable a b c d).add_const v) hE
  have h1 := hX _ hm
  have e1 : {p | lin a b c d p + v ∈ S} = D := by ext p; exact hS p
  have e2 : {p | lin a b c d p + v ∈ E ∩ S} = {p | lin a b c d p + v ∈ E} ∩ D := by rw [← e1]; rfl
  have h2 := aff_area h v S
  have h3 := aff_area h v (E ∩ S)
  rw [e1] at h2
  rw [e2, ← h1] at h3
  rw [← h2, ← h3, mul_assoc]
  rfl

theorem normal2_univ : normal2 univ = 1 := by
  have := unit_law MeasurableSet.univ
  rw [preimage_univ] at this
  rw [this]
  have e : angles univ 1 = univ := by ext; simp [angles]
  have := Real.pi_pos
  rw [e, univ_inter, Real.volume_Ioo, ← ENNReal.ofReal_mul (by positivity), show 1 / (2 * π) * (π - -π) = 1 by field_simp; ring]
  simp

theorem unif01_univ : unif01 univ = 1 := by
  unfold unif01
  simp

theorem disc_area : volume disc = ENNReal.ofReal π := by
  have := disc_law MeasurableSet.univ
  rw [univ_inter] at this
  rw [← this]
  have e : {q : (ℝ × ℝ) × ℝ | √q.2 • unitv q.1 ∈ univ} = univ ×ˢ univ := by ext; simp
  haveI : SFinite normal2 := by unfold normal2; infer_instance
  haveI : SFinite unif01 := by unfold unif01; infer_instance
  rw [e, Measure.prod_prod, normal2_univ, unif01_univ]
  simp

/-- The normal law is invariant by orthogonal maps. -/
theorem normal2_orth {a b c d : ℝ} (h1 : a ^ 2 + c ^ 2 = 1) (h2 : b ^ 2 + d ^ 2 = 1) (h3 : a * b + c * d = 0) {E : Set (ℝ × ℝ)} (hE : MeasurableSet E) :
    normal2 (lin a b c d ⁻¹' E) = normal2 E := by
  have hd : (a * d - b * c) ^ 2 = 1 := by linear_combination (b ^ 2 + d ^ 2) * h1 + h2 - (a * b + c * d) * h3
  have hd0 : a * d - b * c ≠ 0 := by intro h; rw [h] at hd; norm_num at hd
  have habs : |(a * d - b * c)⁻¹| = 1 := by
    rw [abs_inv, show |a * d - b * c| = 1 from (pow_eq_one_iff_of_nonneg (abs_nonneg _) two_ne_zero).1 (by rw [sq_abs, hd]), inv_one]
  have hmap : Measure.map (lin a b c d) (volume : Measure (ℝ × ℝ)) = volume := by
    rw [Measure.map_linearMap_addHaar_eq_smul_addHaar _ (by rwa [lin_det]), lin_det, habs]
    simp
  have hm := lin_measurable a b c d
  unfold normal2
  rw [withDensity_apply _ hE, withDensity_apply _ (hm hE)]
  conv_rhs => rw [← hmap]
  rw [setLIntegral_map hE (by fun_prop) hm]
  refine lintegral_congr fun p => ?_
  rw [lin_apply]
  dsimp only
  congr 4
  linear_combination p.1 ^ 2 * h1 + p.2 ^ 2 * h2 + 2 * p.1 * p.2 * h3

theorem unitv_orth {a b c d : ℝ} (h1 : a ^ 2 + c ^ 2 = 1) (h2 : b ^ 2 + d ^ 2 = 1) (h3 : a * b + c * d = 0) (p : ℝ × ℝ) :
    unitv (lin a b c d p) = lin a b c d (unitv p) := by
  rw [lin_apply, lin_apply]
  unfold unitv
  dsimp only
  rw [show (a * p.1 + b * p.2) * (a * p.1 + b * p.2) + (c * p.1 + d * p.2) * (c * p.1 + d * p.2) = p.1 * p.1 + p.2 * p.2 by
    linear_combination p.1 ^ 2 * h1 + p.2 ^ 2 * h2 + 2 * p.1 * p.2 * h3]
  ext <;> dsimp only <;> ring

/-- The uniform law of the angle may be read in another orthonormal frame. -/
theorem unit_law_orth {a b c d : ℝ} (h1 : a ^ 2 + c ^ 2 = 1) (h2 : b ^ 2 + d ^ 2 = 1) (h3 : a * b + c * d = 0) {E : Set (ℝ × ℝ)} (hE : MeasurableSet E) :
    normal2 (unitv ⁻¹' E) = ENNReal.ofReal (1 / (2 * π)) * volume (angles (lin a b c d ⁻¹' E) 1 ∩ Ioo (-π) π) := by
  rw [← unit_law (lin_measurable a b c d hE), ← normal2_orth h1 h2 h3 (unitv_measurable hE)]
  congr 1
  ext p
  rw [mem_preimage, mem_preimage, mem_preimage, mem_preimage, unitv_orth h1 h2 h3]

/-- A uniform point of a segment. -/
theorem seg_law (A B : Pt) (s : ℝ) {l : ℝ} (hl : l = Spec.dist A B) (h0 : 0 < l) (E : Set (ℝ × ℝ)) :
    volume {u : ℝ | u ∈ Ioc s (s + l) ∧ coords (A + ((u - s) / l) • (B - A)) ∈ E} = lengthIn A B E := by
  have e : {u : ℝ | u ∈ Ioc s (s + l) ∧ coords (A + ((u - s) / l) • (B - A)) ∈ E} =
      (fun u => u + -s) ⁻¹' ((fun u => u * l⁻¹) ⁻¹' {t : ℝ | t ∈ Ioc 0 1 ∧ coords (A + t • (B - A)) ∈ E}) := by
    ext u
    simp only [mem_setOf_eq, mem_preimage]
    refine and_congr ?_ ?_
    · rw [mem_Ioc, mem_Ioc, ← sub_eq_add_neg, ← div_eq_mul_inv, div_le_one h0, lt_div_iff₀ h0]
      constructor <;> rintro ⟨h1, h2⟩ <;> constructor <;> linarith
    · rw [← sub_eq_add_neg, ← div_eq_mul_inv]
  rw [e, measure_preimage_add_right, Real.volume_preimage_mul_right (inv_ne_zero h0.ne'), inv_inv, abs_of_pos h0, hl]
  unfold lengthIn
  congr 1
  apply measure_congr
  have : {t : ℝ | t ∈ Ioc 0 1 ∧ coords (A + t • (B - A)) ∈ E} = Ioc 0 1 ∩ {t | coords (A + t • (B - A)) ∈ E} := rfl
  rw [this]
  exact Filter.EventuallyEq.inter Ioc_ae_eq_Icc Filter.EventuallyEq.rfl

end UL
