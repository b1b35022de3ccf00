import Verif.Spec.Uniform
import Verif.Props.Random
import Mathlib.Analysis.SpecialFunctions.PolarCoord
import Mathlib.MeasureTheory.Function.JacobianOneDim
import Mathlib.Analysis.SpecialFunctions.ImproperIntegrals
import Mathlib.Analysis.SpecialFunctions.Sqrt

/-!
# Images of simple laws: triangle, disc, circle
-/

open MeasureTheory Set Spec
open scoped ENNReal

namespace UL

/-! ## Triangle -/

/-- The map of `runif_in_triangle_`. -/
noncomputable def tri (A B C : Pt) (p : ℝ × ℝ) : ℝ × ℝ :=
  (A.x * (1 - √p.2) + B.x * (√p.2 * (1 - p.1)) + C.x * (p.1 * √p.2), A.y * (1 - √p.2) + B.y * (√p.2 * (1 - p.1)) + C.y * (p.1 * √p.2))

/-- The derivative of `tri`. -/
noncomputable def triDeriv (A B C : Pt) (p : ℝ × ℝ) : ℝ × ℝ →L[ℝ] ℝ × ℝ :=
  (Matrix.toLin (.finTwoProd ℝ) (.finTwoProd ℝ)
    !![√p.2 * (C.x - B.x), (1 / (2 * √p.2)) * (-A.x + B.x * (1 - p.1) + C.x * p.1);
       √p.2 * (C.y - B.y), (1 / (2 * √p.2)) * (-A.y + B.y * (1 - p.1) + C.y * p.1)]).toContinuousLinearMap

theorem tri_hasFDerivAt (A B C : Pt) (p : ℝ × ℝ) (hp : 0 < p.2) : HasFDerivAt (tri A B C) (triDeriv A B C p) p := by
  unfold triDeriv
  rw [Matrix.toLin_finTwoProd_toContinuousLinearMap]
  have hs : HasFDerivAt (fun q : ℝ × ℝ => √q.2) ((1 / (2 * √p.2)) • ContinuousLinearMap.snd ℝ ℝ ℝ) p :=
    (Real.hasDerivAt_sqrt hp.ne').comp_hasFDerivAt p hasFDerivAt_snd
  have h1 : HasFDerivAt (fun q : ℝ × ℝ => q.1) (ContinuousLinearMap.fst ℝ ℝ ℝ) p := hasFDerivAt_fst
  have key : ∀ a b c : ℝ, HasFDerivAt (fun q : ℝ × ℝ => a * (1 - √q.2) + b * (√q.2 * (1 - q.1)) + c * (q.1 * √q.2))
      ((√p.2 * (c - b)) • ContinuousLinearMap.fst ℝ ℝ ℝ + ((1 / (2 * √p.2)) * (-a + b * (1 - p.1) + c * p.1)) • ContinuousLinearMap.snd ℝ ℝ ℝ) p := by
    intro a b c
    have h := (((hs.const_sub 1).const_mul a).add ((hs.mul (h1.const_sub 1)).const_mul b)).add ((h1.mul hs).const_mul c)
    refine h.congr_fderiv ?_
    ext <;> simp <;> ring
  exact (key A.x B.x C.x).prodMk (key A.y B.y C.y)

theorem triDeriv_det (A B C : Pt) (p : ℝ × ℝ) (hp : 0 < p.2) : (triDeriv A B C p).det = cross (C - B) (B - A) / 2 := by
  have := Real.sqrt_pos.2 hp
  unfold triDeriv
  simp only [LinearMap.det_toContinuousLinearMap, LinearMap.det_toLin, Matrix.det_fin_two_of]
  unfold cross
  simp only [Pt.sub_x, Pt.sub_y]
  field_simp
  ring

theorem tri_bary (A B C : Pt) (p : ℝ × ℝ) : tri A B C p =
    (A.x + √p.2 * (1 - p.1) * (B.x - A.x) + p.1 * √p.2 * (C.x - A.x), A.y + √p.2 * (1 - p.1) * (B.y - A.y) + p.1 * √p.2 * (C.y - A.y)) := by
  unfold tri
  ext <;> dsimp only <;> ring

/-- Barycentric coordinates are unique. -/
theorem bary_unique {A B C : Pt} (h : cross (C - B) (B - A) ≠ 0) {b c b' c' : ℝ}
    (hx : A.x + b * (B.x - A.x) + c * (C.x - A.x) = A.x + b' * (B.x - A.x) + c' * (C.x - A.x))
    (hy : A.y + b * (B.y - A.y) + c * (C.y - A.y) = A.y + b' * (B.y - A.y) + c' * (C.y - A.y)) : b = b' ∧ c = c' := by
  unfold cross at h
  simp only [Pt.sub_x, Pt.sub_y] at h
  constructor
  · apply sub_eq_zero.1
    apply (mul_eq_zero.1 (_ : (b - b') * ((C.x - B.x) * (B.y - A.y) - (C.y - B.y) * (B.x - A.x)) = 0)).resolve_right h
    linear_combination (C.x - A.x) * hy - (C.y - A.y) * hx
  · apply sub_eq_zero.1
    apply (mul_eq_zero.1 (_ : (c - c') * ((C.x - B.x) * (B.y - A.y) - (C.y - B.y) * (B.x - A.x)) = 0)).resolve_right h
    linear_combination (B.y - A.y) * hx - (B.x - A.x) * hy

theorem tri_injOn {A B C : Pt} (h : cross (C - B) (B - A) ≠ 0) : InjOn (tri A B C) (Ioo 0 1 ×ˢ Ioo 0 1) := by
  rintro ⟨u, v⟩ ⟨hu, hv⟩ ⟨u', v'⟩ ⟨hu', hv'⟩ e
  dsimp only at hu hv hu' hv'
  rw [tri_bary, tri_bary, Prod.mk.injEq] at e
  obtain ⟨e1, e2⟩ := bary_unique h e.1 e.2
  dsimp only at e1 e2
  have e3 : √v = √v' := by linear_combination e1 + e2
  have e4 : v = v' := by
    have := congrArg (· ^ 2) e3
    simpa [Real.sq_sqrt hv.1.le, Real.sq_sqrt hv'.1.le] using this
  have e5 : u = u' := by
    rw [e3] at e2
    exact mul_right_cancel₀ (Real.sqrt_pos.2 hv'.1).ne' e2
  rw [e4, e5]

theorem tri_image {A B C : Pt} : tri A B C '' (Ioo 0 1 ×ˢ Ioo 0 1) = region (InTriangle A B C) := by
  ext ⟨x, y⟩
  constructor
  · rintro ⟨⟨u, v⟩, ⟨hu, hv⟩, e⟩
    dsimp only at hu hv
    have s0 := Real.sqrt_pos.2 hv.1
    have s1 : √v < 1 := by rw [Real.sqrt_lt' one_pos]; simpa using hv.2
    refine ⟨1 - √v, √v * (1 - u), u * √v, by linarith, mul_pos s0 (by linarith [hu.2]), mul_pos hu.1 s0, by ring, ?_⟩
    unfold tri at e
    rw [Prod.mk.injEq] at e
    ext
    · simp only [Pt.add_x, Pt.smul_x]; rw [← e.1]; ring
    · simp only [Pt.add_y, Pt.smul_y]; rw [← e.2]; ring
  · rintro ⟨u, v, w, hu, hv, hw, hs, e⟩
    have e1 := congrArg Pt.x e
    have e2 := congrArg Pt.y e
    simp only [Pt.add_x, Pt.smul_x, Pt.add_y, Pt.smul_y] at e1 e2
    have hsq : √((v + w) ^ 2) = v + w := Real.sqrt_sq (by linarith)
    refine ⟨⟨w / (v + w), (v + w) ^ 2⟩, ⟨⟨by positivity, ?_⟩, ⟨by positivity, ?_⟩⟩, ?_⟩
    · dsimp only; rw [div_lt_one (by linarith)]; linarith
    · dsimp only; nlinarith
    · unfold tri
      have q : (v + w) ≠ 0 := by linarith
      have q1 : w / (v + w) * (v + w) = w := by field_simp
      have q2 : (v + w) * (1 - w / (v + w)) = v := by field_simp; ring
      dsimp only
      rw [hsq, q1, q2, Prod.mk.injEq]
      constructor
      · rw [e1, show u = 1 - (v + w) by linarith]; ring
      · rw [e2, show u = 1 - (v + w) by linarith]; ring

theorem tri_measurable (A B C : Pt) : Measurable (tri A B C) := by
  unfold tri
  fun_prop

theorem tri_open {A B C : Pt} (h : cross (C - B) (B - A) ≠ 0) {E : Set (ℝ × ℝ)} (hE : MeasurableSet E) :
    volume ((Ioo 0 1 ×ˢ Ioo 0 1) ∩ tri A B C ⁻¹' E) * ENNReal.ofReal (|cross (C - B) (B - A)| / 2) = volume (E ∩ region (InTriangle A B C)) := by
  have hm : MeasurableSet ((Ioo (0 : ℝ) 1 ×ˢ Ioo (0 : ℝ) 1) ∩ tri A B C ⁻¹' E) :=
    (measurableSet_Ioo.prod measurableSet_Ioo).inter (tri_measurable A B C hE)
  have h1 := lintegral_abs_det_fderiv_eq_addHaar_image volume hm
    (fun p hp => (tri_hasFDerivAt A B C p hp.1.2.1).hasFDerivWithinAt) ((tri_injOn h).mono inter_subset_left)
  rw [Set.image_inter_preimage, tri_image, inter_comm _ E] at h1
  rw [← h1, setLIntegral_congr_fun hm (g := fun _ => ENNReal.ofReal (|cross (C - B) (B - A)| / 2)), setLIntegral_const, mul_comm]
  intro p hp
  dsimp only
  rw [triDeriv_det A B C p hp.1.2.1, abs_div, abs_two]

theorem unif01_eq : unif01 = volume.restrict (Ioo 0 1) := by
  unfold unif01
  exact (Measure.restrict_congr_set Ioo_ae_eq_Ico).symm

theorem unif01_prod : unif01.prod unif01 = (volume : Measure (ℝ × ℝ)).restrict (Ioo 0 1 ×ˢ Ioo 0 1) := by
  rw [unif01_eq, Measure.prod_restrict]
  rfl

/-- A line has area zero. -/
theorem line_null (A v : Pt) : volume {p : ℝ × ℝ | ∃ t : ℝ, p = (A.x + t * v.x, A.y + t * v.y)} = 0 := by
  have h := Measure.addHaar_image_linearMap (volume : Measure (ℝ × ℝ)) (Matrix.toLin (.finTwoProd ℝ) (.finTwoProd ℝ) !![v.x, 0; v.y, 0]) univ
  rw [LinearMap.det_toLin, Matrix.det_fin_two_of, mul_zero, zero_mul, sub_zero, abs_zero, ENNReal.ofReal_zero, zero_mul] at h
  have h2 := measure_preimage_add (volume : Measure (ℝ × ℝ)) (-(A.x, A.y)) (Matrix.toLin (.finTwoProd ℝ) (.finTwoProd ℝ) !![v.x, 0; v.y, 0] '' univ)
  rw [h] at h2
  refine measure_mono_null ?_ h2
  rintro p ⟨t, rfl⟩
  refine ⟨(t, 0), trivial, ?_⟩
  ext <;> simp [Matrix.toLin_finTwoProd_apply] <;> ring

/-- The boundary of a triangle has area zero. -/
theorem tri_boundary (A B C : Pt) : volume (region (InClosedTriangle A B C) \ region (InTriangle A B C)) = 0 := by
  refine measure_mono_null (t := {p : ℝ × ℝ | ∃ t : ℝ, p = (A.x + t * (B - A).x, A.y + t * (B - A).y)} ∪
    ({p : ℝ × ℝ | ∃ t : ℝ, p = (B.x + t * (C - B).x, B.y + t * (C - B).y)} ∪ {p : ℝ × ℝ | ∃ t : ℝ, p = (A.x + t * (C - A).x, A.y + t * (C - A).y)})) ?_ ?_
  · rintro ⟨x, y⟩ ⟨⟨u, v, w, hu, hv, hw, hs, e⟩, hn⟩
    have e1 := congrArg Pt.x e
    have e2 := congrArg Pt.y e
    simp only [Pt.add_x, Pt.smul_x, Pt.add_y, Pt.smul_y] at e1 e2
    rcases hu.lt_or_eq with hu | hu
    · rcases hv.lt_or_eq with hv | hv
      · rcases hw.lt_or_eq with hw | hw
        · exact absurd ⟨u, v, w, hu, hv, hw, hs, e⟩ hn
        · left
          refine ⟨v, ?_⟩
          rw [Prod.mk.injEq, e1, e2, ← hw, show u = 1 - v by linarith]
          constructor <;> simp <;> ring
      · right; right
        refine ⟨w, ?_⟩
        rw [Prod.mk.injEq, e1, e2, ← hv, show u = 1 - w by linarith]
        constructor <;> simp <;> ring
    · right; left
      refine ⟨w, ?_⟩
      rw [Prod.mk.injEq, e1, e2, ← hu, show v = 1 - w by linarith]
      constructor <;> simp <;> ring
  · rw [measure_union_null_iff, measure_union_null_iff]
    exact ⟨line_null _ _, line_null _ _, line_null _ _⟩

theorem tri_closed {A B C : Pt} (E : Set (ℝ × ℝ)) : volume (E ∩ region (InClosedTriangle A B C)) = volume (E ∩ region (InTriangle A B C)) := by
  apply le_antisymm
  · have : E ∩ region (InClosedTriangle A B C) ⊆ (E ∩ region (InTriangle A B C)) ∪ (region (InClosedTriangle A B C) \ region (InTriangle A B C)) := by
      intro p hp
      by_cases h : p ∈ region (InTriangle A B C)
      · exact Or.inl ⟨hp.1, h⟩
      · exact Or.inr ⟨hp.2, h⟩
    refine (measure_mono this).trans ((measure_union_le _ _).trans ?_)
    rw [tri_boundary, add_zero]
  · apply measure_mono
    rintro p ⟨h1, u, v, w, hu, hv, hw, h⟩
    exact ⟨h1, u, v, w, hu.le, hv.le, hw.le, h⟩

/-- The area of a triangle. -/
theorem tri_area {A B C : Pt} (h : cross (C - B) (B - A) ≠ 0) :
    volume (region (InClosedTriangle A B C)) = ENNReal.ofReal (|cross (C - B) (B - A)| / 2) := by
  have h1 := tri_open h MeasurableSet.univ
  have h2 := tri_closed (A := A) (B := B) (C := C) univ
  rw [preimage_univ, inter_univ, univ_inter, Measure.volume_eq_prod, Measure.prod_prod, Real.volume_Ioo] at h1
  rw [univ_inter, univ_inter] at h2
  rw [h2, Measure.volume_eq_prod, ← h1]
  simp

/-- The map of `runif_in_triangle_` turns the uniform law of the square into the uniform law of the triangle. -/
theorem tri_law {A B C : Pt} (h : cross (C - B) (B - A) ≠ 0) {E : Set (ℝ × ℝ)} (hE : MeasurableSet E) :
    (unif01.prod unif01) (tri A B C ⁻¹' E) * volume (region (InClosedTriangle A B C)) = volume (E ∩ region (InClosedTriangle A B C)) := by
  rw [tri_area h, tri_closed, ← tri_open h hE, unif01_prod, Measure.restrict_apply (tri_measurable A B C hE), inter_comm]

end UL
