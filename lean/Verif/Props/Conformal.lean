import Verif.Spec.Conformal
import Verif.Props.MobiusCircle
import Verif.Props.Inversion
import Verif.Props.Methods

/-! C95: inversions and Möbius transformations carry circles to circles under the same angle. -/

open Spec Real Classical

/-- `d² - r₁² - r₂²`, twice the scalar product of two circles. -/
noncomputable def circProd (c1 c2 : Circle) : ℝ := sqDist c1.center c2.center - c1.radius ^ 2 - c2.radius ^ 2

/-- The normalised product of the pair `(c1', c2')` is `ε` times the one of `(c1, c2)`. -/
def SameAngle (ε : ℝ) (c1 c2 c1' c2' : Circle) : Prop :=
  circProd c1' c2' * (c1.radius * c2.radius) = ε * (circProd c1 c2 * (c1'.radius * c2'.radius))

theorem extTangent_iff_prod {c1 c2 : Circle} (h1 : c1.Valid) (h2 : c2.Valid) :
    ExtTangent c1.center c1.radius c2.center c2.radius ↔ circProd c1 c2 = 2 * (c1.radius * c2.radius) := by
  unfold Circle.Valid at h1 h2
  unfold ExtTangent circProd
  rw [dist_eq_iff (by positivity)]
  constructor <;> intro h <;> linarith

theorem intTangent_iff_prod {c1 c2 : Circle} (h1 : c1.Valid) (h2 : c2.Valid) :
    (IntTangent c1.center c1.radius c2.center c2.radius ∨ IntTangent c2.center c2.radius c1.center c1.radius) ↔
      circProd c1 c2 = -(2 * (c1.radius * c2.radius)) := by
  unfold Circle.Valid at h1 h2
  unfold IntTangent circProd
  constructor
  · rintro (h | h)
    · have h0 : 0 ≤ c1.radius - c2.radius := by rw [← h]; exact Real.sqrt_nonneg _
      rw [dist_eq_iff h0] at h
      linarith
    · have h0 : 0 ≤ c2.radius - c1.radius := by rw [← h]; exact Real.sqrt_nonneg _
      rw [dist_eq_iff h0, sqDist_comm] at h
      linarith
  · intro h
    rcases le_total c2.radius c1.radius with h0 | h0
    · left; rw [dist_eq_iff (by linarith)]; linarith
    · right; rw [dist_eq_iff (by linarith), sqDist_comm]; linarith

theorem touch_iff_prod {c1 c2 : Circle} (h1 : c1.Valid) (h2 : c2.Valid) :
    Touch c1.center c1.radius c2.center c2.radius ↔
      circProd c1 c2 = 2 * (c1.radius * c2.radius) ∨ circProd c1 c2 = -(2 * (c1.radius * c2.radius)) := by
  unfold Touch
  rw [extTangent_iff_prod h1 h2, intTangent_iff_prod h1 h2]

theorem rightAngles_iff_prod {c1 c2 : Circle} (h1 : c1.Valid) (h2 : c2.Valid) :
    MeetAtRightAngles c1.center c1.radius c2.center c2.radius ↔ circProd c1 c2 = 0 := by
  rw [meetAtRightAngles_iff h1 h2]
  unfold circProd
  constructor <;> intro h <;> linarith

/-- A computed angle is the exact one. -/
theorem angle_some {c1 c2 : Circle} (h1 : c1.Valid) (h2 : c2.Valid) {th : ℝ} (h : c1.angle c2 = .ok (some th)) :
    0 ≤ th ∧ th ≤ π ∧ 2 * (c1.radius * c2.radius) * cos th = circProd c1 c2 := by
  have r1 : 0 < c1.radius := h1
  have r2 : 0 < c2.radius := h2
  have hex : sqDist c1.center c2.center ≤ (c1.radius + c2.radius) ^ 2 ∧
      (c1.radius - c2.radius) ^ 2 ≤ sqDist c1.center c2.center := by
    by_contra hcon
    have := C20_angle_band_error c1 c2 h1 h2 (by rw [h]; simp) (by
      by_contra hc
      push Not at hc
      exact hcon hc)
    rw [h] at this
    cases this
  obtain ⟨th', e, a1, a2, a3, -⟩ := C20_angle c1 c2 h1 h2 hex.1 hex.2
  rw [h] at e
  obtain rfl : th = th' := by injection e with e; injection e
  refine ⟨a1, a2, ?_⟩
  rw [a3]
  unfold circProd
  field_simp

/-- An angle that satisfies the cosine rule is the computed one. -/
theorem angle_of_prod {c1 c2 : Circle} (h1 : c1.Valid) (h2 : c2.Valid) {th : ℝ} (t0 : 0 ≤ th) (t1 : th ≤ π)
    (h : 2 * (c1.radius * c2.radius) * cos th = circProd c1 c2) : c1.angle c2 = .ok (some th) := by
  have r1 : 0 < c1.radius := h1
  have r2 : 0 < c2.radius := h2
  have hp := mul_pos r1 r2
  have l1 := Real.cos_le_one th
  have l2 := Real.neg_one_le_cos th
  unfold circProd at h
  obtain ⟨th', e, a1, a2, a3, -⟩ := C20_angle c1 c2 h1 h2 (by nlinarith) (by nlinarith)
  rw [e]
  congr 2
  refine Real.injOn_cos ⟨a1, a2⟩ ⟨t0, t1⟩ ?_
  rw [a3, ← h]
  field_simp

/-- What the relation between two pairs of circles gives. -/
structure ConformalPair (σ : ℝ) (c1 c2 c1' c2' : Circle) : Prop where
  /-- touching circles have touching images, and conversely -/
  touch : Touch c1.center c1.radius c2.center c2.radius ↔ Touch c1'.center c1'.radius c2'.center c2'.radius
  /-- right angles are kept -/
  right : MeetAtRightAngles c1.center c1.radius c2.center c2.radius ↔
    MeetAtRightAngles c1'.center c1'.radius c2'.center c2'.radius
  /-- exterior contact stays exterior contact when `σ > 0` -/
  ext_ext : 0 < σ → (ExtTangent c1.center c1.radius c2.center c2.radius ↔
    ExtTangent c1'.center c1'.radius c2'.center c2'.radius)
  /-- exterior contact becomes interior contact when `σ < 0` -/
  ext_int : σ < 0 → (ExtTangent c1.center c1.radius c2.center c2.radius ↔
    (IntTangent c1'.center c1'.radius c2'.center c2'.radius ∨ IntTangent c2'.center c2'.radius c1'.center c1'.radius))
  /-- the method `angle` returns the same angle, or the supplementary one -/
  angle : ∀ th, c1.angle c2 = .ok (some th) ↔ c1'.angle c2' = .ok (some (if 0 < σ then th else π - th))

theorem conformalPair_of {σ ε : ℝ} {c1 c2 c1' c2' : Circle} (h1 : c1.Valid) (h2 : c2.Valid) (h1' : c1'.Valid)
    (h2' : c2'.Valid) (hpos : 0 < σ → ε = 1) (hneg : ¬ 0 < σ → ε = -1) (h : SameAngle ε c1 c2 c1' c2') :
    ConformalPair σ c1 c2 c1' c2' := by
  have r1 : 0 < c1.radius := h1
  have r2 : 0 < c2.radius := h2
  have r1' : 0 < c1'.radius := h1'
  have r2' : 0 < c2'.radius := h2'
  obtain ⟨p, hp⟩ : ∃ p, p = c1.radius * c2.radius := ⟨_, rfl⟩
  obtain ⟨p', hp'⟩ : ∃ p, p = c1'.radius * c2'.radius := ⟨_, rfl⟩
  have p0 : 0 < p := by rw [hp]; positivity
  have p0' : 0 < p' := by rw [hp']; positivity
  unfold SameAngle at h
  rw [← hp, ← hp'] at h
  have key : ∀ x, ε * ε = 1 → (circProd c1 c2 = x * p ↔ circProd c1' c2' = ε * x * p') := by
    intro x he
    constructor
    · intro hx
      rw [hx] at h
      refine mul_right_cancel₀ p0.ne' ?_
      linear_combination h
    · intro hx
      rw [hx] at h
      refine mul_right_cancel₀ p0'.ne' ?_
      linear_combination (-ε) * h - (circProd c1 c2 * p' - x * p * p') * he
  have hee : ε * ε = 1 := by
    by_cases hs : 0 < σ
    · rw [hpos hs]; norm_num
    · rw [hneg hs]; norm_num
  have k1 := key 2 hee
  have k2 := key (-2) hee
  have k0 := key 0 hee
  refine ⟨?_, ?_, ?_, ?_, ?_⟩
  · rw [touch_iff_prod h1 h2, touch_iff_prod h1' h2', ← hp, ← hp']
    rw [show -(2 * p) = (-2) * p by ring, k1, k2]
    by_cases hs : 0 < σ
    · rw [hpos hs]; norm_num
    · rw [hneg hs]; norm_num; exact or_comm
  · rw [rightAngles_iff_prod h1 h2, rightAngles_iff_prod h1' h2']
    simpa using k0
  · intro hs
    rw [extTangent_iff_prod h1 h2, extTangent_iff_prod h1' h2', ← hp, ← hp', k1, hpos hs, one_mul]
  · intro hs
    rw [extTangent_iff_prod h1 h2, intTangent_iff_prod h1' h2', ← hp, ← hp', k1, hneg (not_lt.2 hs.le)]
    norm_num
  · intro th
    have hk := key (2 * cos th) hee
    by_cases hs : 0 < σ
    · rw [if_pos hs]
      rw [hpos hs, one_mul] at hk
      constructor
      · intro ha
        obtain ⟨t0, t1, e⟩ := angle_some h1 h2 ha
        refine angle_of_prod h1' h2' t0 t1 ?_
        rw [← hp'] ; rw [← hp] at e
        linarith [hk.1 (by linarith)]
      · intro ha
        obtain ⟨t0, t1, e⟩ := angle_some h1' h2' ha
        refine angle_of_prod h1 h2 t0 t1 ?_
        rw [← hp'] at e; rw [← hp]
        linarith [hk.2 (by linarith)]
    · rw [if_neg hs]
      rw [hneg hs] at hk
      constructor
      · intro ha
        obtain ⟨t0, t1, e⟩ := angle_some h1 h2 ha
        refine angle_of_prod h1' h2' (by linarith) (by linarith) ?_
        rw [← hp', Real.cos_pi_sub] ; rw [← hp] at e
        linarith [hk.1 (by linarith)]
      · intro ha
        obtain ⟨t0, t1, e⟩ := angle_some h1' h2' ha
        refine angle_of_prod h1 h2 (by linarith) (by linarith) ?_
        rw [← hp', Real.cos_pi_sub] at e; rw [← hp]
        linarith [hk.2 (by linarith)]

/-- The image of a circle by an inversion, explicitly. -/
theorem invert_circle_explicit {iota : Inversion} {c c' : Circle} (h : iota.invert_circle c = .ok (.circle c')) :
    ∃ D, D = sqDist c.center iota.pole - c.radius ^ 2 ∧ D ≠ 0 ∧
      c'.center = iota.pole + (iota.power / D) • (c.center - iota.pole) ∧ c'.radius = |iota.power / D| * c.radius ∧ c'.Valid := by
  have hs := sepsilon_pos
  have eD : (c.center.x - iota.pole.x) ^ 2 + (c.center.y - iota.pole.y) ^ 2 - c.radius * c.radius =
      sqDist c.center iota.pole - c.radius ^ 2 := by unfold sqDist; ring
  unfold Inversion.invert_circle at h
  dsimp only at h
  rw [eD] at h
  obtain ⟨D, hDe⟩ : ∃ D, D = sqDist c.center iota.pole - c.radius ^ 2 := ⟨_, rfl⟩
  rw [← hDe] at h
  split_ifs at h with hD
  · simp only [Res.bind_ok, Res.pure_ok] at h
    obtain ⟨c1, hc1, hc2⟩ := h
    obtain ⟨hr, rfl⟩ := mkCircle_ok.1 hc1
    cases hc2
    refine ⟨D, hDe, ?_, rfl, rfl, hr⟩
    rintro rfl
    rw [abs_zero] at hD
    linarith
  · simp only [Res.bind_ok, Res.pure_ok] at h
    obtain ⟨l, -, hl⟩ := h
    cases hl

/-- C95: an inversion carries two circles to two circles under the same angle (the supplementary angle when exactly one of them has the
pole inside): contact, right angles and the value of `angle` are kept. -/
theorem C95_inversion (iota : Inversion) (c1 c2 c1' c2' : Circle) (h1 : c1.Valid) (h2 : c2.Valid)
    (e1 : iota.invert_circle c1 = .ok (.circle c1')) (e2 : iota.invert_circle c2 = .ok (.circle c2')) :
    ConformalPair ((sqDist c1.center iota.pole - c1.radius ^ 2) * (sqDist c2.center iota.pole - c2.radius ^ 2)) c1 c2 c1' c2' := by
  obtain ⟨D1, d1, n1, o1, r1, v1⟩ := invert_circle_explicit e1
  obtain ⟨D2, d2, n2, o2, r2, v2⟩ := invert_circle_explicit e2
  have hk : iota.power ≠ 0 := by
    intro hk
    unfold Circle.Valid at v1
    rw [r1, hk] at v1
    simp at v1
  rw [← d1, ← d2]
  have hab : |iota.power / D1| * |iota.power / D2| = iota.power ^ 2 / |D1 * D2| := by
    rw [abs_div, abs_div, abs_mul, ← sq_abs iota.power]
    field_simp
  have hN : circProd c1' c2' * (D1 * D2) = iota.power ^ 2 * circProd c1 c2 := by
    unfold circProd
    rw [r1, r2, mul_pow, mul_pow, sq_abs, sq_abs, o1, o2]
    unfold sqDist at *
    simp
    field_simp
    rw [d1, d2]
    ring
  refine conformalPair_of (ε := if 0 < D1 * D2 then 1 else -1) h1 h2 v1 v2 (fun h => if_pos h) (fun h => if_neg h) ?_
  unfold SameAngle
  have h12 : D1 * D2 ≠ 0 := mul_ne_zero n1 n2
  have hr : c1'.radius * c2'.radius = iota.power ^ 2 / |D1 * D2| * (c1.radius * c2.radius) := by
    rw [r1, r2, ← hab]; ring
  rw [hr]
  have hN' : circProd c1' c2' = iota.power ^ 2 * circProd c1 c2 / (D1 * D2) := by
    rw [eq_div_iff h12]; exact hN
  rw [hN']
  split_ifs with hs
  · rw [abs_of_pos hs]; field_simp
  · rw [abs_of_neg (lt_of_le_of_ne (not_lt.1 hs) h12)]; field_simp

theorem normSq_cpx_sub (P Q : Pt) : Complex.normSq (cpx P - cpx Q) = sqDist P Q := by
  unfold sqDist
  rw [Complex.normSq_apply]
  simp only [Complex.sub_re, Complex.sub_im, cpx]
  ring

/-- The scalar product behind the angle of the images: `|V₁ D₂ - V₂ D₁|²` when `D_i = |V_i|² - ρ_i`. -/
theorem normSq_cross (V1 V2 : ℂ) (D1 D2 ρ1 ρ2 : ℝ) (h1 : D1 = Complex.normSq V1 - ρ1) (h2 : D2 = Complex.normSq V2 - ρ2) :
    Complex.normSq ((D2 : ℂ) * V1 - (D1 : ℂ) * V2) =
      D1 * D2 * (Complex.normSq (V1 - V2) - ρ1 - ρ2) + ρ1 * D2 ^ 2 + ρ2 * D1 ^ 2 := by
  rw [Complex.normSq_apply] at *
  rw [Complex.normSq_apply]
  simp only [Complex.sub_re, Complex.sub_im, Complex.mul_re, Complex.mul_im, Complex.ofReal_re, Complex.ofReal_im]
  linear_combination (D1 * D2 - D2 ^ 2) * h1 + (D1 * D2 - D1 ^ 2) * h2

/-- C95: a Möbius transformation carries two circles that avoid its pole to two circles under the same angle (the supplementary angle when
exactly one of them has the pole inside). -/
theorem C95_mobius (f : Mobius) (h : Matrix.det f.M ≠ 0) (c1 c2 : Circle) (h1 : c1.Valid) (h2 : c2.Valid)
    (p1 : ∀ P, OnCircle c1.center c1.radius P → f.transform (.fin P) ≠ .ok .inf)
    (p2 : ∀ P, OnCircle c2.center c2.radius P → f.transform (.fin P) ≠ .ok .inf) :
    ∃ c1' c2' : Circle, f.transform_circle c1 = .ok (.circle c1') ∧ f.transform_circle c2 = .ok (.circle c2') ∧
      ConformalPair ((Complex.normSq (f.c * cpx c1.center + f.d) - c1.radius ^ 2 * Complex.normSq f.c) *
        (Complex.normSq (f.c * cpx c2.center + f.d) - c2.radius ^ 2 * Complex.normSq f.c)) c1 c2 c1' c2' := by
  obtain ⟨c1', D1, e1, v1, -, n1, d1, o1, r1⟩ := transform_circle_explicit f h c1 h1 p1
  obtain ⟨c2', D2, e2, v2, -, n2, d2, o2, r2⟩ := transform_circle_explicit f h c2 h2 p2
  refine ⟨c1', c2', e1, e2, ?_⟩
  rw [← d1, ← d2]
  have h0 : f.a * f.d - f.b * f.c ≠ 0 := (det_ne_iff _).1 h
  obtain ⟨Δ, hΔ⟩ : ∃ Δ, Δ = f.a * f.d - f.b * f.c := ⟨_, rfl⟩
  rw [← hΔ] at r1 r2 h0
  have hk : 0 < Complex.normSq Δ := Complex.normSq_pos.2 h0
  have h12 : D1 * D2 ≠ 0 := mul_ne_zero n1 n2
  -- the product of the images
  have hN : circProd c1' c2' * (D1 * D2) = Complex.normSq Δ * circProd c1 c2 := by
    unfold circProd
    rw [r1, r2, ← normSq_cpx_sub, ← normSq_cpx_sub]
    obtain ⟨V1, hV1⟩ : ∃ V, V = f.c * cpx c1.center + f.d := ⟨_, rfl⟩
    obtain ⟨V2, hV2⟩ : ∃ V, V = f.c * cpx c2.center + f.d := ⟨_, rfl⟩
    have hV : V1 - V2 = f.c * (cpx c1.center - cpx c2.center) := by rw [hV1, hV2]; ring
    have hcross := normSq_cross V1 V2 D1 D2 _ _ (by rw [hV1]; exact d1) (by rw [hV2]; exact d2)
    rw [hV, map_mul] at hcross
    -- the centre of an image, times `c`
    have cen : ∀ (c c' : Circle) (D : ℝ) (V : ℂ), V = f.c * cpx c.center + f.d →
        D = Complex.normSq (f.c * cpx c.center + f.d) - c.radius ^ 2 * Complex.normSq f.c →
        (D : ℂ) * cpx c'.center = (f.a * cpx c.center + f.b) * (starRingEnd ℂ) (f.c * cpx c.center + f.d) -
          ((c.radius ^ 2 : ℝ) : ℂ) * f.a * (starRingEnd ℂ) f.c →
        f.c * ((D : ℂ) * cpx c'.center) = f.a * D - Δ * (starRingEnd ℂ) V := by
      intro c c' D V hV hD ho
      rw [ho, hD, ← hV, Complex.ofReal_sub, Complex.ofReal_mul, ← Complex.mul_conj, ← Complex.mul_conj, hΔ]
      linear_combination (-(f.a * (starRingEnd ℂ) V)) * hV
    have g1 := cen c1 c1' D1 V1 hV1 d1 o1
    have g2 := cen c2 c2' D2 V2 hV2 d2 o2
    have hdiff : f.c * ((D1 * D2 : ℝ) * (cpx c1'.center - cpx c2'.center)) =
        -(Δ * (starRingEnd ℂ) ((D2 : ℂ) * V1 - (D1 : ℂ) * V2)) := by
      rw [map_sub, map_mul, map_mul, Complex.conj_ofReal, Complex.conj_ofReal, Complex.ofReal_mul]
      linear_combination (D2 : ℂ) * g1 - (D1 : ℂ) * g2
    have hns := congrArg Complex.normSq hdiff
    rw [Complex.normSq_neg, map_mul, map_mul, map_mul, Complex.normSq_conj, Complex.normSq_ofReal, hcross] at hns
    obtain ⟨q, hq⟩ : ∃ q, q = Complex.normSq (cpx c1'.center - cpx c2'.center) := ⟨_, rfl⟩
    obtain ⟨q0, hq0⟩ : ∃ q, q = Complex.normSq (cpx c1.center - cpx c2.center) := ⟨_, rfl⟩
    rw [← hq, ← hq0]
    rw [← hq, ← hq0] at hns
    field_simp
    by_cases hc : f.c = 0
    · -- an affine map
      rw [hc] at d1 d2 o1 o2 hΔ
      simp only [zero_mul, zero_add, map_zero, mul_zero, sub_zero] at d1 d2 o1 o2 hΔ
      have e : ((D1 : ℂ)) * (cpx c1'.center - cpx c2'.center) = f.a * (starRingEnd ℂ) f.d * (cpx c1.center - cpx c2.center) := by
        have : (D1 : ℂ) = D2 := by rw [d1, d2]
        rw [mul_sub, o1, this, o2]; ring
      have e' := congrArg Complex.normSq e
      rw [map_mul, map_mul, map_mul, Complex.normSq_conj, Complex.normSq_ofReal] at e'
      rw [← hq, ← hq0] at e'
      rw [hΔ, map_mul]
      have hD : D2 = D1 := by rw [d1, d2]
      rw [hD]
      linear_combination D1 ^ 2 * e'
    · have hcn : Complex.normSq f.c ≠ 0 := fun h => hc (Complex.normSq_eq_zero.1 h)
      refine mul_left_cancel₀ hcn ?_
      linear_combination hns
  have hr : (c1'.radius * c2'.radius) = Complex.normSq Δ / |D1 * D2| * (c1.radius * c2.radius) := by
    have a1 : 0 < c1.radius := h1
    have a2 : 0 < c2.radius := h2
    have b1 : 0 < c1'.radius := v1
    have b2 : 0 < c2'.radius := v2
    have hp : 0 < |D1 * D2| := abs_pos.2 h12
    refine (pow_left_inj₀ (by positivity) (by positivity) (two_ne_zero)).1 ?_
    rw [mul_pow, r1, r2, mul_pow, div_pow, sq_abs]
    field_simp
  refine conformalPair_of (ε := if 0 < D1 * D2 then 1 else -1) h1 h2 v1 v2 (fun h => if_pos h) (fun h => if_neg h) ?_
  unfold SameAngle
  rw [hr, (eq_div_iff h12).2 hN]
  split_ifs with hs
  · rw [abs_of_pos hs]; field_simp
  · rw [abs_of_neg (lt_of_le_of_ne (not_lt.1 hs) h12)]; field_simp

/-- Two circles that touch at `(3, 0)`, inverted in the unit circle: the images have radii `1/8` and `1/24` and still touch from outside,
at `(1/3, 0)`. -/
example : ∃ c1' c2' : Circle,
    (⟨⟨0, 0⟩, 1⟩ : Inversion).invert_circle ⟨⟨2, 0⟩, 1⟩ = .ok (.circle c1') ∧
    (⟨⟨0, 0⟩, 1⟩ : Inversion).invert_circle ⟨⟨4, 0⟩, 1⟩ = .ok (.circle c2') ∧
    ExtTangent c1'.center c1'.radius c2'.center c2'.radius := by
  have v1 : (⟨⟨2, 0⟩, 1⟩ : Circle).Valid := by unfold Circle.Valid; norm_num
  have v2 : (⟨⟨4, 0⟩, 1⟩ : Circle).Valid := by unfold Circle.Valid; norm_num
  obtain ⟨c1', e1, -⟩ := C25_invert_circle ⟨⟨0, 0⟩, 1⟩ (by norm_num) ⟨⟨2, 0⟩, 1⟩ v1 (by unfold sqDist; norm_num)
  obtain ⟨c2', e2, -⟩ := C25_invert_circle ⟨⟨0, 0⟩, 1⟩ (by norm_num) ⟨⟨4, 0⟩, 1⟩ v2 (by unfold sqDist; norm_num)
  refine ⟨c1', c2', e1, e2, ?_⟩
  refine ((C95_inversion _ _ _ _ _ v1 v2 e1 e2).ext_ext (by unfold sqDist; norm_num)).1 ?_
  unfold ExtTangent
  rw [dist_eq_iff (by norm_num)]
  unfold sqDist
  norm_num

/-- Two circles that touch from outside, the pole inside one of them: the images touch from inside. -/
example : ∃ c1' c2' : Circle,
    (⟨⟨0, 0⟩, 1⟩ : Inversion).invert_circle ⟨⟨1, 0⟩, 2⟩ = .ok (.circle c1') ∧
    (⟨⟨0, 0⟩, 1⟩ : Inversion).invert_circle ⟨⟨4, 0⟩, 1⟩ = .ok (.circle c2') ∧
    (IntTangent c1'.center c1'.radius c2'.center c2'.radius ∨ IntTangent c2'.center c2'.radius c1'.center c1'.radius) := by
  have v1 : (⟨⟨1, 0⟩, 2⟩ : Circle).Valid := by unfold Circle.Valid; norm_num
  have v2 : (⟨⟨4, 0⟩, 1⟩ : Circle).Valid := by unfold Circle.Valid; norm_num
  obtain ⟨c1', e1, -⟩ := C25_invert_circle ⟨⟨0, 0⟩, 1⟩ (by norm_num) ⟨⟨1, 0⟩, 2⟩ v1 (by unfold sqDist; norm_num)
  obtain ⟨c2', e2, -⟩ := C25_invert_circle ⟨⟨0, 0⟩, 1⟩ (by norm_num) ⟨⟨4, 0⟩, 1⟩ v2 (by unfold sqDist; norm_num)
  refine ⟨c1', c2', e1, e2, ?_⟩
  refine ((C95_inversion _ _ _ _ _ v1 v2 e1 e2).ext_int (by unfold sqDist; norm_num)).1 ?_
  unfold ExtTangent
  rw [dist_eq_iff (by norm_num)]
  unfold sqDist
  norm_num
