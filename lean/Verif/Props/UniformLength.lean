import Verif.Props.Uniform
import Verif.Props.Exact5
import Mathlib.Analysis.SpecialFunctions.Trigonometric.Deriv

/-!
# C121: uniform with respect to the length?  True on circles, false on all other ellipses

Concrete cases of the laws are at the end.
-/

open MeasureTheory Set Spec
open scoped ENNReal Real

namespace UL

theorem speed_ellipse (O : Pt) (a b α t : ℝ) : speed (ellipsePoint O a b α) t = √(b ^ 2 + (a ^ 2 - b ^ 2) * Real.sin t ^ 2) := by
  unfold speed ellipsePoint
  dsimp only
  have h1 : HasDerivAt (fun s => O.x + a * Real.cos s * Real.cos α - b * Real.sin s * Real.sin α)
      (a * (-Real.sin t) * Real.cos α - b * Real.cos t * Real.sin α) t :=
    ((((Real.hasDerivAt_cos t).const_mul a).mul_const _).const_add _).sub (((Real.hasDerivAt_sin t).const_mul b).mul_const _)
  have h2 : HasDerivAt (fun s => O.y + a * Real.cos s * Real.sin α + b * Real.sin s * Real.cos α)
      (a * (-Real.sin t) * Real.sin α + b * Real.cos t * Real.cos α) t :=
    ((((Real.hasDerivAt_cos t).const_mul a).mul_const _).const_add _).add (((Real.hasDerivAt_sin t).const_mul b).mul_const _)
  rw [h1.deriv, h2.deriv]
  congr 1
  have e1 := Real.sin_sq_add_cos_sq α
  have e2 := Real.sin_sq_add_cos_sq t
  linear_combination (a ^ 2 * Real.sin t ^ 2 + b ^ 2 * Real.cos t ^ 2) * e1 + b ^ 2 * e2

/-- The circle as an ellipse. -/
theorem circle_ellipse (O : Pt) (r t : ℝ) : ellipsePoint O r r 0 t = ⟨O.x + r * Real.cos t, O.y + r * Real.sin t⟩ := by
  unfold ellipsePoint
  rw [Real.cos_zero, Real.sin_zero]
  ext <;> simp

/-- A curve with constant speed. -/
theorem uniformByLength_of_const {γ : ℝ → Pt} {v : ℝ} (hv : 0 < v) (h : ∀ t, speed γ t = v) {prob : Set (ℝ × ℝ) → ℝ≥0∞} (hu : UniformParam γ prob) :
    UniformByLength γ prob := by
  intro E hE
  have hpos := Real.pi_pos
  have h0 : ENNReal.ofReal v ≠ 0 := by simp [hv]
  simp only [h]
  rw [hu E hE, setLIntegral_const, setLIntegral_const, Real.volume_Ioo, show π - -π = 2 * π by ring, ENNReal.mul_div_mul_left _ _ h0 (by finiteness)]

/-- The speed compared to the mean speed. -/
theorem length_compare {γ : ℝ → Pt} {prob : Set (ℝ × ℝ) → ℝ≥0∞} (hu : UniformParam γ prob) (hl : UniformByLength γ prob) {lo hi : ℝ} (hlo : 0 < lo)
    (hb : ∀ t, lo ≤ speed γ t ∧ speed γ t ≤ hi) : ∃ c : ℝ≥0∞, c ≠ ⊤ ∧ ∀ E, MeasurableSet E →
      ∫⁻ t in {t : ℝ | t ∈ Ioo (-π) π ∧ coords (γ t) ∈ E}, ENNReal.ofReal (speed γ t) = c * volume {t : ℝ | t ∈ Ioo (-π) π ∧ coords (γ t) ∈ E} := by
  have hpos := Real.pi_pos
  obtain ⟨K, hK⟩ : ∃ K, K = ∫⁻ t in Ioo (-π) π, ENNReal.ofReal (speed γ t) := ⟨_, rfl⟩
  have hK1 : K ≠ ⊤ := by
    have : K ≤ ENNReal.ofReal hi * volume (Ioo (-π) π) := by
      rw [hK, ← setLIntegral_const]
      exact lintegral_mono fun t => ENNReal.ofReal_le_ofReal (hb t).2
    refine ne_top_of_le_ne_top ?_ this
    rw [Real.volume_Ioo]
    finiteness
  have hK0 : K ≠ 0 := by
    have : ENNReal.ofReal lo * volume (Ioo (-π) π) ≤ K := by
      rw [hK, ← setLIntegral_const]
      exact lintegral_mono fun t => ENNReal.ofReal_le_ofReal (hb t).1
    intro h0
    rw [h0, Real.volume_Ioo, nonpos_iff_eq_zero, mul_eq_zero] at this
    rcases this with h | h
    · rw [ENNReal.ofReal_eq_zero] at h; linarith
    · rw [ENNReal.ofReal_eq_zero] at h; linarith
  have hp0 : ENNReal.ofReal (2 * π) ≠ 0 := by rw [ne_eq, ENNReal.ofReal_eq_zero]; linarith
  refine ⟨K / ENNReal.ofReal (2 * π), ENNReal.div_ne_top hK1 hp0, fun E hE => ?_⟩
  have h1 := hl E hE
  rw [hu E hE, ← hK, ENNReal.eq_div_iff hK0 hK1] at h1
  rw [← h1, ENNReal.div_eq_inv_mul, ENNReal.div_eq_inv_mul]
  ring

/-- Lower and upper bounds of the constant on a set of positive measure. -/
theorem const_ge {f : ℝ → ℝ} {c : ℝ≥0∞} {m : ℝ} {T : Set ℝ} (hT : MeasurableSet T) (h : ∫⁻ t in T, ENNReal.ofReal (f t) = c * volume T) (h0 : volume T ≠ 0)
    (h1 : volume T ≠ ⊤) (hf : ∀ t ∈ T, m ≤ f t) : ENNReal.ofReal m ≤ c := by
  have : ENNReal.ofReal m * volume T ≤ c * volume T := by
    rw [← h, ← setLIntegral_const]
    exact setLIntegral_mono' hT fun t ht => ENNReal.ofReal_le_ofReal (hf t ht)
  exact (ENNReal.mul_le_mul_iff_left h0 h1).1 this

theorem const_le {f : ℝ → ℝ} {c : ℝ≥0∞} {m : ℝ} {T : Set ℝ} (hT : MeasurableSet T) (h : ∫⁻ t in T, ENNReal.ofReal (f t) = c * volume T) (h0 : volume T ≠ 0)
    (h1 : volume T ≠ ⊤) (hf : ∀ t ∈ T, f t ≤ m) : c ≤ ENNReal.ofReal m := by
  have : c * volume T ≤ ENNReal.ofReal m * volume T := by
    rw [← h, ← setLIntegral_const]
    exact setLIntegral_mono' hT fun t ht => ENNReal.ofReal_le_ofReal (hf t ht)
  exact (ENNReal.mul_le_mul_iff_left h0 h1).1 this

end UL

variable {Ω : Type*} [MeasurableSpace Ω] {Pr : Measure Ω}

/-- C121: on a circle the points are uniformly distributed with respect to the length. -/
theorem C121_circle_on_length (c : Circle) (hc : c.Valid) (g : Ω → Gen) (n : ℕ) (hn : 0 < n) (j : Fin n)
    (hg : ∀ i, Pr.map (fun ω => coords ((g ω).normal n i)) = normal2) :
    UniformByLength (fun t => ⟨c.center.x + c.radius * Real.cos t, c.center.y + c.radius * Real.sin t⟩)
      (fun E => Pr {ω | RowIn (c.random_points (g ω) n "on") j E}) := by
  have hr : 0 < c.radius := hc
  refine UL.uniformByLength_of_const hr (fun t => ?_) (C121_circle_on c g n hn j hg)
  simp only [← UL.circle_ellipse]
  have := UL.speed_ellipse c.center c.radius c.radius 0 t
  rw [sub_self, zero_mul, add_zero, Real.sqrt_sq hr.le] at this
  exact this

/-- C121: on an ellipse the points are uniformly distributed with respect to the length if and only if the ellipse is a circle. -/
theorem C121_ellipse_on_length_exact (e : Ellipse) (he : e.Valid) (g : Ω → Gen) (n : ℕ) (hn : 0 < n) (j : Fin n)
    (hg : ∀ i, Pr.map (fun ω => coords ((g ω).normal n i)) = normal2) :
    UniformByLength (ellipsePoint e.center e.rmajor e.rminor e.rad) (fun E => Pr {ω | RowIn (e.random_points (g ω) n "on") j E}) ↔ e.rmajor = e.rminor := by
  obtain ⟨ha, hb⟩ := he
  have hu := C121_ellipse_on e ⟨ha, hb⟩ g n hn j hg
  obtain ⟨a, hae⟩ : ∃ a, a = e.rmajor := ⟨_, rfl⟩
  obtain ⟨b, hbe⟩ : ∃ b, b = e.rminor := ⟨_, rfl⟩
  have hpos := Real.pi_pos
  rw [← hae, ← hbe] at hu ⊢
  rw [← hae] at ha
  rw [← hbe] at hb
  constructor
  · intro hl
    have hsp := UL.speed_ellipse e.center a b e.rad
    have s01 : ∀ t, 0 ≤ Real.sin t ^ 2 ∧ Real.sin t ^ 2 ≤ 1 := fun t => ⟨sq_nonneg _, Real.sin_sq_le_one t⟩
    obtain ⟨c, hc, hE⟩ := UL.length_compare hu hl (lo := min a b) (hi := max a b) (lt_min ha hb) (fun t => by
      rw [hsp]
      obtain ⟨s0, s1⟩ := s01 t
      constructor
      · apply Real.le_sqrt_of_sq_le
        rcases le_total a b with h | h
        · rw [min_eq_left h]; nlinarith [pow_le_pow_left₀ ha.le h 2]
        · rw [min_eq_right h]; nlinarith [pow_le_pow_left₀ hb.le h 2]
      · apply Real.sqrt_le_iff.2
        rcases le_total a b with h | h
        · rw [max_eq_right h]; exact ⟨hb.le, by nlinarith [pow_le_pow_left₀ ha.le h 2]⟩
        · rw [max_eq_left h]; exact ⟨ha.le, by nlinarith [pow_le_pow_left₀ hb.le h 2]⟩)
    have hax : ∀ t, (axisCoord e.center e.rad (ellipsePoint e.center a b e.rad t)).y = b * Real.sin t := by
      intro t
      unfold axisCoord ellipsePoint
      dsimp only
      linear_combination b * Real.sin t * Real.sin_sq_add_cos_sq e.rad
    have hmc : Measurable fun p : ℝ × ℝ => (axisCoord e.center e.rad ⟨p.1, p.2⟩).y := by
      unfold axisCoord
      dsimp only
      fun_prop
    have hms : Measurable fun t : ℝ => Real.sin t ^ 2 := by fun_prop
    have hb2 : 0 < b ^ 2 := by positivity
    obtain ⟨T, hT⟩ : ∃ T, T = {t : ℝ | t ∈ Ioo (-π) π ∧ 3 / 4 ≤ Real.sin t ^ 2} := ⟨_, rfl⟩
    obtain ⟨T', hT'⟩ : ∃ T', T' = {t : ℝ | t ∈ Ioo (-π) π ∧ Real.sin t ^ 2 ≤ 1 / 4} := ⟨_, rfl⟩
    have h1 := hE {p | 3 / 4 * b ^ 2 ≤ (axisCoord e.center e.rad ⟨p.1, p.2⟩).y ^ 2} (measurableSet_le measurable_const (hmc.pow_const 2))
    have h2 := hE {p | (axisCoord e.center e.rad ⟨p.1, p.2⟩).y ^ 2 ≤ 1 / 4 * b ^ 2} (measurableSet_le (hmc.pow_const 2) measurable_const)
    have e1 : {t : ℝ | t ∈ Ioo (-π) π ∧ coords (ellipsePoint e.center a b e.rad t) ∈ {p | 3 / 4 * b ^ 2 ≤ (axisCoord e.center e.rad ⟨p.1, p.2⟩).y ^ 2}} = T := by
      rw [hT]
      ext t
      simp only [mem_setOf_eq, coords, hax]
      refine and_congr_right fun _ => ?_
      rw [mul_pow, mul_comm]
      exact mul_le_mul_iff_right₀ hb2
    have e2 : {t : ℝ | t ∈ Ioo (-π) π ∧ coords (ellipsePoint e.center a b e.rad t) ∈ {p | (axisCoord e.center e.rad ⟨p.1, p.2⟩).y ^ 2 ≤ 1 / 4 * b ^ 2}} = T' := by
      rw [hT']
      ext t
      simp only [mem_setOf_eq, coords, hax]
      refine and_congr_right fun _ => ?_
      rw [mul_pow, mul_comm (1 / 4)]
      exact mul_le_mul_iff_right₀ hb2
    rw [e1] at h1
    rw [e2] at h2
    have m1 : MeasurableSet T := by rw [hT]; exact measurableSet_Ioo.inter (measurableSet_le measurable_const hms)
    have m2 : MeasurableSet T' := by rw [hT']; exact measurableSet_Ioo.inter (measurableSet_le hms measurable_const)
    have f1 : volume T ≠ ⊤ := ne_top_of_le_ne_top (by rw [Real.volume_Ioo]; finiteness) (measure_mono (show T ⊆ Ioo (-π) π by rw [hT]; exact fun t h => h.1))
    have f2 : volume T' ≠ ⊤ := ne_top_of_le_ne_top (by rw [Real.volume_Ioo]; finiteness) (measure_mono (show T' ⊆ Ioo (-π) π by rw [hT']; exact fun t h => h.1))
    have g1 : volume T ≠ 0 := by
      have : Icc (π / 3) (π / 2) ⊆ T := by
        rw [hT]
        rintro t ⟨t1, t2⟩
        refine ⟨⟨by linarith, by linarith⟩, ?_⟩
        have h3 : Real.sin (π / 3) ≤ Real.sin t := Real.sin_le_sin_of_le_of_le_pi_div_two (by linarith) t2 t1
        rw [Real.sin_pi_div_three] at h3
        have h4 : (√3 / 2) ^ 2 = (3 / 4 : ℝ) := by rw [div_pow, Real.sq_sqrt (by norm_num)]; norm_num
        rw [← h4]
        exact pow_le_pow_left₀ (by positivity) h3 2
      intro h0
      have h5 := measure_mono_null this h0
      rw [Real.volume_Icc, ENNReal.ofReal_eq_zero] at h5
      linarith
    have g2 : volume T' ≠ 0 := by
      have : Icc 0 (π / 6) ⊆ T' := by
        rw [hT']
        rintro t ⟨t1, t2⟩
        refine ⟨⟨by linarith, by linarith⟩, ?_⟩
        have h3 : Real.sin t ≤ Real.sin (π / 6) := Real.sin_le_sin_of_le_of_le_pi_div_two (by linarith) (by linarith) t2
        rw [Real.sin_pi_div_six] at h3
        have h4 : 0 ≤ Real.sin t := Real.sin_nonneg_of_nonneg_of_le_pi t1 (by linarith)
        nlinarith
      intro h0
      have h5 := measure_mono_null this h0
      rw [Real.volume_Icc, ENNReal.ofReal_eq_zero] at h5
      linarith
    have n1 : 0 < b ^ 2 + (a ^ 2 - b ^ 2) * (3 / 4) := by nlinarith [sq_nonneg a]
    have n2 : 0 < b ^ 2 + (a ^ 2 - b ^ 2) * (1 / 4) := by nlinarith [sq_nonneg a]
    rcases lt_trichotomy a b with h | h | h
    · exfalso
      have hab : a ^ 2 < b ^ 2 := by nlinarith
      have c1 : c ≤ ENNReal.ofReal √(b ^ 2 + (a ^ 2 - b ^ 2) * (3 / 4)) := UL.const_le m1 h1 g1 f1 fun t ht => by
        rw [hT] at ht
        rw [hsp]
        exact Real.sqrt_le_sqrt (by nlinarith [ht.2])
      have c2 : ENNReal.ofReal √(b ^ 2 + (a ^ 2 - b ^ 2) * (1 / 4)) ≤ c := UL.const_ge m2 h2 g2 f2 fun t ht => by
        rw [hT'] at ht
        rw [hsp]
        exact Real.sqrt_le_sqrt (by nlinarith [ht.2])
      have := c2.trans c1
      rw [ENNReal.ofReal_le_ofReal_iff (Real.sqrt_nonneg _)] at this
      have := Real.sqrt_le_sqrt_iff n1.le |>.1 this
      nlinarith
    · exact h
    · exfalso
      have hab : b ^ 2 < a ^ 2 := by nlinarith
      have c1 : ENNReal.ofReal √(b ^ 2 + (a ^ 2 - b ^ 2) * (3 / 4)) ≤ c := UL.const_ge m1 h1 g1 f1 fun t ht => by
        rw [hT] at ht
        rw [hsp]
        exact Real.sqrt_le_sqrt (by nlinarith [ht.2])
      have c2 : c ≤ ENNReal.ofReal √(b ^ 2 + (a ^ 2 - b ^ 2) * (1 / 4)) := UL.const_le m2 h2 g2 f2 fun t ht => by
        rw [hT'] at ht
        rw [hsp]
        exact Real.sqrt_le_sqrt (by nlinarith [ht.2])
      have := c1.trans c2
      rw [ENNReal.ofReal_le_ofReal_iff (Real.sqrt_nonneg _)] at this
      have := Real.sqrt_le_sqrt_iff n2.le |>.1 this
      nlinarith
  · intro hab
    refine UL.uniformByLength_of_const hb (fun t => ?_) hu
    rw [UL.speed_ellipse, hab, sub_self, zero_mul, add_zero, Real.sqrt_sq hb.le]

/-- C72, with probability one: if the normal vectors drawn have the normal law, then almost surely no error occurs, and all the points of `Circle.random_points` and
`Ellipse.random_points` are where they should be. -/
theorem C72_almost_surely (c : Circle) (e : Ellipse) (he : e.Valid) (g : Ω → Gen) (hv : ∀ ω, (g ω).Valid) (n : ℕ) (hn : 0 < n)
    (hg : ∀ i, Pr.map (fun ω => coords ((g ω).normal n i)) = normal2) :
    ∀ᵐ ω ∂Pr, (∃ l, c.random_points (g ω) n "on" = .ok l ∧ PointsIn (OnCircle c.center c.radius) n l) ∧
      (∃ l, c.random_points (g ω) n "in" = .ok l ∧ PointsIn (InDisk c.center c.radius) n l) ∧
      (∃ l, e.random_points (g ω) n "on" = .ok l ∧ PointsIn (OnEllipse e.center e.rmajor e.rminor e.rad) n l) ∧
      (∃ l, e.random_points (g ω) n "in" = .ok l ∧ PointsIn (InEllipse e.center e.rmajor e.rminor e.rad) n l) := by
  filter_upwards [UL.normal_ne hg] with ω hω
  have h1 := C72_circle_exact c (g ω) (hv ω) n (by exact_mod_cast hn)
  have h2 := C72_ellipse_exact e he (g ω) (hv ω) n (by exact_mod_cast hn)
  exact ⟨h1.1.2 hω, h1.2.2 hω, h2.1.2 hω, h2.2.2 hω⟩

/-! Concrete cases: one row, drawn with a generator that has the required law. -/

namespace UL

/-- A generator given by its two uniform numbers. -/
def genTri (ω : ℝ × ℝ) : Gen := ⟨fun _ _ => ⟨0, 0⟩, fun _ _ => ω.1, fun _ _ => ω.2, fun _ _ _ _ => 0⟩

/-- A generator given by its normal vector and one uniform number. -/
def genCirc (ω : (ℝ × ℝ) × ℝ) : Gen := ⟨fun _ _ => ⟨ω.1.1, ω.1.2⟩, fun _ _ => ω.2, fun _ _ => 0, fun _ _ _ _ => 0⟩

/-- A generator given by its normal vector. -/
def genNorm (ω : ℝ × ℝ) : Gen := ⟨fun _ _ => ⟨ω.1, ω.2⟩, fun _ _ => 0, fun _ _ => 0, fun _ _ _ _ => 0⟩

/-- A generator given by a uniform number of `[0, 1)`. -/
def genEdge (ω : ℝ) : Gen := ⟨fun _ _ => ⟨0, 0⟩, fun _ _ => 0, fun _ _ => 0, fun lo hi _ _ => lo + ω * (hi - lo)⟩

theorem disk_area (O : Pt) {r : ℝ} (hr : 0 < r) : volume (region (InDisk O r)) = ENNReal.ofReal (π * r ^ 2) := by
  have hdet : r * r - 0 * 0 ≠ 0 := by nlinarith
  have h := aff_area hdet (coords O) (region (InDisk O r))
  rw [← h, show {p | lin r 0 0 r p + coords O ∈ region (InDisk O r)} = disc from ?_, disc_area, ← ENNReal.ofReal_mul Real.pi_pos.le]
  · congr 2
    rw [abs_of_nonneg (by nlinarith)]
    ring
  · ext p
    rw [mem_setOf_eq, lin_apply]
    unfold region InDisk sqDist disc coords
    simp only [Prod.mk_add_mk, mem_setOf_eq]
    rw [show (r * p.1 + 0 * p.2 + O.x - O.x) ^ 2 + (0 * p.1 + r * p.2 + O.y - O.y) ^ 2 = r ^ 2 * (p.1 ^ 2 + p.2 ^ 2) by ring]
    constructor
    · intro h; exact le_of_mul_le_mul_left (by linarith) (by positivity : 0 < r ^ 2)
    · intro h; nlinarith [sq_nonneg r]

end UL

/-- A point of the triangle (0, 0), (1, 0), (0, 1) is in the half-sized triangle with probability 1/4. -/
example : (unif01.prod unif01) {ω | RowIn ((⟨⟨0, 0⟩, ⟨1, 0⟩, ⟨0, 1⟩⟩ : Triangle).random_points (UL.genTri ω) ((1 : ℕ) : ℤ) "in") (0 : Fin 1)
    (region (InClosedTriangle ⟨0, 0⟩ ⟨1 / 2, 0⟩ ⟨0, 1 / 2⟩))} = 1 / 4 := by
  have hc : cross ((⟨0, 1⟩ : Pt) - ⟨1, 0⟩) (⟨1, 0⟩ - ⟨0, 0⟩) = -1 := by unfold cross; simp
  have hc' : cross ((⟨0, 1 / 2⟩ : Pt) - ⟨1 / 2, 0⟩) (⟨1 / 2, 0⟩ - ⟨0, 0⟩) = -1 / 4 := by unfold cross; simp; norm_num
  have h := C121_triangle_in (Pr := unif01.prod unif01) ⟨⟨0, 0⟩, ⟨1, 0⟩, ⟨0, 1⟩⟩ (by unfold Collinear cross; simp) UL.genTri 1 one_pos 0 (by
    rw [show (fun ω => ((UL.genTri ω).rand 1 0, (UL.genTri ω).rand' 1 0)) = id from rfl, Measure.map_id])
  have hsub : region (InClosedTriangle ⟨0, 0⟩ ⟨1 / 2, 0⟩ ⟨0, 1 / 2⟩) ⊆ region (InClosedTriangle ⟨0, 0⟩ ⟨1, 0⟩ ⟨0, 1⟩) := by
    rintro p ⟨u, v, w, hu, hv, hw, hs, hM⟩
    refine ⟨1 - v / 2 - w / 2, v / 2, w / 2, by linarith, by linarith, by linarith, by ring, ?_⟩
    rw [hM]
    ext <;> simp <;> ring
  have hmeas : MeasurableSet (region (InClosedTriangle ⟨0, 0⟩ ⟨1 / 2, 0⟩ ⟨0, 1 / 2⟩)) := by
    have : region (InClosedTriangle ⟨0, 0⟩ ⟨1 / 2, 0⟩ ⟨0, 1 / 2⟩) = {p | 0 ≤ p.1} ∩ ({p | 0 ≤ p.2} ∩ {p : ℝ × ℝ | p.1 + p.2 ≤ 1 / 2}) := by
      ext p
      constructor
      · rintro ⟨u, v, w, hu, hv, hw, hs, hM⟩
        have hx := congrArg Pt.x hM
        have hy := congrArg Pt.y hM
        simp at hx hy
        refine ⟨?_, ?_, ?_⟩ <;> simp only [mem_setOf_eq] <;> linarith
      · rintro ⟨h1, h2, h3⟩
        simp only [mem_setOf_eq] at h1 h2 h3
        refine ⟨1 - 2 * p.1 - 2 * p.2, 2 * p.1, 2 * p.2, by linarith, by linarith, by linarith, by ring, ?_⟩
        ext <;> simp <;> ring
    rw [this]
    exact (measurableSet_le measurable_const measurable_fst).inter ((measurableSet_le measurable_const measurable_snd).inter
      (measurableSet_le (measurable_fst.add measurable_snd) measurable_const))
  refine (h.2.2 _ hmeas).trans ?_
  dsimp only
  rw [inter_eq_self_of_subset_left hsub, UL.tri_area (by rw [hc']; norm_num), UL.tri_area (by rw [hc]; norm_num), hc, hc',
    ← ENNReal.ofReal_div_of_pos (by norm_num), show |(-1 / 4 : ℝ)| / 2 / (|(-1 : ℝ)| / 2) = 1 / 4 by norm_num [abs_of_neg, abs_of_pos],
    ENNReal.ofReal_div_of_pos (by norm_num)]
  norm_num

/-- A point of a disc of radius 2 is in the disc of radius 1 with the same centre with probability 1/4. -/
example : (normal2.prod unif01) {ω | RowIn ((⟨⟨3, 4⟩, 2⟩ : Circle).random_points (UL.genCirc ω) ((1 : ℕ) : ℤ) "in") (0 : Fin 1) (region (InDisk ⟨3, 4⟩ 1))} = 1 / 4 := by
  have h := C121_circle_in (Pr := normal2.prod unif01) ⟨⟨3, 4⟩, 2⟩ (by norm_num [Circle.Valid]) UL.genCirc 1 one_pos 0 (fun i => by
    rw [show (fun ω => (coords ((UL.genCirc ω).normal 1 i), (UL.genCirc ω).rand 1 i)) = id from rfl, Measure.map_id])
  have hsub : region (InDisk ⟨3, 4⟩ 1) ⊆ region (InDisk ⟨3, 4⟩ 2) := by
    intro p hp
    unfold region InDisk at *
    simp only [mem_setOf_eq] at *
    linarith
  have hmeas : MeasurableSet (region (InDisk ⟨3, 4⟩ 1)) := by
    unfold region InDisk sqDist
    exact measurableSet_le (by fun_prop) measurable_const
  have hpi := Real.pi_pos
  refine (h.2.2 _ hmeas).trans ?_
  dsimp only
  rw [inter_eq_self_of_subset_left hsub, UL.disk_area _ one_pos, UL.disk_area _ two_pos, ← ENNReal.ofReal_div_of_pos (by positivity),
    show π * 1 ^ 2 / (π * 2 ^ 2) = 1 / 4 by field_simp; norm_num, ENNReal.ofReal_div_of_pos (by norm_num)]
  norm_num

/-- The circle with centre (3, 4): the point is above the centre with probability 1/2. -/
example : normal2 {ω | RowIn ((⟨⟨3, 4⟩, 2⟩ : Circle).random_points (UL.genNorm ω) ((1 : ℕ) : ℤ) "on") (0 : Fin 1) {p | 4 ≤ p.2}} = 1 / 2 := by
  have h := C121_circle_on (Pr := normal2) ⟨⟨3, 4⟩, 2⟩ UL.genNorm 1 one_pos 0 (fun i => by
    rw [show (fun ω => coords ((UL.genNorm ω).normal 1 i)) = id from rfl, Measure.map_id])
  have hpi := Real.pi_pos
  have e : {t : ℝ | t ∈ Ioo (-π) π ∧ coords ⟨3 + 2 * Real.cos t, 4 + 2 * Real.sin t⟩ ∈ {p : ℝ × ℝ | 4 ≤ p.2}} = Ico 0 π := by
    ext t
    simp only [mem_setOf_eq, coords, mem_Ioo, mem_Ico]
    constructor
    · rintro ⟨⟨h1, h2⟩, h3⟩
      refine ⟨?_, h2⟩
      by_contra hc
      have := Real.sin_neg_of_neg_of_neg_pi_lt (not_le.1 hc) h1
      linarith
    · rintro ⟨h1, h2⟩
      have := Real.sin_nonneg_of_nonneg_of_le_pi h1 h2.le
      exact ⟨⟨by linarith, h2⟩, by linarith⟩
  refine (h _ (measurableSet_le measurable_const measurable_snd)).trans ?_
  dsimp only
  rw [e, Real.volume_Ico, ← ENNReal.ofReal_div_of_pos (by positivity),
    show (π - 0) / (2 * π) = 1 / 2 by field_simp; norm_num, ENNReal.ofReal_div_of_pos (by norm_num)]
  norm_num

/-- The ellipse with radii 2 and 1: the point is not uniformly distributed with respect to the length. -/
example : ¬ UniformByLength (ellipsePoint ⟨0, 0⟩ 2 1 (⟨⟨0, 0⟩, 2, 1, 0, true⟩ : Ellipse).rad)
    (fun E => normal2 {ω | RowIn ((⟨⟨0, 0⟩, 2, 1, 0, true⟩ : Ellipse).random_points (UL.genNorm ω) ((1 : ℕ) : ℤ) "on") (0 : Fin 1) E}) := by
  have h := C121_ellipse_on_length_exact (Pr := normal2) ⟨⟨0, 0⟩, 2, 1, 0, true⟩ (by norm_num [Ellipse.Valid]) UL.genNorm 1 one_pos 0 (fun i => by
    rw [show (fun ω => coords ((UL.genNorm ω).normal 1 i)) = id from rfl, Measure.map_id])
  rw [h]
  norm_num

/-- The law of the number drawn by `genEdge`. -/
theorem UL.genEdge_law : ∀ L, 0 < L → unif01.map (fun ω => (UL.genEdge ω).uniform 0 L 1 (0 : Fin 1)) = unif 0 L := by
  intro L hL
  ext E hE
  have hm : Measurable fun ω : ℝ => (UL.genEdge ω).uniform 0 L 1 0 := by
    unfold UL.genEdge
    dsimp only
    fun_prop
  have e : (fun ω : ℝ => (UL.genEdge ω).uniform 0 L 1 0) ⁻¹' E ∩ Ico 0 1 = (fun u => u * L) ⁻¹' (E ∩ Ico 0 L) := by
    ext u
    unfold UL.genEdge
    simp only [mem_inter_iff, mem_preimage, mem_Ico, zero_add, sub_zero]
    refine and_congr_right fun _ => ?_
    constructor
    · rintro ⟨h1, h2⟩; exact ⟨by positivity, by nlinarith⟩
    · rintro ⟨h1, h2⟩
      exact ⟨by by_contra hc; nlinarith [not_le.1 hc], by by_contra hc; nlinarith [not_lt.1 hc]⟩
  unfold unif unif01
  rw [Measure.map_apply hm hE, Measure.restrict_apply (hm hE), e, Real.volume_preimage_mul_right hL.ne', Measure.smul_apply, Measure.restrict_apply hE,
    abs_of_pos (by positivity), sub_zero, one_div, smul_eq_mul]

/-- The triangle (0, 0), (4, 0), (0, 3): the point is on the edge of length 4 with probability 4 / 12. -/
example : unif01 {ω | RowIn ((⟨⟨0, 0⟩, ⟨4, 0⟩, ⟨0, 3⟩⟩ : Triangle).random_points (UL.genEdge ω) ((1 : ℕ) : ℤ) "on") (0 : Fin 1) {p | p.2 = 0}} = 1 / 3 := by
  have h := C121_triangle_on (Pr := unif01) ⟨⟨0, 0⟩, ⟨4, 0⟩, ⟨0, 3⟩⟩ (by simp [Pt.ext_iff]) (by simp [Pt.ext_iff]) (by simp [Pt.ext_iff]) UL.genEdge 1 one_pos 0
    UL.genEdge_law
  refine (h _ (measurableSet_eq_fun measurable_snd measurable_const)).trans ?_
  have d1 : Spec.dist ⟨0, 0⟩ ⟨4, 0⟩ = 4 := by
    unfold Spec.dist sqDist
    rw [show (0 - 4 : ℝ) ^ 2 + (0 - 0) ^ 2 = 4 ^ 2 by norm_num]; exact Real.sqrt_sq (by norm_num)
  have d2 : Spec.dist ⟨4, 0⟩ ⟨0, 3⟩ = 5 := by
    unfold Spec.dist sqDist
    rw [show (4 - 0 : ℝ) ^ 2 + (0 - 3) ^ 2 = 5 ^ 2 by norm_num]; exact Real.sqrt_sq (by norm_num)
  have d3 : Spec.dist ⟨0, 3⟩ ⟨0, 0⟩ = 3 := by
    unfold Spec.dist sqDist
    rw [show (0 - 0 : ℝ) ^ 2 + (3 - 0) ^ 2 = 3 ^ 2 by norm_num]; exact Real.sqrt_sq (by norm_num)
  unfold lengthIn
  dsimp only
  rw [d1, d2, d3]
  have s1 : {t : ℝ | t ∈ Icc 0 1 ∧ coords ((⟨0, 0⟩ : Pt) + t • (⟨4, 0⟩ - ⟨0, 0⟩)) ∈ {p : ℝ × ℝ | p.2 = 0}} = Icc 0 1 := by
    ext t; simp [coords]
  have s2 : {t : ℝ | t ∈ Icc 0 1 ∧ coords ((⟨4, 0⟩ : Pt) + t • (⟨0, 3⟩ - ⟨4, 0⟩)) ∈ {p : ℝ × ℝ | p.2 = 0}} = {0} := by
    ext t
    simp only [coords, mem_setOf_eq, mem_Icc, mem_singleton_iff, Pt.add_y, Pt.smul_y, Pt.sub_y]
    constructor
    · rintro ⟨-, h⟩; linarith
    · rintro rfl; norm_num
  have s3 : {t : ℝ | t ∈ Icc 0 1 ∧ coords ((⟨0, 3⟩ : Pt) + t • (⟨0, 0⟩ - ⟨0, 3⟩)) ∈ {p : ℝ × ℝ | p.2 = 0}} = {1} := by
    ext t
    simp only [coords, mem_setOf_eq, mem_Icc, mem_singleton_iff, Pt.add_y, Pt.smul_y, Pt.sub_y]
    constructor
    · rintro ⟨-, h⟩; linarith
    · rintro rfl; norm_num
  rw [s1, s2, s3, Real.volume_Icc, Real.volume_singleton, Real.volume_singleton, mul_zero, mul_zero, add_zero, add_zero, ← ENNReal.ofReal_mul (by norm_num),
    ← ENNReal.ofReal_div_of_pos (by norm_num), show (4 * (1 - 0) / (4 + 5 + 3) : ℝ) = 1 / 3 by norm_num, ENNReal.ofReal_div_of_pos (by norm_num)]
  norm_num

/-- The generator `genNorm` is valid, with the normal law. -/
example : ∀ᵐ ω ∂normal2, ∃ l, (⟨⟨3, 4⟩, 2⟩ : Circle).random_points (UL.genNorm ω) ((1 : ℕ) : ℤ) "on" = .ok l ∧ PointsIn (OnCircle ⟨3, 4⟩ 2) (1 : ℕ) l := by
  have := C72_almost_surely (Pr := normal2) ⟨⟨3, 4⟩, 2⟩ ⟨⟨0, 0⟩, 2, 1, 0, true⟩ (by norm_num [Ellipse.Valid])
    (fun ω => (⟨(UL.genNorm ω).normal, fun _ _ => 0, fun _ _ => 0, fun lo _ _ _ => lo⟩ : Gen))
    (fun ω => ⟨by norm_num, by norm_num, fun lo hi n j h => ⟨le_refl _, h⟩⟩) 1 one_pos (fun i => by
      rw [show (fun ω => coords ((UL.genNorm ω).normal 1 i)) = id from rfl, Measure.map_id])
  filter_upwards [this] with ω hω
  exact hω.1

namespace UL

instance : IsProbabilityMeasure normal2 := ⟨normal2_univ⟩
instance : IsProbabilityMeasure unif01 := ⟨unif01_univ⟩

/-- A generator of two rows, given by its normal vectors and uniform numbers. -/
def genTwo (ω : Fin 2 → (ℝ × ℝ) × ℝ) : Gen :=
  ⟨fun _ j => if h : j.1 < 2 then ⟨(ω ⟨j, h⟩).1.1, (ω ⟨j, h⟩).1.2⟩ else ⟨0, 0⟩, fun _ j => if h : j.1 < 2 then (ω ⟨j, h⟩).2 else 0, fun _ _ => 0, fun _ _ _ _ => 0⟩

theorem genTwo_normal (j : Fin 2) (ω : Fin 2 → (ℝ × ℝ) × ℝ) : coords ((genTwo ω).normal 2 j) = (ω j).1 := by
  unfold genTwo coords
  dsimp only
  rw [dif_pos j.2]

theorem genTwo_rand (j : Fin 2) (ω : Fin 2 → (ℝ × ℝ) × ℝ) : (genTwo ω).rand 2 j = (ω j).2 := by
  unfold genTwo
  dsimp only
  rw [dif_pos j.2]

theorem genTwo_law (i : Fin 2) : (Measure.pi fun _ : Fin 2 => normal2.prod unif01).map (fun ω => (coords ((genTwo ω).normal 2 i), (genTwo ω).rand 2 i)) =
    normal2.prod unif01 := by
  simp only [genTwo_normal, genTwo_rand]
  exact (measurePreserving_eval (fun _ : Fin 2 => normal2.prod unif01) i).map_eq

end UL

/-- Two independent points, uniformly distributed in the region of the ellipse with radii 2 and 1. -/
example : (∀ j : Fin 2, UniformOn (region (InEllipse ⟨0, 0⟩ 2 1 (⟨⟨0, 0⟩, 2, 1, 30, true⟩ : Ellipse).rad))
    fun E => (Measure.pi fun _ : Fin 2 => normal2.prod unif01) {ω | RowIn ((⟨⟨0, 0⟩, 2, 1, 30, true⟩ : Ellipse).random_points (UL.genTwo ω) ((2 : ℕ) : ℤ) "in") j E}) ∧
    IndepRows (Measure.pi fun _ : Fin 2 => normal2.prod unif01) (fun ω => (⟨⟨0, 0⟩, 2, 1, 30, true⟩ : Ellipse).random_points (UL.genTwo ω) ((2 : ℕ) : ℤ) "in") 2 := by
  refine ⟨fun j => C121_ellipse_in ⟨⟨0, 0⟩, 2, 1, 30, true⟩ (by norm_num [Ellipse.Valid]) UL.genTwo 2 two_pos j UL.genTwo_law,
    (C121_ellipse_independent ⟨⟨0, 0⟩, 2, 1, 30, true⟩ (by norm_num [Ellipse.Valid]) UL.genTwo 2 two_pos fun i => UL.marginal i (UL.genTwo_law i)).1 ?_⟩
  simp only [UL.genTwo_normal, UL.genTwo_rand]
  exact ProbabilityTheory.iIndepFun_pi (X := fun _ q => q) (μ := fun _ : Fin 2 => normal2.prod unif01) fun _ => aemeasurable_id
