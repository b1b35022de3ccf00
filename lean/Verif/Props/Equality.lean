import Verif.Props.EllipseAngle
import Verif.Props.Circle
import Mathlib.Analysis.SpecialFunctions.Trigonometric.Bounds

/-!
# C75, C77: `is_equal` of circles, lines and ellipses: reflexivity, symmetry, soundness
-/

open Spec Real Classical

/-! ## Tolerances -/

theorem npClose_symm {a b : ℝ} (h : npClose a b) (hab : |b| ≤ |a|) : npClose b a := by
  unfold npClose at *
  rw [abs_sub_comm]
  linarith

/-! ## C75 -/

/-- C75: the three `is_equal` methods are reflexive. -/
theorem C75_reflexive : (∀ c : Circle, c.is_equal c) ∧ (∀ l : Line, l.is_equal l) ∧ ∀ e : Ellipse, e.is_equal e := by
  refine ⟨fun c => ⟨approx_equal_refl _, npClose_refl _, npClose_refl _⟩, fun l => ?_, fun e => ?_⟩
  · unfold Line.is_equal
    dsimp only
    rw [if_pos (approx_equal_refl _)]
    exact approx_equal_refl _
  · exact ⟨npClose_refl _, npClose_refl _, npClose_refl _, npClose_refl _, npClose_refl _⟩

/-- C75, partial: `Circle.is_equal` is symmetric when the coordinates of the center of the argument are not larger in
absolute value (in particular for concentric circles).  Missing: the other pairs, for which symmetry may fail. -/
theorem C75_circle_symmetric_partial (c d : Circle) (hx : |d.center.x| ≤ |c.center.x|) (hy : |d.center.y| ≤ |c.center.y|)
    (h : c.is_equal d) : d.is_equal c :=
  ⟨approx_equal_symm h.1, npClose_symm h.2.1 hx, npClose_symm h.2.2 hy⟩

/-- C75, partial: `Line.is_equal` is symmetric on lines at the same distance of the origin, up to the tolerance of
`approx_equal_`.  Missing: the other pairs, for which symmetry may fail. -/
theorem C75_line_symmetric_partial (l m : Line) (ho : approx_equal_ l.direction_offset.2 m.direction_offset.2) :
    l.is_equal m ↔ m.is_equal l := by
  unfold Line.is_equal
  dsimp only
  rw [if_pos ho, if_pos (approx_equal_symm ho)]
  exact ⟨fun h => approx_equal_symm h, fun h => approx_equal_symm h⟩

/-- C75, partial: `Ellipse.is_equal` is symmetric when the parameters of the argument are not larger in absolute value.
Missing: the other pairs, for which symmetry may fail. -/
theorem C75_ellipse_symmetric_partial (e f : Ellipse) (hx : |f.center.x| ≤ |e.center.x|) (hy : |f.center.y| ≤ |e.center.y|)
    (ha : |f.rmajor| ≤ |e.rmajor|) (hb : |f.rminor| ≤ |e.rminor|) (hd : f.degrees = e.degrees) (hα : f.alpha = e.alpha)
    (h : e.is_equal f) : f.is_equal e := by
  obtain ⟨h1, h2, h3, h4, -⟩ := h
  refine ⟨npClose_symm h1 hx, npClose_symm h2 hy, npClose_symm h3 ha, npClose_symm h4 hb, ?_⟩
  rw [hd, hα]
  exact npClose_refl _

/-- Symmetry fails for the tolerance of numpy. -/
theorem npClose_asymm : npClose (1000 : ℝ) (1000 + 100001 / 10 ^ 7) ∧ ¬ npClose (1000 + 100001 / 10 ^ 7 : ℝ) 1000 := by
  unfold npClose
  constructor
  · rw [abs_of_neg (by norm_num), abs_of_pos (by norm_num)]; norm_num
  · rw [not_le, abs_of_pos (by norm_num), abs_of_pos (by norm_num)]; norm_num

/-- C75 fails: `Circle.is_equal` is not symmetric. -/
theorem C75_circle_counterexample :
    let c : Circle := ⟨⟨1000, 0⟩, 1⟩
    let d : Circle := ⟨⟨1000 + 100001 / 10 ^ 7, 0⟩, 1⟩
    c.Valid ∧ d.Valid ∧ c.is_equal d ∧ ¬ d.is_equal c := by
  refine ⟨one_pos, one_pos, ⟨approx_equal_refl _, npClose_asymm.1, npClose_refl _⟩, fun h => npClose_asymm.2 h.2.1⟩

/-- C75 fails: `Ellipse.is_equal` is not symmetric. -/
theorem C75_ellipse_counterexample :
    let e : Ellipse := ⟨⟨1000, 0⟩, 2, 1, 0, true⟩
    let f : Ellipse := ⟨⟨1000 + 100001 / 10 ^ 7, 0⟩, 2, 1, 0, true⟩
    e.Valid ∧ f.Valid ∧ e.is_equal f ∧ ¬ f.is_equal e := by
  refine ⟨⟨two_pos, one_pos⟩, ⟨two_pos, one_pos⟩, ⟨npClose_asymm.1, npClose_refl _, npClose_refl _, npClose_refl _, npClose_refl _⟩,
    fun h => npClose_asymm.2 h.1⟩

/-- C75 fails: `Line.is_equal` is not symmetric. -/
theorem C75_line_counterexample :
    let l : Line := ⟨⟨1000, 0⟩, ⟨1000, 1⟩, true, true⟩
    let m : Line := ⟨⟨1000 + 100001 / 10 ^ 7, 0⟩, ⟨1000 + 100001 / 10 ^ 7, 1⟩, true, true⟩
    l.Valid ∧ m.Valid ∧ l.is_equal m ∧ ¬ m.is_equal l := by
  intro l m
  have el : l.direction_offset = (0, 1000) := by
    unfold Line.direction_offset
    dsimp only [l]
    rw [if_pos rfl, if_pos (by norm_num)]
  have em : m.direction_offset = (0, 1000 + 100001 / 10 ^ 7) := by
    unfold Line.direction_offset
    dsimp only [m]
    rw [if_pos rfl, if_pos (by norm_num)]
  have hn : ¬ approx_equal_ (1000 : ℝ) (1000 + 100001 / 10 ^ 7) := by
    intro h
    have := approx_equal_bound h
    rw [abs_of_neg (by norm_num), abs_of_pos (by norm_num), abs_of_pos (by norm_num), max_eq_right (by norm_num)] at this
    norm_num at this
  refine ⟨?_, ?_, ?_, ?_⟩
  · show ¬ allclose _ _
    unfold allclose npClose; norm_num [l]
  · show ¬ allclose _ _
    unfold allclose npClose; norm_num [m]
  · unfold Line.is_equal
    rw [el, em]
    dsimp only
    rw [if_neg hn]
    exact ⟨npClose_refl _, npClose_asymm.1⟩
  · unfold Line.is_equal
    rw [el, em]
    dsimp only
    rw [if_neg (fun h => hn (approx_equal_symm h))]
    exact fun h => npClose_asymm.2 h.2

/-- Hypotheses met: two concentric circles with different but close radii. -/
example : let c : Circle := ⟨⟨5, 3⟩, 1⟩
    let d : Circle := ⟨⟨5, 3⟩, 1 + 1 / 10 ^ 10⟩
    |d.center.x| ≤ |c.center.x| ∧ |d.center.y| ≤ |c.center.y| ∧ c.is_equal d := by
  refine ⟨le_refl _, le_refl _, Or.inl ?_, npClose_refl _, npClose_refl _⟩
  unfold isclose
  rw [abs_of_neg (by norm_num), abs_of_pos (by norm_num), abs_of_pos (by norm_num), max_eq_right (by norm_num)]
  norm_num

/-! ## Soundness of the equality tests -/

/-- The distance is at most the sum of the distances of the coordinates. -/
theorem dist_le_coords (P Q : Pt) : Spec.dist P Q ≤ |P.x - Q.x| + |P.y - Q.y| := by
  unfold Spec.dist
  rw [Real.sqrt_le_left (by positivity)]
  unfold sqDist
  have h1 := sq_abs (P.x - Q.x)
  have h2 := sq_abs (P.y - Q.y)
  nlinarith [abs_nonneg (P.x - Q.x), abs_nonneg (P.y - Q.y), mul_nonneg (abs_nonneg (P.x - Q.x)) (abs_nonneg (P.y - Q.y))]

/-- C75, soundness of the equality test: when `Circle.is_equal` answers true, every point of the first circle is close to a
point of the second one. -/
theorem C75_circle_sound (c d : Circle) (hc : c.Valid) (hd : d.Valid) (h : c.is_equal d) (P : Pt)
    (hP : OnCircle c.center c.radius P) :
    ∃ Q, OnCircle d.center d.radius Q ∧
      Spec.dist P Q ≤ 1 / 10 ^ 7 + 1 / 10 ^ 5 * (|d.center.x| + |d.center.y|) + 4 / 10 ^ 9 * d.radius := by
  have hcr : 0 < c.radius := hc
  have hdr : 0 < d.radius := hd
  obtain ⟨hr, hx, hy⟩ := h
  have hr := approx_equal_bound hr
  rw [abs_of_pos hcr, abs_of_pos hdr] at hr
  have hr2 : c.radius ≤ 2 * d.radius + 1 := by
    by_contra hh
    push Not at hh
    rw [abs_of_pos (by linarith), max_eq_left (by linarith)] at hr
    nlinarith
  have hr3 : |c.radius - d.radius| ≤ 1 / 10 ^ 9 * (2 * d.radius + 2) := by
    refine hr.trans ?_
    have : max c.radius d.radius ≤ 2 * d.radius + 1 := max_le hr2 (by linarith)
    nlinarith
  unfold npClose at hx hy
  have hPu : ((P.x - c.center.x) / c.radius) ^ 2 + ((P.y - c.center.y) / c.radius) ^ 2 = 1 := by
    unfold OnCircle sqDist at hP
    field_simp
    linarith
  obtain ⟨t, t1, t2⟩ := exists_angle hPu
  have ex : P.x = c.center.x + c.radius * cos t := by rw [← t1]; field_simp; ring
  have ey : P.y = c.center.y + c.radius * sin t := by rw [← t2]; field_simp; ring
  refine ⟨⟨d.center.x + d.radius * cos t, d.center.y + d.radius * sin t⟩, ?_, ?_⟩
  · unfold OnCircle sqDist
    have := sin_sq_add_cos_sq t
    simp only
    linear_combination d.radius ^ 2 * this
  · refine (dist_le_coords _ _).trans ?_
    dsimp only
    rw [ex, ey]
    have b1 : |(c.radius - d.radius) * cos t| ≤ |c.radius - d.radius| := by
      rw [abs_mul]
      have := abs_cos_le_one t
      nlinarith [abs_nonneg (c.radius - d.radius)]
    have b2 : |(c.radius - d.radius) * sin t| ≤ |c.radius - d.radius| := by
      rw [abs_mul]
      have := abs_sin_le_one t
      nlinarith [abs_nonneg (c.radius - d.radius)]
    have c1 := abs_add_le (c.center.x - d.center.x) ((c.radius - d.radius) * cos t)
    have c2 := abs_add_le (c.center.y - d.center.y) ((c.radius - d.radius) * sin t)
    rw [show c.center.x + c.radius * cos t - (d.center.x + d.radius * cos t) =
      c.center.x - d.center.x + (c.radius - d.radius) * cos t by ring,
      show c.center.y + c.radius * sin t - (d.center.y + d.radius * sin t) =
      c.center.y - d.center.y + (c.radius - d.radius) * sin t by ring]
    linarith

/-- Adding half turns to the angle does not change the ellipse. -/
theorem onEllipse_half_turns {O : Pt} {a b α : ℝ} (k : ℤ) {P : Pt} :
    OnEllipse O a b (α + k * π) P ↔ OnEllipse O a b α P := by
  have h1 : ((-1 : ℝ) ^ k) * ((-1 : ℝ) ^ k) = 1 := by
    rw [← mul_zpow]; norm_num
  constructor
  · rintro ⟨t, rfl⟩
    refine ⟨t + k * π, ?_⟩
    unfold ellipsePoint
    rw [cos_add_int_mul_pi, sin_add_int_mul_pi, cos_add_int_mul_pi, sin_add_int_mul_pi]
    ext <;> ring
  · rintro ⟨t, rfl⟩
    refine ⟨t + k * π, ?_⟩
    unfold ellipsePoint
    rw [cos_add_int_mul_pi, sin_add_int_mul_pi, cos_add_int_mul_pi, sin_add_int_mul_pi]
    ext
    · dsimp only
      linear_combination (-a * cos t * cos α + b * sin t * sin α) * h1
    · dsimp only
      linear_combination (-a * cos t * sin α - b * sin t * cos α) * h1

/-- The angle in degrees used by `is_equal`. -/
noncomputable def Ellipse.deg (e : Ellipse) : ℝ := if e.degrees = true then e.alpha else e.alpha * (180 / π)

theorem Ellipse.onE_mod (e : Ellipse) (P : Pt) : OnEllipse e.center e.rmajor e.rminor e.rad P ↔
    OnEllipse e.center e.rmajor e.rminor (pyMod e.deg 180 * (π / 180)) P := by
  have hπ := pi_ne_zero
  have : e.rad = pyMod e.deg 180 * (π / 180) + (⌊e.deg / 180⌋ : ℤ) * π := by
    have h1 : e.rad = e.deg * (π / 180) := by
      unfold Ellipse.rad Ellipse.deg
      split_ifs
      · ring
      · field_simp
    rw [h1]
    unfold pyMod
    ring
  rw [this, onEllipse_half_turns]

set_option maxHeartbeats 1000000 in
/-- C77, soundness of the equality test: when `Ellipse.is_equal` answers true, every point of the first ellipse is close to
a point of the second one. -/
theorem C77_sound (e f : Ellipse) (he : e.Valid) (hf : f.Valid) (h : e.is_equal f) (P : Pt)
    (hP : OnEllipse e.center e.rmajor e.rminor e.rad P) :
    ∃ Q, OnEllipse f.center f.rmajor f.rminor f.rad Q ∧
      Spec.dist P Q ≤ 1 / 10 ^ 7 + 1 / 10 ^ 5 * (|f.center.x| + |f.center.y|) + 1 / 10 ^ 4 * (f.rmajor + f.rminor) := by
  obtain ⟨he1, he2⟩ := he
  obtain ⟨hf1, hf2⟩ := hf
  obtain ⟨h1, h2, h3, h4, h5⟩ := h
  change npClose (pyMod e.deg 180) (pyMod f.deg 180) at h5
  rw [Ellipse.onE_mod] at hP
  obtain ⟨t, rfl⟩ := hP
  obtain ⟨β, hβ⟩ : ∃ β, β = pyMod e.deg 180 * (π / 180) := ⟨_, rfl⟩
  obtain ⟨γ, hγ⟩ : ∃ γ, γ = pyMod f.deg 180 * (π / 180) := ⟨_, rfl⟩
  refine ⟨ellipsePoint f.center f.rmajor f.rminor γ t, ?_, ?_⟩
  · rw [Ellipse.onE_mod, ← hγ]; exact ⟨t, rfl⟩
  · have hm0 := pyMod_nonneg f.deg (show (0 : ℝ) < 180 by norm_num)
    have hm1 := pyMod_lt f.deg (show (0 : ℝ) < 180 by norm_num)
    have hang : |β - γ| ≤ 4 / 10 ^ 5 := by
      rw [hβ, hγ, ← sub_mul, abs_mul, abs_of_pos (show 0 < π / 180 by positivity)]
      unfold npClose at h5
      rw [abs_of_nonneg hm0] at h5
      have hp := pi_lt_d2
      have hp0 := pi_pos
      have k1 : |pyMod e.deg 180 - pyMod f.deg 180| ≤ 1801 / 10 ^ 6 := by linarith
      have k2 : π / 180 ≤ 3.15 / 180 := by linarith
      calc |pyMod e.deg 180 - pyMod f.deg 180| * (π / 180) ≤ (1801 / 10 ^ 6) * (3.15 / 180) := by gcongr
        _ ≤ _ := by norm_num
    rw [← hβ]
    have dc := (abs_cos_sub_cos_le β γ).trans hang
    have ds := (abs_sin_sub_sin_le β γ).trans hang
    unfold npClose at h1 h2 h3 h4
    rw [abs_of_pos hf1] at h3
    rw [abs_of_pos hf2] at h4
    have prod : ∀ {x y X Y : ℝ}, |x| ≤ X → |y| ≤ Y → |x * y| ≤ X * Y := by
      intro x y X Y hx hy
      rw [abs_mul]
      exact mul_le_mul hx hy (abs_nonneg _) ((abs_nonneg _).trans hx)
    have trig : ∀ {x X p q : ℝ}, |x| ≤ X → |p| ≤ 1 → |q| ≤ 1 → |x * p * q| ≤ X := by
      intro x X p q hx hp hq
      have := prod (prod hx hp) hq
      rwa [mul_one, mul_one] at this
    have trig2 : ∀ {x p q Y : ℝ}, 0 < x → |p| ≤ 1 → |q| ≤ Y → |x * p * q| ≤ x * Y := by
      intro x p q Y hx hp hq
      have := prod (prod (abs_of_pos hx).le hp) hq
      rwa [mul_one] at this
    have s1 := abs_sin_le_one t
    have s2 := abs_cos_le_one t
    have s3 := abs_sin_le_one β
    have s4 := abs_cos_le_one β
    have five : ∀ u v w x y : ℝ, |u + v - w + x - y| ≤ |u| + |v| + |w| + |x| + |y| := by
      intro u v w x y
      have a1 := abs_sub (u + v - w + x) y
      have a2 := abs_add_le (u + v - w) x
      have a3 := abs_sub (u + v) w
      have a4 := abs_add_le u v
      linarith
    refine (dist_le_coords _ _).trans ?_
    unfold ellipsePoint
    dsimp only
    have X := five (e.center.x - f.center.x) ((e.rmajor - f.rmajor) * cos t * cos β) ((e.rminor - f.rminor) * sin t * sin β)
      (f.rmajor * cos t * (cos β - cos γ)) (f.rminor * sin t * (sin β - sin γ))
    have Y := five (e.center.y - f.center.y) ((e.rmajor - f.rmajor) * cos t * sin β) (-((e.rminor - f.rminor) * sin t * cos β))
      (f.rmajor * cos t * (sin β - sin γ)) (-(f.rminor * sin t * (cos β - cos γ)))
    rw [abs_neg, abs_neg] at Y
    rw [show e.center.x + e.rmajor * cos t * cos β - e.rminor * sin t * sin β -
      (f.center.x + f.rmajor * cos t * cos γ - f.rminor * sin t * sin γ) =
      (e.center.x - f.center.x) + ((e.rmajor - f.rmajor) * cos t * cos β) - ((e.rminor - f.rminor) * sin t * sin β) +
      (f.rmajor * cos t * (cos β - cos γ)) - (f.rminor * sin t * (sin β - sin γ)) by ring,
      show e.center.y + e.rmajor * cos t * sin β + e.rminor * sin t * cos β -
      (f.center.y + f.rmajor * cos t * sin γ + f.rminor * sin t * cos γ) =
      (e.center.y - f.center.y) + ((e.rmajor - f.rmajor) * cos t * sin β) - (-((e.rminor - f.rminor) * sin t * cos β)) +
      (f.rmajor * cos t * (sin β - sin γ)) - (-(f.rminor * sin t * (cos β - cos γ))) by ring]
    have e1 := trig h3 s2 s4
    have e2 := trig h4 s1 s3
    have e3 := trig2 hf1 s2 dc
    have e4 := trig2 hf2 s1 ds
    have e5 := trig h3 s2 s3
    have e6 := trig h4 s1 s4
    have e7 := trig2 hf1 s2 ds
    have e8 := trig2 hf2 s1 dc
    linarith

/-- Hypotheses met: an ellipse and the same one with the angle in radians, half a turn further. -/
example : let e : Ellipse := ⟨⟨1, 2⟩, 3, 2, 0, true⟩
    let f : Ellipse := ⟨⟨1, 2⟩, 3, 2, π, false⟩
    e.Valid ∧ f.Valid ∧ e.is_equal f := by
  refine ⟨⟨by norm_num, by norm_num⟩, ⟨by norm_num, by norm_num⟩, npClose_refl _, npClose_refl _, npClose_refl _, npClose_refl _, ?_⟩
  have hπ := pi_ne_zero
  have e1 : (π * (180 / π) : ℝ) = 0 + (1 : ℤ) * 180 := by field_simp; norm_num
  simp only [if_true, Bool.false_eq_true, if_false]
  rw [e1, pyMod_add_int_mul _ (by norm_num)]
  exact npClose_refl _

/-- The circle of radius 1 about `(1, 0)` is equal to itself, and to the circle about `(1 - 10^-6, 0)` in both orders; every point of
the first is then within `2 / 10^5` of the second. -/
example : (⟨⟨1, 0⟩, 1⟩ : Circle).is_equal ⟨⟨1, 0⟩, 1⟩ ∧
    (⟨⟨1 - 1 / 10 ^ 6, 0⟩, 1⟩ : Circle).is_equal ⟨⟨1, 0⟩, 1⟩ ∧
    ∀ P, OnCircle ⟨1, 0⟩ 1 P → ∃ Q, OnCircle ⟨1 - 1 / 10 ^ 6, 0⟩ 1 Q ∧ Spec.dist P Q ≤ 2 / 10 ^ 5 := by
  have h : (⟨⟨1, 0⟩, 1⟩ : Circle).is_equal ⟨⟨1 - 1 / 10 ^ 6, 0⟩, 1⟩ := by
    refine ⟨?_, ?_, ?_⟩
    · exact (C75_reflexive.1 ⟨⟨1, 0⟩, 1⟩).1
    · unfold npClose; norm_num [abs_of_pos]
    · unfold npClose; norm_num
  refine ⟨C75_reflexive.1 _, C75_circle_symmetric_partial _ _ (by norm_num [abs_of_pos]) (by norm_num) h, fun P hP => ?_⟩
  obtain ⟨Q, hQ, hd⟩ := C75_circle_sound _ _ (by unfold Circle.Valid; norm_num) (by unfold Circle.Valid; norm_num) h P hP
  exact ⟨Q, hQ, hd.trans (by norm_num [abs_of_pos])⟩

/-- Two ways of giving the first axis: the order of the arguments does not matter. -/
example : (⟨⟨0, 0⟩, ⟨1, 0⟩, true, true⟩ : Line).is_equal ⟨⟨2, 0⟩, ⟨3, 0⟩, true, true⟩ ↔
    (⟨⟨2, 0⟩, ⟨3, 0⟩, true, true⟩ : Line).is_equal ⟨⟨0, 0⟩, ⟨1, 0⟩, true, true⟩ := by
  apply C75_line_symmetric_partial
  have e : (⟨⟨0, 0⟩, ⟨1, 0⟩, true, true⟩ : Line).direction_offset.2 = (⟨⟨2, 0⟩, ⟨3, 0⟩, true, true⟩ : Line).direction_offset.2 := by
    have ha : atan2 (3 - 2) 0 = π / 2 := by
      unfold atan2
      rw [show (⟨0, 3 - 2⟩ : ℂ) = Complex.I by apply Complex.ext <;> norm_num, Complex.arg_I]
    simp [Line.direction_offset, ha]
  rw [e]
  exact (C75_reflexive.1 ⟨⟨0, 0⟩, (⟨⟨2, 0⟩, ⟨3, 0⟩, true, true⟩ : Line).direction_offset.2⟩).1

/-- Two ellipses of semi-axes 2 and 1 whose centers differ by `10^-6`, in both orders. -/
example (h : (⟨⟨1, 0⟩, 2, 1, 0, true⟩ : Ellipse).is_equal ⟨⟨1 - 1 / 10 ^ 6, 0⟩, 2, 1, 0, true⟩) :
    (⟨⟨1 - 1 / 10 ^ 6, 0⟩, 2, 1, 0, true⟩ : Ellipse).is_equal ⟨⟨1, 0⟩, 2, 1, 0, true⟩ :=
  C75_ellipse_symmetric_partial _ _ (by norm_num [abs_of_pos]) (by norm_num) le_rfl le_rfl rfl rfl h
