import Verif.Lemmas.Ellipse
import Verif.Lemmas.Basic
import Verif.Props.Affine

/-!
# C64, C65, C66, C68, C69, C77: ellipses
-/

open Spec Real Classical

theorem ellipse_point_eq (t : ℝ) (O : Pt) (a b α : ℝ) : ellipse_point_ t O a b α = ellipsePoint O a b α t := by
  unfold ellipse_point_ ellipsePoint; ext <;> simp <;> ring

/-- The points of an ellipse object. -/
def OnE (e : Ellipse) (P : Pt) : Prop := OnEllipse e.center e.rmajor e.rminor e.rad P

/-! ### C64 -/

/-- C64: the sign of the equation. -/
theorem C64_equation (e : Ellipse) (he : e.Valid) (P : Pt) :
    (e.equation.eval P = 0 ↔ OnE e P) ∧
    (e.equation.eval P ≤ 0 ↔ InEllipse e.center e.rmajor e.rminor e.rad P) ∧
    (e.equation.eval P < 0 ↔ InEllipse e.center e.rmajor e.rminor e.rad P ∧ ¬ OnE e P) := by
  have hp : 0 < (e.rmajor * e.rminor) ^ 2 := by have := he.1; have := he.2; positivity
  unfold OnE
  rw [equation_eval he, onEllipse_iff he.1 he.2, inEllipse_iff]
  have h1 : (e.rmajor * e.rminor) ^ 2 * ellVal e.center e.rmajor e.rminor e.rad P = 0 ↔
      ellVal e.center e.rmajor e.rminor e.rad P = 0 := by
    rw [mul_eq_zero]; exact ⟨fun h => h.resolve_left hp.ne', Or.inr⟩
  have h2 : (e.rmajor * e.rminor) ^ 2 * ellVal e.center e.rmajor e.rminor e.rad P ≤ 0 ↔
      ellVal e.center e.rmajor e.rminor e.rad P ≤ 0 := by
    constructor
    · intro h; by_contra hc; push Not at hc; nlinarith [mul_pos hp hc]
    · intro h; nlinarith [mul_nonneg hp.le (neg_nonneg.2 h)]
  refine ⟨h1, h2, ?_⟩
  rw [lt_iff_le_and_ne, h2, ne_eq, h1]

/-- C64: `contains` decides the closed interior. -/
theorem C64_contains (e : Ellipse) (he : e.Valid) (P : Pt) :
    e.contains P ↔ InEllipse e.center e.rmajor e.rminor e.rad P := (C64_equation e he P).2.1

/-- C64: `includes` accepts every point of the ellipse (and `contains` as well). -/
theorem C64_includes (e : Ellipse) (he : e.Valid) (P : Pt) (hP : OnE e P) : e.includes P ∧ e.contains P := by
  have h := (C64_equation e he P).1.2 hP
  unfold Ellipse.includes Ellipse.contains isclose
  rw [h]; norm_num

/-- C64: what `includes` accepts.  The equation is scaled by `(rmajor * rminor)²`, and the tolerance is absolute. -/
theorem C64_includes_tolerance (e : Ellipse) (P : Pt) (h : e.includes P) : |e.equation.eval P| ≤ 2 / 10 ^ 9 := by
  unfold Ellipse.includes isclose at h
  rw [show (1 : ℝ) - (e.equation.eval P + 1) = -e.equation.eval P by ring, abs_neg, abs_one] at h
  obtain ⟨x, hx⟩ : ∃ x, x = e.equation.eval P := ⟨_, rfl⟩
  rw [← hx] at h ⊢
  have h2 : |x + 1| ≤ |x| + 1 := by simpa using abs_add_le x 1
  have h3 : max 1 |x + 1| ≤ |x| + 1 := max_le (by linarith [abs_nonneg x]) h2
  nlinarith [abs_nonneg x]

/-- C64: `includes` is not exact: for a tiny ellipse it accepts the center. -/
theorem C64_includes_center_counterexample :
    (⟨⟨0, 0⟩, 1 / 1000, 1 / 1000, 0, true⟩ : Ellipse).includes ⟨0, 0⟩ ∧
    ¬ OnE ⟨⟨0, 0⟩, 1 / 1000, 1 / 1000, 0, true⟩ ⟨0, 0⟩ := by
  have he : (⟨⟨0, 0⟩, 1 / 1000, 1 / 1000, 0, true⟩ : Ellipse).Valid := ⟨by norm_num, by norm_num⟩
  have hv : (⟨⟨0, 0⟩, 1 / 1000, 1 / 1000, 0, true⟩ : Ellipse).equation.eval ⟨0, 0⟩ = -(1 / 10 ^ 12) := by
    unfold Ellipse.equation Coeffs.eval; norm_num
  constructor
  · unfold Ellipse.includes isclose
    rw [hv]
    norm_num [abs_le]
  · rw [← (C64_equation _ he _).1, hv]
    norm_num

/-- C64: `path` returns `n` points, all on the ellipse, with eccentric angles `2πi/n`. -/
theorem C64_path (e : Ellipse) (n : ℤ) :
    (n ≤ 0 → ∃ m, e.path n = .error (.valueError m)) ∧
    (0 < n → ∃ L, e.path n = .ok L ∧ (L.length : ℤ) = n ∧ (∀ P ∈ L, OnE e P) ∧
      ∀ i : ℕ, (i : ℤ) < n → L[i]? = some (ellipsePoint e.center e.rmajor e.rminor e.rad (2 * π * i / n))) := by
  constructor
  · intro h
    unfold Ellipse.path
    rw [if_pos h]
    exact ⟨_, rfl⟩
  · intro h
    have hr : (if e.degrees = true then e.alpha * π / 180 else e.alpha) = e.rad := by
      unfold Ellipse.rad; split_ifs <;> ring
    have hn : ((n.toNat : ℤ)) = n := Int.toNat_of_nonneg h.le
    have hnR : ((n.toNat : ℝ)) = (n : ℝ) := by rw [← Int.cast_natCast, hn]
    have hn0 : (n : ℝ) ≠ 0 := by exact_mod_cast h.ne'
    unfold Ellipse.path
    rw [if_neg (not_le.2 h)]
    dsimp only
    rw [hr]
    refine ⟨_, rfl, ?_, ?_, ?_⟩
    · rw [List.length_map, List.length_range, hn]
    · intro P hP
      rw [List.mem_map] at hP
      obtain ⟨i, -, rfl⟩ := hP
      exact ⟨_, ellipse_point_eq _ _ _ _ _⟩
    · intro i hi
      have hi' : i < n.toNat := by omega
      rw [List.getElem?_map, List.getElem?_range hi', Option.map_some, ellipse_point_eq]
      congr 2
      unfold linspace
      rw [if_neg (by omega)]
      push_cast
      rw [hnR, add_sub_cancel_right]
      field_simp
      ring

/-- C64: `point_from_angle` returns a point of the ellipse. -/
theorem C64_point_from_angle (e : Ellipse) (theta : ℝ) (degrees : Bool) : OnE e (e.point_from_angle theta degrees) :=
  ⟨_, ellipse_point_eq _ _ _ _ _⟩

/-- The ellipse of center `(1, 2)` and half axes 4 and 3: the center is inside of it, `(5, 2)` is on it, `(1, 6)`
outside. -/
example : (⟨⟨1, 2⟩, 4, 3, 0, true⟩ : Ellipse).contains ⟨1, 2⟩ ∧ (⟨⟨1, 2⟩, 4, 3, 0, true⟩ : Ellipse).includes ⟨5, 2⟩ ∧
    ¬ (⟨⟨1, 2⟩, 4, 3, 0, true⟩ : Ellipse).contains ⟨1, 6⟩ ∧ |(⟨⟨1, 2⟩, 4, 3, 0, true⟩ : Ellipse).equation.eval ⟨5, 2⟩| ≤ 2 / 10 ^ 9 := by
  have hv : (⟨⟨1, 2⟩, 4, 3, 0, true⟩ : Ellipse).Valid := by constructor <;> norm_num
  have hi := (C64_includes _ hv ⟨5, 2⟩ ⟨0, by unfold ellipsePoint Ellipse.rad; ext <;> norm_num⟩).1
  refine ⟨(C64_contains _ hv _).2 ?_, hi, fun h => ?_, C64_includes_tolerance _ _ hi⟩
  · norm_num [InEllipse, axisCoord]
  · have := (C64_contains _ hv _).1 h
    norm_num [InEllipse, axisCoord, Ellipse.rad] at this

/-- A path of four points of it: the first one is `(5, 2)`; a path of no points is refused. -/
example : (∃ L, (⟨⟨1, 2⟩, 4, 3, 0, true⟩ : Ellipse).path 4 = .ok L ∧ L.length = 4 ∧ L[0]? = some ⟨5, 2⟩) ∧
    ∃ m, (⟨⟨1, 2⟩, 4, 3, 0, true⟩ : Ellipse).path 0 = .error (.valueError m) := by
  refine ⟨?_, (C64_path _ _).1 le_rfl⟩
  obtain ⟨L, h, hn, -, hg⟩ := (C64_path ⟨⟨1, 2⟩, 4, 3, 0, true⟩ 4).2 (by norm_num)
  refine ⟨L, h, by exact_mod_cast hn, ?_⟩
  have := hg 0 (by norm_num)
  rw [this]
  congr 1
  unfold ellipsePoint Ellipse.rad; ext <;> norm_num

example : (⟨⟨1, 2⟩, 4, 3, 30, true⟩ : Ellipse).Valid := ⟨by norm_num, by norm_num⟩

/-! ### C68 -/

/-- The derivative of `t ↦ ellipsePoint O a b α t`, a tangent vector. -/
noncomputable def Spec.ellipseTangent (a b α t : ℝ) : Pt :=
  ⟨-a * Real.sin t * Real.cos α - b * Real.cos t * Real.sin α, -a * Real.sin t * Real.sin α + b * Real.cos t * Real.cos α⟩

/-- `ellipseTangent` is the derivative of the parametrisation. -/
theorem C68_tangent_is_derivative (O : Pt) (a b α t : ℝ) :
    HasDerivAt (fun s => (ellipsePoint O a b α s).x) (ellipseTangent a b α t).x t ∧
    HasDerivAt (fun s => (ellipsePoint O a b α s).y) (ellipseTangent a b α t).y t := by
  constructor
  · have := ((((hasDerivAt_cos t).const_mul a).mul_const (cos α)).const_add O.x).fun_sub
      (((hasDerivAt_sin t).const_mul b).mul_const (sin α))
    exact this.congr_deriv (by unfold ellipseTangent; ring)
  · have := ((((hasDerivAt_cos t).const_mul a).mul_const (sin α)).const_add O.y).fun_add
      (((hasDerivAt_sin t).const_mul b).mul_const (cos α))
    exact this.congr_deriv (by unfold ellipseTangent; ring)

/-- C68: `normal(t)` never fails and is a unit vector orthogonal to the tangent and pointing outwards: from the point of
the ellipse, a step of any positive length along the normal leaves the closed region bounded by the ellipse. -/
theorem C68_normal (e : Ellipse) (he : e.Valid) (t : ℝ) :
    ∃ v, e.normal t = .ok v ∧ v.x ^ 2 + v.y ^ 2 = 1 ∧ Perp v (ellipseTangent e.rmajor e.rminor e.rad t) ∧
      0 < dot v (ellipsePoint e.center e.rmajor e.rminor e.rad t - e.center) ∧
      ∀ s : ℝ, 0 < s →
        ¬ InEllipse e.center e.rmajor e.rminor e.rad (ellipsePoint e.center e.rmajor e.rminor e.rad t + s • v) := by
  obtain ⟨h1, h2⟩ := he
  have hcs := sin_sq_add_cos_sq e.rad
  have hts := sin_sq_add_cos_sq t
  obtain ⟨w, hw⟩ : ∃ w : Pt, w = ⟨sin e.rad * (-e.rmajor * sin t) + cos e.rad * (e.rminor * cos t),
    -cos e.rad * (-e.rmajor * sin t) + sin e.rad * (e.rminor * cos t)⟩ := ⟨_, rfl⟩
  have hwn : w.x * w.x + w.y * w.y = e.rmajor ^ 2 * sin t ^ 2 + e.rminor ^ 2 * cos t ^ 2 := by
    rw [hw]
    linear_combination (e.rmajor ^ 2 * sin t ^ 2 + e.rminor ^ 2 * cos t ^ 2) * hcs
  have hpos : 0 < w.x * w.x + w.y * w.y := by
    rw [hwn]
    by_cases hs : sin t = 0
    · have : cos t ^ 2 = 1 := by rw [hs] at hts; linarith
      rw [this, hs]; positivity
    · positivity
  obtain ⟨n, hn⟩ : ∃ n, n = vlength_ w := ⟨_, rfl⟩
  have hn2 : n ^ 2 = w.x * w.x + w.y * w.y := by
    rw [hn]; unfold vlength_; exact Real.sq_sqrt hpos.le
  have hn0 : 0 < n := by rw [hn]; unfold vlength_; exact Real.sqrt_pos.2 hpos
  have hd : dot w (ellipsePoint e.center e.rmajor e.rminor e.rad t - e.center) = e.rmajor * e.rminor := by
    rw [hw]
    unfold dot ellipsePoint
    simp only [Pt.sub_x, Pt.sub_y]
    linear_combination (e.rmajor * e.rminor * (sin t ^ 2 + cos t ^ 2)) * hcs + e.rmajor * e.rminor * hts
  refine ⟨w / n, ?_, ?_, ?_, ?_, ?_⟩
  · unfold Ellipse.normal
    dsimp only
    rw [show (if e.degrees = true then e.alpha * (π / 180) else e.alpha) = e.rad from rfl, ← hw, ← hn, if_neg hn0.ne']
  · simp only [Pt.div_x, Pt.div_y]
    field_simp
    rw [hn2]; ring
  · unfold Perp dot
    simp only [Pt.div_x, Pt.div_y]
    rw [hw]
    unfold ellipseTangent
    field_simp
    ring
  · have : dot (w / n) (ellipsePoint e.center e.rmajor e.rminor e.rad t - e.center) = e.rmajor * e.rminor / n := by
      rw [← hd]; unfold dot; simp only [Pt.div_x, Pt.div_y]; ring
    rw [this]; positivity
  · intro s hs hin
    rw [inEllipse_iff] at hin
    have a1 : (axisCoord e.center e.rad (ellipsePoint e.center e.rmajor e.rminor e.rad t + s • (w / n))).x =
        e.rmajor * cos t + s / n * (e.rminor * cos t) := by
      rw [hw]
      unfold axisCoord ellipsePoint
      simp only [Pt.add_x, Pt.add_y, Pt.smul_x, Pt.smul_y, Pt.div_x, Pt.div_y]
      linear_combination (e.rmajor * cos t + s / n * (e.rminor * cos t)) * hcs
    have a2 : (axisCoord e.center e.rad (ellipsePoint e.center e.rmajor e.rminor e.rad t + s • (w / n))).y =
        e.rminor * sin t + s / n * (e.rmajor * sin t) := by
      rw [hw]
      unfold axisCoord ellipsePoint
      simp only [Pt.add_x, Pt.add_y, Pt.smul_x, Pt.smul_y, Pt.div_x, Pt.div_y]
      linear_combination (e.rminor * sin t + s / n * (e.rmajor * sin t)) * hcs
    have hk : 0 < s / n := by positivity
    obtain ⟨k, hke⟩ : ∃ k, k = s / n := ⟨_, rfl⟩
    unfold ellVal at hin
    rw [a1, a2, ← hke] at hin
    rw [← hke] at hk
    have : ((e.rmajor * cos t + k * (e.rminor * cos t)) / e.rmajor) ^ 2 +
        ((e.rminor * sin t + k * (e.rmajor * sin t)) / e.rminor) ^ 2 - 1 =
        k * (2 * (e.rminor / e.rmajor) * cos t ^ 2 + 2 * (e.rmajor / e.rminor) * sin t ^ 2) +
        k ^ 2 * ((e.rminor / e.rmajor) ^ 2 * cos t ^ 2 + (e.rmajor / e.rminor) ^ 2 * sin t ^ 2) := by
      field_simp
      linear_combination (e.rmajor ^ 2 * e.rminor ^ 2) * hts
    rw [this] at hin
    have p1 : 0 < 2 * (e.rminor / e.rmajor) * cos t ^ 2 + 2 * (e.rmajor / e.rminor) * sin t ^ 2 := by
      by_cases hs : sin t = 0
      · have : cos t ^ 2 = 1 := by rw [hs] at hts; linarith
        rw [this, hs]; positivity
      · positivity
    have p2 : 0 ≤ k ^ 2 * ((e.rminor / e.rmajor) ^ 2 * cos t ^ 2 + (e.rmajor / e.rminor) ^ 2 * sin t ^ 2) := by
      positivity
    nlinarith [mul_pos hk p1]

theorem ellipsePoint_add_pi (O : Pt) (a b α t : ℝ) :
    ellipsePoint O a b α (t + π) = ⟨2 * O.x - (ellipsePoint O a b α t).x, 2 * O.y - (ellipsePoint O a b α t).y⟩ := by
  unfold ellipsePoint
  rw [cos_add_pi, sin_add_pi]
  ext <;> simp <;> ring

/-- C68 (part): whenever `diameter(t)` returns, it is a segment (not extended) with endpoints on the ellipse, the first
one of eccentric angle `t`, and the center is its midpoint.  Missing: it raises `ValueError` when the endpoints are
`np.allclose`, see `C68_tiny_ellipse_counterexample`. -/
theorem C68_diameter_partial (e : Ellipse) (t : ℝ) :
    (∀ l, e.diameter t = .ok l → l.extendA = false ∧ l.extendB = false ∧
      l.A = ellipsePoint e.center e.rmajor e.rminor e.rad t ∧ OnE e l.A ∧ OnE e l.B ∧ e.center = (l.A + l.B) / (2 : ℝ)) ∧
    (∀ err, e.diameter t = .error err → (∃ m, err = .valueError m) ∧
      allclose (ellipsePoint e.center e.rmajor e.rminor e.rad t) (ellipsePoint e.center e.rmajor e.rminor e.rad (t + π))) := by
  have hdef : e.diameter t = mkLine (ellipsePoint e.center e.rmajor e.rminor e.rad t)
    (ellipsePoint e.center e.rmajor e.rminor e.rad (t + π)) false false := by
    rw [← ellipse_point_eq, ← ellipse_point_eq]; rfl
  rw [hdef]
  constructor
  · intro l hl
    obtain ⟨-, rfl⟩ := mkLine_ok.1 hl
    refine ⟨rfl, rfl, rfl, ⟨t, rfl⟩, ⟨t + π, rfl⟩, ?_⟩
    rw [ellipsePoint_add_pi]
    ext <;> simp
  · intro err h
    unfold mkLine at h
    split_ifs at h with hc
    refine ⟨?_, hc⟩
    simp only [Except.error.injEq] at h
    exact ⟨_, h.symm⟩

/-- C68 (part): each of the conjugate diameters is parallel to the tangent at the ends of the other. -/
theorem C68_conjugate_partial (e : Ellipse) (t : ℝ) (l l' : Line) (h : e.diameters t = .ok (l, l')) :
    e.diameter t = .ok l ∧ l'.extendA = false ∧ l'.extendB = false ∧ OnE e l'.A ∧ OnE e l'.B ∧
    e.center = (l'.A + l'.B) / (2 : ℝ) ∧
    l.A = ellipsePoint e.center e.rmajor e.rminor e.rad t ∧
    l.B = ellipsePoint e.center e.rmajor e.rminor e.rad (t + π) ∧
    Parallel (l'.B - l'.A) (ellipseTangent e.rmajor e.rminor e.rad t) ∧
    Parallel (l'.B - l'.A) (ellipseTangent e.rmajor e.rminor e.rad (t + π)) ∧
    ∃ t', l'.A = ellipsePoint e.center e.rmajor e.rminor e.rad t' ∧
      l'.B = ellipsePoint e.center e.rmajor e.rminor e.rad (t' + π) ∧
      Parallel (l.B - l.A) (ellipseTangent e.rmajor e.rminor e.rad t') ∧
      Parallel (l.B - l.A) (ellipseTangent e.rmajor e.rminor e.rad (t' + π)) := by
  have hdef : e.diameters t = (do
      let l ← mkLine (ellipse_point_ t e.center e.rmajor e.rminor e.rad)
        (ellipse_point_ (t + π) e.center e.rmajor e.rminor e.rad) false false
      let l' ← mkLine (ellipse_point_ (t + π / 2) e.center e.rmajor e.rminor e.rad)
        (ellipse_point_ (t - π / 2) e.center e.rmajor e.rminor e.rad) false false
      return (l, l')) := rfl
  rw [hdef] at h
  obtain ⟨l1, h1, h2⟩ := Res.bind_ok.1 h
  obtain ⟨l2, h3, h4⟩ := Res.bind_ok.1 h2
  have h5 : (l1, l2) = (l, l') := Except.ok.inj h4
  simp only [Prod.mk.injEq] at h5
  obtain ⟨rfl, rfl⟩ := h5
  have hd : e.diameter t = .ok l1 := h1
  obtain ⟨-, hl1⟩ := mkLine_ok.1 h1
  obtain ⟨-, hl2⟩ := mkLine_ok.1 h3
  rw [ellipse_point_eq, ellipse_point_eq] at hl1 hl2
  have hB : ellipsePoint e.center e.rmajor e.rminor e.rad (t - π / 2) =
      ellipsePoint e.center e.rmajor e.rminor e.rad (t + π / 2 + π) := by
    rw [show t + π / 2 + π = t - π / 2 + 2 * π by ring]
    unfold ellipsePoint
    rw [cos_add_two_pi, sin_add_two_pi]
  rw [hB] at hl2
  subst hl1
  subst hl2
  refine ⟨hd, rfl, rfl, ⟨_, rfl⟩, ⟨_, rfl⟩, ?_, rfl, rfl, ?_, ?_, t + π / 2, rfl, rfl, ?_, ?_⟩
  · rw [ellipsePoint_add_pi]
    ext <;> simp
  all_goals
    unfold Parallel cross ellipsePoint ellipseTangent
    simp only [Pt.sub_x, Pt.sub_y, cos_add_pi, sin_add_pi, cos_add_pi_div_two, sin_add_pi_div_two]
    ring

/-- C68 fails for a tiny ellipse: `diameter` raises `ValueError`. -/
theorem C68_tiny_ellipse_counterexample :
    ∃ m, (⟨⟨0, 0⟩, 1 / 10 ^ 9, 1 / 10 ^ 9, 0, true⟩ : Ellipse).diameter 0 = .error (.valueError m) := by
  unfold Ellipse.diameter mkLine
  rw [if_pos]
  · exact ⟨_, rfl⟩
  · unfold ellipse_point_ allclose npClose
    norm_num [abs_le]

/-- The outer unit normal at the end `(5, 2)` of the first axis is `(1, 0)`, and the derivative there is vertical. -/
example : (⟨⟨1, 2⟩, 4, 3, 0, true⟩ : Ellipse).normal 0 = .ok ⟨1, 0⟩ ∧
    HasDerivAt (fun s => (ellipsePoint ⟨1, 2⟩ 4 3 0 s).x) 0 0 := by
  obtain ⟨v, h, h1, h2, h3, -⟩ := C68_normal ⟨⟨1, 2⟩, 4, 3, 0, true⟩ (by constructor <;> norm_num) 0
  norm_num [Perp, dot, ellipseTangent, ellipsePoint, Ellipse.rad] at h1 h2 h3
  have d := (C68_tangent_is_derivative ⟨1, 2⟩ 4 3 0 0).1
  norm_num [ellipseTangent] at d
  refine ⟨?_, d⟩
  rw [h]
  congr 1
  rw [h2] at h1
  ext
  · simp only; nlinarith
  · exact h2

/-- The ends of the diameter of parameter 0. -/
example (l : Line) (h : (⟨⟨1, 2⟩, 4, 3, 0, true⟩ : Ellipse).diameter 0 = .ok l) : l.A = ⟨5, 2⟩ ∧ l.B = ⟨-3, 2⟩ := by
  obtain ⟨-, -, h1, -, -, h2⟩ := (C68_diameter_partial _ _).1 l h
  have e : l.A = ⟨5, 2⟩ := by rw [h1]; unfold ellipsePoint Ellipse.rad; ext <;> norm_num
  have hx := congrArg Pt.x h2
  have hy := congrArg Pt.y h2
  rw [e] at hx hy
  norm_num at hx hy
  refine ⟨e, ?_⟩
  ext <;> simp only <;> linarith

/-- The second diameter is parallel to the tangent at the end of the first. -/
example (l l' : Line) (h : (⟨⟨1, 2⟩, 4, 3, 0, true⟩ : Ellipse).diameters 0 = .ok (l, l')) : l'.A.x = l'.B.x := by
  have := (C68_conjugate_partial _ _ _ _ h).2.2.2.2.2.2.2.2.1
  norm_num [Parallel, cross, ellipseTangent, Ellipse.rad] at this
  linarith

/-- A case where both diameters are returned. -/
example : ∃ l l', (⟨⟨0, 0⟩, 2, 1, 0, true⟩ : Ellipse).diameters 0 = .ok (l, l') := by
  unfold Ellipse.diameters mkLine
  dsimp only
  rw [if_neg (by unfold ellipse_point_ allclose npClose; norm_num [abs_le]), Res.ok_bind,
    if_neg (by unfold ellipse_point_ allclose npClose; norm_num [abs_le]), Res.ok_bind]
  exact ⟨_, _, rfl⟩

/-! ### C65 -/

/-- The quadratic form of a 2x2 matrix. -/
def Spec.quadForm (S : Matrix (Fin 2) (Fin 2) ℝ) (v : Pt) : ℝ :=
  S 0 0 * v.x * v.x + S 0 1 * v.x * v.y + S 1 0 * v.y * v.x + S 1 1 * v.y * v.y

/-- Symmetric positive definite. -/
def Spec.PosDef2 (S : Matrix (Fin 2) (Fin 2) ℝ) : Prop :=
  S 0 1 = S 1 0 ∧ ∀ v : Pt, v ≠ ⟨0, 0⟩ → 0 < quadForm S v

/-- C65: the shape matrix never fails, is symmetric positive definite, and gives the equation of the ellipse. -/
theorem C65_shape_matrix (e : Ellipse) (he : e.Valid) :
    ∃ S, e.shape_matrix = .ok S ∧ PosDef2 S ∧ ∀ P, OnE e P ↔ quadForm S (P - e.center) = 1 := by
  obtain ⟨pA, pC, p3⟩ := equation_pos he
  have hm : 0 < (e.rmajor * e.rminor) ^ 2 := by have := he.1; have := he.2; positivity
  have hD : e.equation.D = -2 * e.equation.A * e.center.x - e.equation.B * e.center.y := rfl
  have hE : e.equation.E = -e.equation.B * e.center.x - 2 * e.equation.C * e.center.y := rfl
  have hF : e.equation.F = e.equation.A * e.center.x ^ 2 + e.equation.B * e.center.x * e.center.y +
    e.equation.C * e.center.y ^ 2 - (e.rmajor * e.rminor) ^ 2 := by
    unfold Ellipse.equation; dsimp only; ring
  have hev : ∀ P, (OnE e P ↔ e.equation.eval P = 0) := fun P => (C64_equation e he P).1.symm
  unfold Ellipse.shape_matrix Coeffs.eval at *
  obtain ⟨m, hme⟩ : ∃ m, m = (e.rmajor * e.rminor) ^ 2 := ⟨_, rfl⟩
  generalize e.equation = q at *
  obtain ⟨A, B, C, D, E, F⟩ := q
  dsimp only at *
  rw [← hme] at hm hF p3
  have hden : 0 < A * C - B * B / 4 := by linarith
  have hdet : -Matrix.det !![A, B / 2, D / 2; B / 2, C, E / 2; D / 2, E / 2, F] / (A * C - B * B / 4) = m := by
    rw [Matrix.det_fin_three, div_eq_iff hden.ne', hD, hE, hF]
    simp
    ring
  rw [if_neg hden.ne', hdet, if_neg hm.ne']
  refine ⟨_, rfl, ⟨by simp, ?_⟩, ?_⟩
  · intro v hv
    unfold quadForm
    simp
    have h4 : A / m * v.x * v.x + B / 2 / m * v.x * v.y + B / 2 / m * v.y * v.x + C / m * v.y * v.y =
        ((2 * A * v.x + B * v.y) ^ 2 + 4 * m * v.y ^ 2) / (4 * A * m) := by
      field_simp
      linear_combination 2 * v.y ^ 2 * p3
    rw [h4]
    apply div_pos _ (by positivity)
    by_cases hy : v.y = 0
    · have hx : v.x ≠ 0 := by
        intro hx; apply hv; ext
        · exact hx
        · exact hy
      rw [hy, mul_zero, add_zero]
      have : 0 < (2 * A * v.x) ^ 2 := by positivity
      linarith
    · have : 0 < 4 * m * v.y ^ 2 := by positivity
      nlinarith [sq_nonneg (2 * A * v.x + B * v.y)]
  · intro P
    rw [hev P]
    unfold quadForm
    simp only [Pt.sub_x, Pt.sub_y]
    simp
    have h5 : A / m * (P.x - e.center.x) * (P.x - e.center.x) + B / 2 / m * (P.x - e.center.x) * (P.y - e.center.y) +
        B / 2 / m * (P.y - e.center.y) * (P.x - e.center.x) + C / m * (P.y - e.center.y) * (P.y - e.center.y) =
        (A * P.x * P.x + B * P.x * P.y + C * P.y * P.y + D * P.x + E * P.y + F) / m + 1 := by
      field_simp
      rw [hD, hE, hF]; ring
    rw [h5]
    constructor
    · intro h; rw [h]; simp
    · intro h
      have : (A * P.x * P.x + B * P.x * P.y + C * P.y * P.y + D * P.x + E * P.y + F) / m = 0 := by linarith
      exact (div_eq_zero_iff.1 this).resolve_right hm.ne'

/-- The spectral decomposition given by the contract of `eigh`. -/
theorem eigh_spectral {S : Matrix (Fin 2) (Fin 2) ℝ} {g : Ellipse.Eigh} (h : Ellipse.IsEigh S g) :
    S 0 0 = g.val0 * g.vec0.x ^ 2 + g.val1 * g.vec0.y ^ 2 ∧
    S 1 0 = (g.val0 - g.val1) * (g.vec0.x * g.vec0.y) ∧
    S 1 1 = g.val0 * g.vec0.y ^ 2 + g.val1 * g.vec0.x ^ 2 := by
  obtain ⟨-, e0x, e0y, e1x, e1y, u0, u1, o⟩ := h
  obtain ⟨l0, l1, ⟨x0, y0⟩, ⟨x1, y1⟩⟩ := g
  dsimp only at *
  have a : x1 ^ 2 = y0 ^ 2 := by
    linear_combination (x0 * x1 - y0 * y1) * o + y0 ^ 2 * u1 - x1 ^ 2 * u0
  have b : y1 ^ 2 = x0 ^ 2 := by linear_combination u1 - u0 - a
  have c : x1 * y1 = -(x0 * y0) := by
    linear_combination (x1 * y0 + x0 * y1) * o - x1 * y1 * u0 - x0 * y0 * u1
  refine ⟨?_, ?_, ?_⟩
  · linear_combination x0 * e0x + x1 * e1x - S 0 0 * (u0 + a) - S 1 0 * c + l1 * a
  · linear_combination y0 * e0x + y1 * e1x - S 0 0 * c - S 1 0 * (u0 + b) + l1 * c
  · linear_combination y0 * e0y + y1 * e1y - S 1 0 * c - S 1 1 * (u0 + b) + l1 * b

/-- C65: for a symmetric positive definite matrix, `from_center_and_matrix` returns the ellipse of that matrix, for every
result of `np.linalg.eigh` meeting its contract. -/
theorem C65_from_center_and_matrix (O : Pt) (S : Matrix (Fin 2) (Fin 2) ℝ) (hS : PosDef2 S) (g : Ellipse.Eigh)
    (hg : Ellipse.IsEigh S g) :
    ∃ e, Ellipse.from_center_and_eigen O g = .ok e ∧ e.Valid ∧ e.rminor ≤ e.rmajor ∧ e.center = O ∧
      ∀ P, OnE e P ↔ quadForm S (P - O) = 1 := by
  obtain ⟨s00, s10, s11⟩ := eigh_spectral hg
  have u0 := hg.unit0
  have hord := hg.order
  have hv0 : 0 < g.val0 := by
    have := hS.2 g.vec0 (by intro h0; rw [h0] at u0; norm_num at u0)
    unfold quadForm at this
    rw [hS.1, s00, s10, s11] at this
    have h2 : g.val0 * (g.vec0.x ^ 2 + g.vec0.y ^ 2) ^ 2 > 0 := by linarith
    rw [u0] at h2
    linarith
  have hv1 : 0 < g.val1 := by linarith
  have ha : 0 < 1 / sqrt g.val0 := by have := Real.sqrt_pos.2 hv0; positivity
  have hb : 0 < 1 / sqrt g.val1 := by have := Real.sqrt_pos.2 hv1; positivity
  refine ⟨⟨O, 1 / sqrt g.val0, 1 / sqrt g.val1, pyMod (atan2 g.vec0.y g.vec0.x * 180 / π) 180, true⟩, ?_, ⟨ha, hb⟩, ?_, rfl, ?_⟩
  · unfold Ellipse.from_center_and_eigen mkEllipse
    rw [if_neg (by push Not; exact ⟨hv0, hv1⟩)]
    dsimp only
    rw [if_neg (not_le.2 ha), if_neg (not_le.2 hb)]
  · dsimp only
    exact one_div_le_one_div_of_le (Real.sqrt_pos.2 hv0) (Real.sqrt_le_sqrt hord)
  · intro P
    unfold OnE
    dsimp only
    rw [onEllipse_iff ha hb]
    have hrad : (⟨O, 1 / sqrt g.val0, 1 / sqrt g.val1, pyMod (atan2 g.vec0.y g.vec0.x * 180 / π) 180, true⟩ : Ellipse).rad =
        pyMod (atan2 g.vec0.y g.vec0.x * 180 / π) 180 * (π / 180) := rfl
    rw [hrad]
    obtain ⟨x1, x2, x3⟩ := sameAxis_mod_deg (atan2 g.vec0.y g.vec0.x)
    have hne : g.vec0.x ≠ 0 ∨ g.vec0.y ≠ 0 := by
      by_contra hc; push Not at hc; rw [hc.1, hc.2] at u0; norm_num at u0
    have hn : sqrt (g.vec0.x * g.vec0.x + g.vec0.y * g.vec0.y) = 1 := by
      rw [show g.vec0.x * g.vec0.x + g.vec0.y * g.vec0.y = 1 by linarith, Real.sqrt_one]
    rw [cos_atan2 hne, hn, div_one] at x1 x3
    rw [sin_atan2, hn, div_one] at x2 x3
    obtain ⟨α, hα⟩ : ∃ α, α = pyMod (atan2 g.vec0.y g.vec0.x * 180 / π) 180 * (π / 180) := ⟨_, rfl⟩
    rw [← hα] at x1 x2 x3 ⊢
    have key := eval_eq_ellVal (q := ⟨S 0 0, 2 * S 1 0, S 1 1, -2 * S 0 0 * O.x - 2 * S 1 0 * O.y,
      -(2 * S 1 0) * O.x - 2 * S 1 1 * O.y, S 0 0 * O.x ^ 2 + 2 * S 1 0 * O.x * O.y + S 1 1 * O.y ^ 2 - 1⟩)
      (O := O) (a := 1 / sqrt g.val0) (b := 1 / sqrt g.val1) (α := α) (l1 := g.val0) (l2 := g.val1) (m := 1) ha hb
      (by dsimp only; rw [s00, x1, x2]) (by dsimp only; rw [s10, x3]; ring) (by dsimp only; rw [s11, x1, x2])
      rfl rfl rfl (by rw [div_pow, Real.sq_sqrt hv0.le]; field_simp) (by rw [div_pow, Real.sq_sqrt hv1.le]; field_simp) P
    rw [one_mul] at key
    rw [← key]
    unfold Coeffs.eval quadForm
    rw [hS.1]
    simp only [Pt.sub_x, Pt.sub_y]
    constructor <;> intro h <;> linarith

/-- C65: a symmetric matrix that is not positive definite is rejected with `ValueError`. -/
theorem C65_rejects (O : Pt) (S : Matrix (Fin 2) (Fin 2) ℝ) (hsym : S 0 1 = S 1 0) (hS : ¬ PosDef2 S) (g : Ellipse.Eigh)
    (hg : Ellipse.IsEigh S g) : ∃ m, Ellipse.from_center_and_eigen O g = .error (.valueError m) := by
  unfold Ellipse.from_center_and_eigen
  by_cases hc : g.val0 ≤ 0 ∨ g.val1 ≤ 0
  · rw [if_pos hc]; exact ⟨_, rfl⟩
  · exfalso
    push Not at hc
    obtain ⟨h0, h1⟩ := hc
    obtain ⟨s00, s10, s11⟩ := eigh_spectral hg
    have u0 := hg.unit0
    apply hS
    refine ⟨hsym, ?_⟩
    intro v hv
    have : quadForm S v = g.val0 * (g.vec0.x * v.x + g.vec0.y * v.y) ^ 2 + g.val1 * (g.vec0.x * v.y - g.vec0.y * v.x) ^ 2 := by
      unfold quadForm; rw [hsym, s00, s10, s11]; ring
    rw [this]
    by_cases hz : g.vec0.x * v.x + g.vec0.y * v.y = 0
    · have hz2 : g.vec0.x * v.y - g.vec0.y * v.x ≠ 0 := by
        intro h2
        apply hv
        ext
        · linear_combination (-v.x) * u0 + g.vec0.x * hz - g.vec0.y * h2
        · linear_combination (-v.y) * u0 + g.vec0.y * hz + g.vec0.x * h2
      rw [hz]
      positivity
    · positivity

/-- The contract of `eigh` can be met for every matrix (only the lower triangle is used). -/
theorem exists_eigh (S : Matrix (Fin 2) (Fin 2) ℝ) : ∃ g, Ellipse.IsEigh S g := by
  obtain ⟨r, hr⟩ : ∃ r, r = sqrt ((S 0 0 - S 1 1) ^ 2 + (2 * S 1 0) ^ 2) := ⟨_, rfl⟩
  have hr0 : 0 ≤ r := by rw [hr]; exact Real.sqrt_nonneg _
  have hr2 : r ^ 2 = (S 0 0 - S 1 1) ^ 2 + (2 * S 1 0) ^ 2 := by rw [hr]; exact Real.sq_sqrt (by positivity)
  obtain ⟨f1, f2⟩ := frame_angle (A := S 0 0) (B := 2 * S 1 0) (C := S 1 1) hr0 hr2
  obtain ⟨θ, hθ⟩ : ∃ θ, θ = atan2 (S 1 1 - S 0 0 - r) (2 * S 1 0) := ⟨_, rfl⟩
  rw [← hθ] at f1 f2
  have hcs := sin_sq_add_cos_sq θ
  refine ⟨⟨(S 0 0 + S 1 1 - r) / 2, (S 0 0 + S 1 1 + r) / 2, ⟨cos θ, sin θ⟩, ⟨-sin θ, cos θ⟩⟩, ?_, ?_, ?_, ?_, ?_, ?_, ?_, ?_⟩
  · dsimp only; linarith
  · dsimp only
    linear_combination (cos θ / 2) * f1 + sin θ / 2 * f2 - r * cos θ / 2 * hcs
  · dsimp only
    linear_combination (-sin θ / 2) * f1 + cos θ / 2 * f2 - r * sin θ / 2 * hcs
  · dsimp only
    linear_combination (-sin θ / 2) * f1 + cos θ / 2 * f2 - r * sin θ / 2 * hcs
  · dsimp only
    linear_combination (-cos θ / 2) * f1 - sin θ / 2 * f2 + r * cos θ / 2 * hcs
  · dsimp only; linarith
  · dsimp only; linarith
  · dsimp only; ring

/-- C65: `shape_matrix` then `from_center_and_matrix` gives back the same set of points. -/
theorem C65_round_trip (e : Ellipse) (he : e.Valid) (S : Matrix (Fin 2) (Fin 2) ℝ) (hS : e.shape_matrix = .ok S)
    (g : Ellipse.Eigh) (hg : Ellipse.IsEigh S g) :
    ∃ e', Ellipse.from_center_and_eigen e.center g = .ok e' ∧ ∀ P, OnE e' P ↔ OnE e P := by
  obtain ⟨S', h1, h2, h3⟩ := C65_shape_matrix e he
  rw [hS] at h1
  obtain rfl := Except.ok.inj h1
  obtain ⟨e', h4, -, -, -, h5⟩ := C65_from_center_and_matrix e.center S h2 g hg
  exact ⟨e', h4, fun P => by rw [h5, h3]⟩

/-- C65 fails for matrices that are not symmetric: they are not rejected. -/
theorem C65_not_symmetric_counterexample :
    ¬ PosDef2 !![1, 100; 0, 1] ∧ ∃ g e, Ellipse.IsEigh !![1, 100; 0, 1] g ∧
      Ellipse.from_center_and_eigen ⟨0, 0⟩ g = .ok e := by
  constructor
  · intro h
    have := h.1
    norm_num at this
  · have hg : Ellipse.IsEigh !![1, 100; 0, 1] ⟨1, 1, ⟨1, 0⟩, ⟨0, 1⟩⟩ := by
      constructor <;> simp
    have hok : ∃ e, Ellipse.from_center_and_eigen ⟨0, 0⟩ ⟨1, 1, ⟨1, 0⟩, ⟨0, 1⟩⟩ = .ok e := by
      unfold Ellipse.from_center_and_eigen mkEllipse
      norm_num
    obtain ⟨e, he⟩ := hok
    exact ⟨_, e, hg, he⟩

/-- The shape matrix of the ellipse of half axes 4 and 3. -/
example : ∃ S, (⟨⟨1, 2⟩, 4, 3, 0, true⟩ : Ellipse).shape_matrix = .ok S ∧ PosDef2 S ∧ quadForm S ⟨4, 0⟩ = 1 := by
  obtain ⟨S, h, hp, hq⟩ := C65_shape_matrix ⟨⟨1, 2⟩, 4, 3, 0, true⟩ (by constructor <;> norm_num)
  refine ⟨S, h, hp, ?_⟩
  have := (hq ⟨5, 2⟩).1 ⟨0, by unfold ellipsePoint Ellipse.rad; ext <;> norm_num⟩
  rw [← this]
  congr 1
  ext <;> norm_num

/-- The ellipse of the matrix with the entries 1/16 and 1/9 and the center `(1, 2)` goes through `(5, 2)`; the matrix
with the entries -1 and 1 is rejected. -/
example : (∃ e, Ellipse.from_center_and_eigen ⟨1, 2⟩ ⟨1 / 16, 1 / 9, ⟨1, 0⟩, ⟨0, 1⟩⟩ = .ok e ∧ OnE e ⟨5, 2⟩) ∧
    ∃ m, Ellipse.from_center_and_eigen ⟨1, 2⟩ ⟨-1, 1, ⟨1, 0⟩, ⟨0, 1⟩⟩ = .error (.valueError m) := by
  constructor
  · obtain ⟨e, h, -, -, -, hq⟩ := C65_from_center_and_matrix ⟨1, 2⟩ !![1 / 16, 0; 0, 1 / 9]
      ⟨by simp, fun v hv => by
        have : v.x ≠ 0 ∨ v.y ≠ 0 := by
          by_contra hc
          push Not at hc
          exact hv (by ext <;> simp [hc.1, hc.2])
        simp only [quadForm, Matrix.of_apply, Matrix.cons_val', Matrix.cons_val_zero, Matrix.cons_val_one,
          Matrix.cons_val_fin_one]
        rcases this with h | h
        · nlinarith [mul_self_pos.2 h, mul_self_nonneg v.y]
        · nlinarith [mul_self_pos.2 h, mul_self_nonneg v.x]⟩
      ⟨1 / 16, 1 / 9, ⟨1, 0⟩, ⟨0, 1⟩⟩ (by constructor <;> norm_num)
    exact ⟨e, h, (hq _).2 (by norm_num [quadForm])⟩
  · refine C65_rejects _ !![-1, 0; 0, 1] (by simp) (fun h => ?_) _ (by constructor <;> norm_num)
    have := h.2 ⟨1, 0⟩ (by simp)
    norm_num [quadForm] at this

/-- The matrix of this ellipse gives the ellipse back. -/
example (S : Matrix (Fin 2) (Fin 2) ℝ) (hS : (⟨⟨1, 2⟩, 4, 3, 0, true⟩ : Ellipse).shape_matrix = .ok S)
    (g : Ellipse.Eigh) (hg : Ellipse.IsEigh S g) : ∃ e', Ellipse.from_center_and_eigen ⟨1, 2⟩ g = .ok e' ∧ OnE e' ⟨5, 2⟩ := by
  obtain ⟨e', h, hq⟩ := C65_round_trip _ (by constructor <;> norm_num) S hS g hg
  exact ⟨e', h, (hq _).2 ⟨0, by unfold ellipsePoint Ellipse.rad; ext <;> norm_num⟩⟩

/-- The hypotheses hold for a non-diagonal matrix. -/
example : PosDef2 !![2, 1; 1, 2] := by
  refine ⟨by simp, ?_⟩
  intro v hv
  unfold quadForm
  simp
  by_contra hc
  push Not at hc
  apply hv
  have h1 : v.x = 0 := by nlinarith [sq_nonneg (v.x + v.y), sq_nonneg v.x, sq_nonneg v.y]
  have h2 : v.y = 0 := by nlinarith [sq_nonneg (v.x + v.y), sq_nonneg v.x, sq_nonneg v.y]
  ext
  · exact h1
  · exact h2
