import Verif.Lemmas.Trig
import Verif.Model.Affine

/-!
# Lemmas about ellipses and their equations
-/

open Spec Real Classical

/-- Points of the unit circle have an angle. -/
theorem exists_angle {x y : ℝ} (h : x ^ 2 + y ^ 2 = 1) : ∃ t : ℝ, x = cos t ∧ y = sin t := by
  refine ⟨atan2 y x, ?_, ?_⟩
  · rw [cos_atan2 (by by_contra hc; push Not at hc; rw [hc.1, hc.2] at h; norm_num at h),
      show x * x + y * y = 1 by linarith, Real.sqrt_one, div_one]
  · rw [sin_atan2, show x * x + y * y = 1 by linarith, Real.sqrt_one, div_one]

/-- The value of the equation of the ellipse in its own frame. -/
noncomputable def ellVal (O : Pt) (a b α : ℝ) (P : Pt) : ℝ :=
  ((axisCoord O α P).x / a) ^ 2 + ((axisCoord O α P).y / b) ^ 2 - 1

theorem onEllipse_iff {O : Pt} {a b α : ℝ} (ha : 0 < a) (hb : 0 < b) {P : Pt} :
    OnEllipse O a b α P ↔ ellVal O a b α P = 0 := by
  have hcs := sin_sq_add_cos_sq α
  constructor
  · rintro ⟨t, rfl⟩
    have h := sin_sq_add_cos_sq t
    have e1 : (axisCoord O α (ellipsePoint O a b α t)).x = a * cos t := by
      unfold axisCoord ellipsePoint; dsimp only
      linear_combination (a * cos t) * hcs
    have e2 : (axisCoord O α (ellipsePoint O a b α t)).y = b * sin t := by
      unfold axisCoord ellipsePoint; dsimp only
      linear_combination (b * sin t) * hcs
    unfold ellVal
    rw [e1, e2]
    field_simp
    linear_combination h
  · intro h
    unfold ellVal at h
    have h' : ((axisCoord O α P).x / a) ^ 2 + ((axisCoord O α P).y / b) ^ 2 = 1 := by linarith
    obtain ⟨t, h1, h2⟩ := exists_angle h'
    refine ⟨t, ?_⟩
    have k1 : a * cos t = (axisCoord O α P).x := by rw [← h1]; field_simp
    have k2 : b * sin t = (axisCoord O α P).y := by rw [← h2]; field_simp
    unfold axisCoord at k1 k2
    dsimp only at k1 k2
    unfold ellipsePoint
    ext
    · dsimp only; rw [k1, k2]; linear_combination (O.x - P.x) * hcs
    · dsimp only; rw [k1, k2]; linear_combination (O.y - P.y) * hcs

theorem inEllipse_iff {O : Pt} {a b α : ℝ} {P : Pt} : InEllipse O a b α P ↔ ellVal O a b α P ≤ 0 := by
  unfold InEllipse ellVal; constructor <;> intro h <;> linarith

/-- A quadratic equation written in an orthonormal frame. -/
theorem eval_eq_ellVal {q : Coeffs} {O : Pt} {a b α l1 l2 m : ℝ} (ha : 0 < a) (hb : 0 < b)
    (hA : q.A = l1 * cos α ^ 2 + l2 * sin α ^ 2) (hB : q.B = 2 * (l1 - l2) * (cos α * sin α))
    (hC : q.C = l1 * sin α ^ 2 + l2 * cos α ^ 2) (hD : q.D = -2 * q.A * O.x - q.B * O.y)
    (hE : q.E = -q.B * O.x - 2 * q.C * O.y)
    (hF : q.F = q.A * O.x ^ 2 + q.B * O.x * O.y + q.C * O.y ^ 2 - m) (h1 : l1 * a ^ 2 = m) (h2 : l2 * b ^ 2 = m) (P : Pt) :
    q.eval P = m * ellVal O a b α P := by
  have e1 : q.eval P = l1 * (axisCoord O α P).x ^ 2 + l2 * (axisCoord O α P).y ^ 2 - m := by
    unfold Coeffs.eval axisCoord
    rw [hF, hD, hE, hA, hB, hC]
    dsimp only
    ring
  rw [e1]
  unfold ellVal
  have k1 : l1 = m / a ^ 2 := by rw [← h1]; field_simp
  have k2 : l2 = m / b ^ 2 := by rw [← h2]; field_simp
  rw [k1, k2]
  field_simp

theorem equation_eval {e : Ellipse} (he : e.Valid) (P : Pt) :
    e.equation.eval P = (e.rmajor * e.rminor) ^ 2 * ellVal e.center e.rmajor e.rminor e.rad P := by
  have hcs := sin_sq_add_cos_sq e.rad
  obtain ⟨h1, h2⟩ := he
  apply eval_eq_ellVal (l1 := e.rminor ^ 2) (l2 := e.rmajor ^ 2) h1 h2
  · unfold Ellipse.equation
    dsimp only
    rw [show (if e.degrees = true then e.alpha * (π / 180) else e.alpha) = e.rad from rfl]
    linear_combination (-e.rminor ^ 2) * hcs
  · unfold Ellipse.equation
    dsimp only
    rw [show (if e.degrees = true then e.alpha * (π / 180) else e.alpha) = e.rad from rfl]
    ring
  · unfold Ellipse.equation
    dsimp only
    rw [show (if e.degrees = true then e.alpha * (π / 180) else e.alpha) = e.rad from rfl]
    linear_combination (-e.rmajor ^ 2) * hcs
  · rfl
  · rfl
  · unfold Ellipse.equation
    dsimp only
    ring
  · ring
  · ring

/-- The discriminant and the leading coefficients of the equation of an ellipse. -/
theorem equation_pos {e : Ellipse} (he : e.Valid) :
    0 < e.equation.A ∧ 0 < e.equation.C ∧
    4 * e.equation.A * e.equation.C - e.equation.B * e.equation.B = 4 * (e.rmajor * e.rminor) ^ 2 := by
  obtain ⟨h1, h2⟩ := he
  have hcs := sin_sq_add_cos_sq e.rad
  have eA : e.equation.A = e.rmajor ^ 2 * sin e.rad ^ 2 + e.rminor ^ 2 * cos e.rad ^ 2 := by
    unfold Ellipse.equation
    dsimp only
    rw [show (if e.degrees = true then e.alpha * (π / 180) else e.alpha) = e.rad from rfl]
    linear_combination (-e.rminor ^ 2) * hcs
  have eC : e.equation.C = e.rmajor ^ 2 * cos e.rad ^ 2 + e.rminor ^ 2 * sin e.rad ^ 2 := by
    unfold Ellipse.equation
    dsimp only
    rw [show (if e.degrees = true then e.alpha * (π / 180) else e.alpha) = e.rad from rfl]
    linear_combination (-e.rmajor ^ 2) * hcs
  have eB : e.equation.B = 2 * (e.rminor ^ 2 - e.rmajor ^ 2) * sin e.rad * cos e.rad := by
    unfold Ellipse.equation
    dsimp only
    rw [show (if e.degrees = true then e.alpha * (π / 180) else e.alpha) = e.rad from rfl]
  have hpos : ∀ x y s c : ℝ, 0 < x → 0 < y → s ^ 2 + c ^ 2 = 1 → 0 < x ^ 2 * s ^ 2 + y ^ 2 * c ^ 2 := by
    intro x y s c hx hy h
    by_cases hs : s = 0
    · subst hs
      have : c ^ 2 = 1 := by linarith
      rw [this]; positivity
    · positivity
  refine ⟨?_, ?_, ?_⟩
  · rw [eA]; exact hpos _ _ _ _ h1 h2 hcs
  · rw [eC]; exact hpos _ _ _ _ h1 h2 (by linarith)
  · rw [eA, eB, eC]
    linear_combination (4 * (e.rmajor * e.rminor) ^ 2 * (sin e.rad ^ 2 + cos e.rad ^ 2 + 1)) * hcs

/-! ### Angles modulo `π` -/

/-- `β` is an angle of the same undirected axis as `α`. -/
def SameAxis (α β : ℝ) : Prop := cos β ^ 2 = cos α ^ 2 ∧ sin β ^ 2 = sin α ^ 2 ∧ cos β * sin β = cos α * sin α

theorem sameAxis_sub_int (θ : ℝ) (n : ℤ) : SameAxis θ (θ - n * π) := by
  have h : ((-1 : ℝ) ^ n) * (-1) ^ n = 1 := by
    rw [← mul_zpow]; norm_num
  unfold SameAxis
  rw [cos_sub_int_mul_pi, sin_sub_int_mul_pi]
  refine ⟨?_, ?_, ?_⟩
  · linear_combination (cos θ ^ 2) * h
  · linear_combination (sin θ ^ 2) * h
  · linear_combination (cos θ * sin θ) * h

theorem sameAxis_mod (θ : ℝ) : SameAxis θ (pyMod θ π) := by
  have : pyMod θ π = θ - (⌊θ / π⌋ : ℤ) * π := by unfold pyMod; ring
  rw [this]; exact sameAxis_sub_int _ _

theorem sameAxis_mod_deg (θ : ℝ) : SameAxis θ (pyMod (θ * 180 / π) 180 * (π / 180)) := by
  have : pyMod (θ * 180 / π) 180 * (π / 180) = θ - (⌊θ * 180 / π / 180⌋ : ℤ) * π := by
    unfold pyMod; field_simp
  rw [this]; exact sameAxis_sub_int _ _

/-! ### `Affine.transform_ellipse`: from the equation to the ellipse -/

/-- The angle `atan2(C - A - s, B)` diagonalises the quadratic form. -/
theorem frame_angle {A B C S : ℝ} (hS : 0 ≤ S) (hS2 : S ^ 2 = (A - C) ^ 2 + B ^ 2) :
    S * (cos (atan2 (C - A - S) B) ^ 2 - sin (atan2 (C - A - S) B) ^ 2) = C - A ∧
    S * (2 * (cos (atan2 (C - A - S) B) * sin (atan2 (C - A - S) B))) = -B := by
  by_cases h0 : B = 0 ∧ C - A - S = 0
  · obtain ⟨hB, hC⟩ := h0
    have : atan2 (C - A - S) B = 0 := by
      rw [hB, hC]; unfold atan2
      rw [show (⟨0, 0⟩ : ℂ) = 0 from rfl, Complex.arg_zero]
    rw [this, cos_zero, sin_zero, hB]
    constructor <;> linarith
  · have h1 : B ≠ 0 ∨ C - A - S ≠ 0 := by tauto
    rw [cos_atan2 h1, sin_atan2]
    have hr : B * B + (C - A - S) * (C - A - S) = 2 * S * (S - (C - A)) := by
      linear_combination (-1) * hS2
    have hrp : 0 < B * B + (C - A - S) * (C - A - S) := by
      rcases h1 with h | h
      · have : 0 < B * B := mul_self_pos.2 h
        nlinarith [mul_self_nonneg (C - A - S)]
      · have : 0 < (C - A - S) * (C - A - S) := mul_self_pos.2 h
        nlinarith [mul_self_nonneg B]
    obtain ⟨R, hR⟩ : ∃ R, R = B * B + (C - A - S) * (C - A - S) := ⟨_, rfl⟩
    rw [← hR] at hrp hr ⊢
    have hsq : sqrt R * sqrt R = R := Real.mul_self_sqrt hrp.le
    have hsp : 0 < sqrt R := Real.sqrt_pos.2 hrp
    constructor
    · rw [div_pow, div_pow, ← sub_div, mul_div_assoc', div_eq_iff (by positivity)]
      have : sqrt R ^ 2 = 2 * S * (S - (C - A)) := by rw [sq, hsq, hr]
      rw [this]
      linear_combination (-S) * hS2
    · rw [div_mul_div_comm, hsq, mul_div_assoc', mul_div_assoc', div_eq_iff hrp.ne', hr]
      ring

/-- The quantity whose sign tells whether a definite conic is a real ellipse. -/
def Coeffs.k (q : Coeffs) : ℝ := q.A * q.E * q.E + q.C * q.D * q.D - q.B * q.D * q.E + (q.B * q.B - 4 * q.A * q.C) * q.F

/-- From a definite equation with real points to the ellipse. -/
theorem ellipseOfCoeffs_spec {q : Coeffs} (hA : 0 < q.A) (hΔ : 0 < 4 * q.A * q.C - q.B * q.B) (hk : 0 < q.k) (deg : Bool) :
    ∃ e : Ellipse, Affine.ellipseOfCoeffs q deg = .ok e ∧ e.Valid ∧ e.rminor ≤ e.rmajor ∧ e.degrees = deg ∧
      0 ≤ e.rad ∧ e.rad < π ∧
      ∃ m : ℝ, 0 < m ∧ ∀ P, q.eval P = m * ellVal e.center e.rmajor e.rminor e.rad P := by
  have hC : 0 < q.C := by nlinarith [mul_self_nonneg q.B]
  obtain ⟨S, hSe⟩ : ∃ S, S = sqrt ((q.A - q.C) ^ 2 + q.B * q.B) := ⟨_, rfl⟩
  have hS0 : 0 ≤ S := by rw [hSe]; exact Real.sqrt_nonneg _
  have harg : 0 ≤ (q.A - q.C) ^ 2 + q.B * q.B := by nlinarith [sq_nonneg (q.A - q.C), mul_self_nonneg q.B]
  have hS2 : S ^ 2 = (q.A - q.C) ^ 2 + q.B ^ 2 := by rw [hSe, Real.sq_sqrt harg]; ring
  have hSlt : S < q.A + q.C := by
    apply lt_of_pow_lt_pow_left₀ 2 (by positivity)
    rw [hS2]; nlinarith
  obtain ⟨Δ, hΔe⟩ : ∃ Δ, Δ = q.B * q.B - 4 * q.A * q.C := ⟨_, rfl⟩
  have hΔn : Δ < 0 := by rw [hΔe]; linarith
  have hke : q.k = q.A * q.E * q.E + q.C * q.D * q.D - q.B * q.D * q.E + Δ * q.F := by rw [hΔe]; rfl
  obtain ⟨k, hkk⟩ : ∃ k, k = q.k := ⟨_, rfl⟩
  rw [← hkk] at hk hke
  have hra : 0 < 2 * k * (q.A + q.C + S) := by positivity
  have hrb : 0 < 2 * k * (q.A + q.C + -S) := by
    have : 0 < q.A + q.C + -S := by linarith
    positivity
  have hap : 0 < -sqrt (2 * k * (q.A + q.C + S)) / Δ := div_pos_of_neg_of_neg (by linarith [Real.sqrt_pos.2 hra]) hΔn
  have hbp : 0 < -sqrt (2 * k * (q.A + q.C + -S)) / Δ := div_pos_of_neg_of_neg (by linarith [Real.sqrt_pos.2 hrb]) hΔn
  obtain ⟨th, hth⟩ : ∃ th, th = (if deg = true then pyMod (atan2 (q.C - q.A - S) q.B * 180 / π) 180 else pyMod (atan2 (q.C - q.A - S) q.B) π) := ⟨_, rfl⟩
  refine ⟨⟨⟨(2 * q.C * q.D - q.B * q.E) / Δ, (2 * q.A * q.E - q.B * q.D) / Δ⟩, -sqrt (2 * k * (q.A + q.C + S)) / Δ,
    -sqrt (2 * k * (q.A + q.C + -S)) / Δ, th, deg⟩, ?_, ⟨hap, hbp⟩, ?_, rfl, ?_, ?_, k / -Δ, div_pos hk (by linarith), ?_⟩
  · unfold Affine.ellipseOfCoeffs pySqrt
    dsimp only
    rw [if_neg (by linarith), Res.ok_bind, ← hSe, ← hΔe, ← hke, if_neg (by push Not; exact ⟨hra.le, hrb.le, hΔn.ne⟩), ← hth]
    unfold mkEllipse
    rw [if_neg (by linarith), if_neg (by linarith)]
  · dsimp only
    rw [div_le_div_right_of_neg hΔn]
    apply neg_le_neg
    apply Real.sqrt_le_sqrt
    nlinarith
  · unfold Ellipse.rad
    dsimp only
    rw [hth]
    split_ifs
    · exact mul_nonneg (pyMod_nonneg _ (by norm_num)) (by positivity)
    · exact pyMod_nonneg _ pi_pos
  · unfold Ellipse.rad
    dsimp only
    rw [hth]
    split_ifs
    · have := pyMod_lt (atan2 (q.C - q.A - S) q.B * 180 / π) (show (0 : ℝ) < 180 by norm_num)
      have hp := pi_pos
      calc _ < 180 * (π / 180) := by
            apply mul_lt_mul_of_pos_right this; positivity
        _ = π := by ring
    · exact pyMod_lt _ pi_pos
  · have hax : SameAxis (atan2 (q.C - q.A - S) q.B) (if deg = true then th * (π / 180) else th) := by
      rw [hth]
      split_ifs
      · exact sameAxis_mod_deg _
      · exact sameAxis_mod _
    obtain ⟨hf1, hf2⟩ := frame_angle (A := q.A) (B := q.B) (C := q.C) hS0 hS2
    obtain ⟨x1, x2, x3⟩ := hax
    rw [← x1, ← x2] at hf1
    rw [← x3] at hf2
    obtain ⟨α, hα⟩ : ∃ α, α = (if deg = true then th * (π / 180) else th) := ⟨_, rfl⟩
    rw [← hα] at hf1 hf2
    have hcs := sin_sq_add_cos_sq α
    intro P
    refine eval_eq_ellVal (l1 := (q.A + q.C - S) / 2) (l2 := (q.A + q.C + S) / 2) hap hbp ?_ ?_ ?_ ?_ ?_ ?_ ?_ ?_ P
    · change q.A = _ * cos (if deg = true then th * (π / 180) else th) ^ 2 + _ * sin (if deg = true then th * (π / 180) else th) ^ 2
      rw [← hα]
      linear_combination (1 / 2) * hf1 - (q.A + q.C) / 2 * hcs
    · change q.B = _ * (cos (if deg = true then th * (π / 180) else th) * sin (if deg = true then th * (π / 180) else th))
      rw [← hα]
      linear_combination hf2
    · change q.C = _ * sin (if deg = true then th * (π / 180) else th) ^ 2 + _ * cos (if deg = true then th * (π / 180) else th) ^ 2
      rw [← hα]
      linear_combination (-1 / 2) * hf1 - (q.A + q.C) / 2 * hcs
    · dsimp only
      have := hΔn.ne
      field_simp
      rw [hΔe]; ring
    · dsimp only
      have := hΔn.ne
      field_simp
      rw [hΔe]; ring
    · dsimp only
      have := hΔn.ne
      field_simp
      rw [hke, hΔe]; ring
    · have h := hΔn.ne
      rw [div_pow, neg_sq, Real.sq_sqrt hra.le]
      field_simp
      rw [hΔe]
      linear_combination -hS2
    · have h := hΔn.ne
      rw [div_pow, neg_sq, Real.sq_sqrt hrb.le]
      field_simp
      rw [hΔe]
      linear_combination -hS2

theorem equation_k {e : Ellipse} (he : e.Valid) : 0 < e.equation.k := by
  have h3 := (equation_pos he).2.2
  have h4 : e.equation.k = (4 * e.equation.A * e.equation.C - e.equation.B * e.equation.B) * (e.rmajor * e.rminor) ^ 2 := by
    have hcs := sin_sq_add_cos_sq e.rad
    have hD : e.equation.D = -2 * e.equation.A * e.center.x - e.equation.B * e.center.y := rfl
    have hE : e.equation.E = -e.equation.B * e.center.x - 2 * e.equation.C * e.center.y := rfl
    have hF : e.equation.F = e.equation.A * e.center.x ^ 2 + e.equation.B * e.center.x * e.center.y +
      e.equation.C * e.center.y ^ 2 - (e.rmajor * e.rminor) ^ 2 := by
      unfold Ellipse.equation; dsimp only; ring
    unfold Coeffs.k
    rw [hD, hE, hF]; ring
  rw [h4, h3]
  have := he.1
  have := he.2
  positivity
