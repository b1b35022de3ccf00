import Verif.Props.Ellipse

/-!
# C69, C77, C71, C78: angles on ellipses, equality of ellipses, arcs
-/

open Spec Real Classical

/-- Cosine and sine at `φ + kπ`. -/
theorem cos_add_int_pi (φ : ℝ) (k : ℤ) : cos (φ + k * π) = (-1) ^ k * cos φ ∧ sin (φ + k * π) = (-1) ^ k * sin φ := by
  rw [cos_add_int_mul_pi, sin_add_int_mul_pi]; exact ⟨rfl, rfl⟩

/-- The point of eccentric angle `atan2(a/b, cot θ) + kπ` is in the direction `θ` when `k` has the right parity. -/
theorem ecc_direction {a b θ : ℝ} (ha : 0 < a) (hb : 0 < b) (k : ℤ) (hk : 0 < (-1) ^ k * sin θ) (O : Pt) (α : ℝ) :
    ∃ l : ℝ, 0 < l ∧ ellipsePoint O a b α (atan2 (a / b) (cos θ / sin θ) + k * π) = O + l • (⟨cos (α + θ), sin (α + θ)⟩ : Pt) := by
  have hs : sin θ ≠ 0 := by intro h0; rw [h0, mul_zero] at hk; exact lt_irrefl _ hk
  have hy : a / b ≠ 0 := by positivity
  obtain ⟨ρ, hρ⟩ : ∃ ρ, ρ = sqrt (cos θ / sin θ * (cos θ / sin θ) + a / b * (a / b)) := ⟨_, rfl⟩
  have hρ0 : 0 < ρ := by
    rw [hρ]; apply Real.sqrt_pos.2
    have : 0 < a / b * (a / b) := by positivity
    nlinarith [mul_self_nonneg (cos θ / sin θ)]
  obtain ⟨h1, h2⟩ := cos_add_int_pi (atan2 (a / b) (cos θ / sin θ)) k
  obtain ⟨j, hj⟩ : ∃ j : ℝ, j = (-1) ^ k := ⟨_, rfl⟩
  have hj2 : j * j = 1 := by rw [hj, ← mul_zpow]; norm_num
  rw [cos_atan2 (Or.inr hy), ← hρ, ← hj] at h1
  rw [sin_atan2, ← hρ, ← hj] at h2
  rw [← hj] at hk
  refine ⟨a * j / (ρ * sin θ), ?_, ?_⟩
  · have : a * j / (ρ * sin θ) = a * (j * sin θ) / (ρ * sin θ ^ 2) := by field_simp
    rw [this]
    have : 0 < sin θ ^ 2 := by positivity
    positivity
  · unfold ellipsePoint
    rw [h1, h2, cos_add, sin_add]
    ext
    · simp; field_simp; ring
    · simp; field_simp; ring

theorem floor_pi {x : ℝ} {k : ℤ} (h1 : k * π ≤ x) (h2 : x < (k + 1) * π) : x - pyMod x π = k * π := by
  have : ⌊x / π⌋ = k := by
    rw [Int.floor_eq_iff]
    constructor
    · rwa [le_div_iff₀ pi_pos]
    · rwa [div_lt_iff₀ pi_pos]
  unfold pyMod
  rw [this]; ring

/-- C69 (part): for an angle whose representative in `[0, 2π)` is neither `0` nor in `[π, π + sepsilon_)`, `theta2t`
returns the eccentric angle of the point of the ellipse seen from the center in the direction `theta` from the major axis.
Missing: it raises for `theta = 0`, see `C69_zero_counterexample`, and is off by `π` just above `π`, see
`C69_above_pi_counterexample`. -/
theorem C69_theta2t_partial (e : Ellipse) (he : e.Valid) (theta : ℝ) (degrees : Bool) (θ : ℝ)
    (hθ : θ = if degrees = true then theta * (π / 180) else theta)
    (h0 : pyMod θ (2 * π) ≠ 0) (h1 : pyMod θ (2 * π) < π ∨ π + sepsilon_ ≤ pyMod θ (2 * π)) :
    ∃ t l : ℝ, e.theta2t theta degrees = .ok t ∧ 0 < l ∧
      ellipsePoint e.center e.rmajor e.rminor e.rad t = e.center + l • (⟨cos (e.rad + θ), sin (e.rad + θ)⟩ : Pt) := by
  have hε := sepsilon_pos
  have hε2 : sepsilon_ < 1 := by unfold sepsilon_; norm_num
  have hπ := pi_gt_three
  obtain ⟨u, hu⟩ : ∃ u, u = pyMod θ (2 * π) := ⟨_, rfl⟩
  have hu0 : 0 ≤ u := by rw [hu]; exact pyMod_nonneg _ (by linarith)
  have hu1 : u < 2 * π := by rw [hu]; exact pyMod_lt _ (by linarith)
  obtain ⟨n, hn⟩ : ∃ n : ℤ, θ = u + n * (2 * π) := ⟨⌊θ / (2 * π)⌋, by rw [hu]; unfold pyMod; ring⟩
  have hdir : cos (e.rad + θ) = cos (e.rad + u) ∧ sin (e.rad + θ) = sin (e.rad + u) := by
    rw [hn, ← add_assoc]
    exact ⟨cos_add_int_mul_two_pi _ _, sin_add_int_mul_two_pi _ _⟩
  rw [hdir.1, hdir.2]
  rw [← hu] at h0 h1
  have hupos : 0 < u := lt_of_le_of_ne hu0 (Ne.symm h0)
  have hodd : ((-1 : ℝ) ^ (2 * n + 1)) = -1 := by
    rw [zpow_add₀ (by norm_num), zpow_mul]; norm_num
  have heven : ((-1 : ℝ) ^ (2 * n)) = 1 := by
    rw [zpow_mul]; norm_num
  have hmain : ∃ k : ℤ, 0 < (-1 : ℝ) ^ k * sin u ∧
      (θ + (if u < sepsilon_ then (1 : ℝ) else -1) * sepsilon_) - pyMod (θ + (if u < sepsilon_ then (1 : ℝ) else -1) * sepsilon_) π = k * π := by
    rcases h1 with h1 | h1
    · refine ⟨2 * n, by rw [heven, one_mul]; exact sin_pos_of_pos_of_lt_pi hupos h1, ?_⟩
      apply floor_pi
      · rw [hn]; push_cast; split_ifs with hc <;> linarith
      · rw [hn]; push_cast; split_ifs with hc <;> linarith
    · refine ⟨2 * n + 1, ?_, ?_⟩
      · rw [hodd]
        have := sin_neg_of_neg_of_neg_pi_lt (x := u - 2 * π) (by linarith) (by linarith)
        rw [sin_sub_two_pi] at this
        linarith
      · rw [if_neg (by linarith)]
        apply floor_pi
        · rw [hn]; push_cast; linarith
        · rw [hn]; push_cast; linarith
  obtain ⟨k, hk1, hk2⟩ := hmain
  obtain ⟨l, hl, hp⟩ := ecc_direction he.1 he.2 k hk1 e.center e.rad
  have hsin : sin u ≠ 0 := by intro h; rw [h, mul_zero] at hk1; exact lt_irrefl _ hk1
  refine ⟨_, l, ?_, hl, hp⟩
  unfold Ellipse.theta2t
  dsimp only
  rw [← hθ, ← hu, if_neg hsin, add_sub_assoc, hk2]

/-- C69 fails at `theta = 0`: division by zero. -/
theorem C69_zero_counterexample (e : Ellipse) (degrees : Bool) : e.theta2t 0 degrees = .error .zeroDivision := by
  have : pyMod 0 (2 * π) = 0 := pyMod_eq_self le_rfl (by positivity)
  unfold Ellipse.theta2t
  cases degrees <;> simp [this]

/-- C69 fails just above `π`: the point of the returned eccentric angle is in the opposite direction. -/
theorem C69_above_pi_counterexample (e : Ellipse) (he : e.Valid) (d : ℝ) (hd0 : 0 < d) (hd1 : d < sepsilon_) :
    ∃ t l : ℝ, e.theta2t (π + d) false = .ok t ∧ l < 0 ∧
      ellipsePoint e.center e.rmajor e.rminor e.rad t = e.center + l • (⟨cos (e.rad + (π + d)), sin (e.rad + (π + d))⟩ : Pt) := by
  have hε := sepsilon_pos
  have hε2 : sepsilon_ < 1 := by unfold sepsilon_; norm_num
  have hπ := pi_gt_three
  have hu : pyMod (π + d) (2 * π) = π + d := pyMod_eq_self (by linarith) (by linarith)
  have hs : 0 < sin d := sin_pos_of_pos_of_lt_pi hd0 (by linarith)
  have h1 : cos (π + d) / sin (π + d) = cos d / sin d := by
    rw [add_comm, cos_add_pi, sin_add_pi, neg_div_neg_eq]
  obtain ⟨l, hl, hp⟩ := ecc_direction he.1 he.2 0 (θ := d) (by simpa using hs) e.center e.rad
  refine ⟨_, -l, ?_, by linarith, hp.trans ?_⟩
  · unfold Ellipse.theta2t
    simp only [Bool.false_eq_true, if_false]
    rw [hu, if_neg (by rw [add_comm, sin_add_pi]; linarith), if_neg (by linarith), h1, add_sub_assoc,
      floor_pi (k := 0) (by push_cast; linarith) (by push_cast; linarith)]
  · rw [show e.rad + (π + d) = e.rad + d + π by ring, cos_add_pi, sin_add_pi]
    ext <;> simp

example : ∃ d : ℝ, 0 < d ∧ d < sepsilon_ := ⟨sepsilon_ / 2, by have := sepsilon_pos; constructor <;> linarith⟩

/-- The hypotheses of `C69_theta2t_partial` hold at `theta = 90°`. -/
example : pyMod ((90 : ℝ) * (π / 180)) (2 * π) ≠ 0 ∧ pyMod ((90 : ℝ) * (π / 180)) (2 * π) < π := by
  have hπ := pi_pos
  rw [pyMod_eq_self (by positivity) (by linarith)]
  constructor
  · positivity
  · linarith

/-- C78 (part): the same for `point_from_angle`, which accepts `theta = 0`. -/
theorem C78_point_from_angle_partial (e : Ellipse) (he : e.Valid) (theta : ℝ) (degrees : Bool) (θ : ℝ)
    (hθ : θ = if degrees = true then theta * (π / 180) else theta)
    (h1 : pyMod θ (2 * π) < π ∨ π + sepsilon_ ≤ pyMod θ (2 * π)) :
    ∃ l : ℝ, 0 < l ∧ e.point_from_angle theta degrees = e.center + l • (⟨cos (e.rad + θ), sin (e.rad + θ)⟩ : Pt) := by
  have hε := sepsilon_pos
  have hε2 : sepsilon_ < 1 := by unfold sepsilon_; norm_num
  have hπ := pi_gt_three
  obtain ⟨u, hu⟩ : ∃ u, u = pyMod θ (2 * π) := ⟨_, rfl⟩
  have hu0 : 0 ≤ u := by rw [hu]; exact pyMod_nonneg _ (by linarith)
  have hu1 : u < 2 * π := by rw [hu]; exact pyMod_lt _ (by linarith)
  obtain ⟨n, hn⟩ : ∃ n : ℤ, θ = u + n * (2 * π) := ⟨⌊θ / (2 * π)⌋, by rw [hu]; unfold pyMod; ring⟩
  have hdir : cos (e.rad + θ) = cos (e.rad + u) ∧ sin (e.rad + θ) = sin (e.rad + u) := by
    rw [hn, ← add_assoc]
    exact ⟨cos_add_int_mul_two_pi _ _, sin_add_int_mul_two_pi _ _⟩
  rw [hdir.1, hdir.2]
  rw [← hu] at h1
  have hodd : ((-1 : ℝ) ^ (2 * n + 1)) = -1 := by
    rw [zpow_add₀ (by norm_num), zpow_mul]; norm_num
  have heven : ((-1 : ℝ) ^ (2 * n)) = 1 := by
    rw [zpow_mul]; norm_num
  have hsg : (if u ≤ sepsilon_ then (2 * 1 - 1 : ℝ) else 2 * 0 - 1) = if u ≤ sepsilon_ then 1 else -1 := by
    split_ifs <;> norm_num
  have hmain : ∃ k : ℤ, (u = 0 ∧ k = 2 * n ∨ u ≠ 0 ∧ 0 < (-1 : ℝ) ^ k * sin u) ∧
      (θ + sepsilon_ * (if u ≤ sepsilon_ then (1 : ℝ) else -1)) - pyMod (θ + sepsilon_ * (if u ≤ sepsilon_ then (1 : ℝ) else -1)) π = k * π := by
    rcases h1 with h1 | h1
    · refine ⟨2 * n, ?_, ?_⟩
      · by_cases h0 : u = 0
        · left; exact ⟨h0, rfl⟩
        · right
          exact ⟨h0, by rw [heven, one_mul]; exact sin_pos_of_pos_of_lt_pi (lt_of_le_of_ne hu0 (Ne.symm h0)) h1⟩
      · apply floor_pi
        · rw [hn]; push_cast; split_ifs with hc <;> linarith
        · rw [hn]; push_cast; split_ifs with hc <;> linarith
    · refine ⟨2 * n + 1, Or.inr ⟨by linarith, ?_⟩, ?_⟩
      · rw [hodd]
        have := sin_neg_of_neg_of_neg_pi_lt (x := u - 2 * π) (by linarith) (by linarith)
        rw [sin_sub_two_pi] at this
        linarith
      · rw [if_neg (by linarith)]
        apply floor_pi
        · rw [hn]; push_cast; linarith
        · rw [hn]; push_cast; linarith
  obtain ⟨k, hk1, hk2⟩ := hmain
  unfold Ellipse.point_from_angle
  dsimp only
  rw [← hθ, ← hu, hsg, add_sub_assoc, hk2, ellipse_point_eq]
  rw [show (if e.degrees = true then e.alpha * (π / 180) else e.alpha) = e.rad from rfl]
  unfold Ellipse.np_arctan2_cot
  rcases hk1 with ⟨rfl, rfl⟩ | ⟨-, hk1⟩
  · rw [sin_zero, if_pos rfl]
    obtain ⟨c1, c2⟩ := cos_add_int_pi 0 (2 * n)
    rw [heven] at c1 c2
    refine ⟨e.rmajor, he.1, ?_⟩
    unfold ellipsePoint
    rw [c1, c2]
    ext <;> simp
  · have hsin : sin u ≠ 0 := by intro h; rw [h, mul_zero] at hk1; exact lt_irrefl _ hk1
    rw [if_neg hsin]
    exact ecc_direction he.1 he.2 k hk1 e.center e.rad

/-- C78 fails just above `π`: the point is in the opposite direction. -/
theorem C78_above_pi_counterexample (e : Ellipse) (he : e.Valid) (d : ℝ) (hd0 : 0 < d) (hd1 : d < sepsilon_) :
    ∃ l : ℝ, l < 0 ∧ e.point_from_angle (π + d) false =
      e.center + l • (⟨cos (e.rad + (π + d)), sin (e.rad + (π + d))⟩ : Pt) := by
  have hε := sepsilon_pos
  have hε2 : sepsilon_ < 1 := by unfold sepsilon_; norm_num
  have hπ := pi_gt_three
  have hu : pyMod (π + d) (2 * π) = π + d := pyMod_eq_self (by linarith) (by linarith)
  have hs : 0 < sin d := sin_pos_of_pos_of_lt_pi hd0 (by linarith)
  have h1 : cos (π + d) / sin (π + d) = cos d / sin d := by
    rw [add_comm, cos_add_pi, sin_add_pi, neg_div_neg_eq]
  obtain ⟨l, hl, hp⟩ := ecc_direction he.1 he.2 0 (θ := d) (by simpa using hs) e.center e.rad
  refine ⟨-l, by linarith, ?_⟩
  have h2 : e.point_from_angle (π + d) false =
      ellipsePoint e.center e.rmajor e.rminor e.rad (atan2 (e.rmajor / e.rminor) (cos d / sin d) + ((0 : ℤ) : ℝ) * π) := by
    unfold Ellipse.point_from_angle Ellipse.np_arctan2_cot
    simp only [Bool.false_eq_true, if_false]
    rw [hu, if_neg (by rw [add_comm, sin_add_pi]; linarith), if_neg (by linarith), h1, add_sub_assoc,
      floor_pi (k := 0) (by push_cast; linarith) (by push_cast; linarith), ellipse_point_eq]
    rfl
  rw [h2, hp, show e.rad + (π + d) = e.rad + d + π by ring, cos_add_pi, sin_add_pi]
  ext <;> simp

/-! ### C77 -/

set_option maxHeartbeats 4000000 in
/-- If the points of an ellipse are on another one, the centers are the same and the parameters are related. -/
theorem ellipse_params0 {e f : Ellipse} (he : e.Valid) (hf : f.Valid) (hsub : ∀ P, OnE e P → OnE f P) :
    f.center = e.center ∧
    e.rmajor ^ 2 * (f.rminor ^ 2 * cos (e.rad - f.rad) ^ 2 + f.rmajor ^ 2 * sin (e.rad - f.rad) ^ 2) = f.rmajor ^ 2 * f.rminor ^ 2 ∧
    e.rminor ^ 2 * (f.rminor ^ 2 * sin (e.rad - f.rad) ^ 2 + f.rmajor ^ 2 * cos (e.rad - f.rad) ^ 2) = f.rmajor ^ 2 * f.rminor ^ 2 ∧
    (f.rmajor ^ 2 - f.rminor ^ 2) * (cos (e.rad - f.rad) * sin (e.rad - f.rad)) = 0 := by
  obtain ⟨a1, b1⟩ := he
  obtain ⟨a2, b2⟩ := hf
  have hcs := sin_sq_add_cos_sq (e.rad - f.rad)
  obtain ⟨δ, hδ⟩ : ∃ δ, δ = e.rad - f.rad := ⟨_, rfl⟩
  rw [← hδ] at hcs ⊢
  obtain ⟨c, hc⟩ : ∃ c, c = cos δ := ⟨_, rfl⟩
  obtain ⟨s, hs⟩ : ∃ s, s = sin δ := ⟨_, rfl⟩
  rw [← hs, ← hc] at hcs
  rw [← hs, ← hc]
  obtain ⟨p, hp⟩ : ∃ p, p = axisCoord f.center f.rad e.center := ⟨_, rfl⟩
  -- the points of `e` in the frame of `f`
  have hfr : ∀ t, (axisCoord f.center f.rad (ellipsePoint e.center e.rmajor e.rminor e.rad t)) =
      ⟨p.x + e.rmajor * cos t * c - e.rminor * sin t * s, p.y + e.rmajor * cos t * s + e.rminor * sin t * c⟩ := by
    intro t
    rw [hp, hc, hs, hδ, cos_sub, sin_sub]
    unfold axisCoord ellipsePoint
    ext <;> simp <;> ring
  have hev : ∀ t, f.rminor ^ 2 * (p.x + e.rmajor * cos t * c - e.rminor * sin t * s) ^ 2 +
      f.rmajor ^ 2 * (p.y + e.rmajor * cos t * s + e.rminor * sin t * c) ^ 2 = f.rmajor ^ 2 * f.rminor ^ 2 := by
    intro t
    have h := hsub _ ⟨t, rfl⟩
    unfold OnE at h
    rw [onEllipse_iff a2 b2] at h
    unfold ellVal at h
    rw [hfr] at h
    dsimp only at h
    field_simp at h
    linear_combination h
  have t0 := hev 0
  have t1 := hev π
  have t2 := hev (π / 2)
  have t3 := hev (-(π / 2))
  have t4 := hev (π / 4)
  have t5 := hev (-(π / 4))
  have t6 := hev (π / 4 + π)
  rw [cos_add_pi, sin_add_pi] at t6
  simp only [cos_zero, sin_zero, cos_pi, sin_pi, cos_pi_div_two, sin_pi_div_two, cos_neg, sin_neg, cos_pi_div_four, sin_pi_div_four] at t0 t1 t2 t3 t4 t5 t6
  have hq : (sqrt 2 / 2) ^ 2 = 1 / 2 := by rw [div_pow, Real.sq_sqrt (by norm_num)]; norm_num
  obtain ⟨q, hqe⟩ : ∃ q, q = sqrt 2 / 2 := ⟨_, rfl⟩
  rw [← hqe] at t4 t5 t6 hq
  -- the gradient vanishes
  have g1 : f.rminor ^ 2 * p.x * c + f.rmajor ^ 2 * p.y * s = 0 := by
    apply mul_left_cancel₀ (show 4 * e.rmajor ≠ 0 by positivity)
    linear_combination t0 - t1
  have g2 : -f.rminor ^ 2 * p.x * s + f.rmajor ^ 2 * p.y * c = 0 := by
    apply mul_left_cancel₀ (show 4 * e.rminor ≠ 0 by positivity)
    linear_combination t2 - t3
  have px : p.x = 0 := by
    apply mul_left_cancel₀ (show f.rminor ^ 2 ≠ 0 by positivity)
    linear_combination c * g1 - s * g2 - f.rminor ^ 2 * p.x * hcs
  have py : p.y = 0 := by
    apply mul_left_cancel₀ (show f.rmajor ^ 2 ≠ 0 by positivity)
    linear_combination s * g1 + c * g2 - f.rmajor ^ 2 * p.y * hcs
  rw [px, py] at t0 t2 t4 t5
  have k1 : e.rmajor ^ 2 * (f.rminor ^ 2 * c ^ 2 + f.rmajor ^ 2 * s ^ 2) = f.rmajor ^ 2 * f.rminor ^ 2 := by
    linear_combination t0
  have k2 : e.rminor ^ 2 * (f.rminor ^ 2 * s ^ 2 + f.rmajor ^ 2 * c ^ 2) = f.rmajor ^ 2 * f.rminor ^ 2 := by
    linear_combination t2
  have k3 : (f.rmajor ^ 2 - f.rminor ^ 2) * (c * s) = 0 := by
    apply mul_left_cancel₀ (show 2 * (e.rmajor * e.rminor) ≠ 0 by positivity)
    linear_combination t4 - t5 - 4 * (e.rmajor * e.rminor) * (f.rmajor ^ 2 - f.rminor ^ 2) * (c * s) * (hq)
  have hcen : f.center = e.center := by
    have := hp
    rw [Pt.ext_iff] at this
    obtain ⟨u, v⟩ := this
    rw [px] at u
    rw [py] at v
    unfold axisCoord at u v
    dsimp only at u v
    have hcs' := sin_sq_add_cos_sq f.rad
    ext
    · linear_combination cos f.rad * u - sin f.rad * v + (e.center.x - f.center.x) * hcs'
    · linear_combination sin f.rad * u + cos f.rad * v + (e.center.y - f.center.y) * hcs'
  exact ⟨hcen, k1, k2, k3⟩

/-- The parameters of a non-circular ellipse are determined by its points. -/
theorem ellipse_params {e f : Ellipse} (he : e.Valid) (hf : f.Valid) (hsub : ∀ P, OnE e P → OnE f P)
    (hne : e.rminor < e.rmajor) (hnf : f.rminor < f.rmajor) :
    f.center = e.center ∧ f.rmajor = e.rmajor ∧ f.rminor = e.rminor ∧ sin (e.rad - f.rad) = 0 := by
  obtain ⟨hcen, k1, k2, k3⟩ := ellipse_params0 he hf hsub
  obtain ⟨a1, b1⟩ := he
  obtain ⟨a2, b2⟩ := hf
  have hcs := sin_sq_add_cos_sq (e.rad - f.rad)
  obtain ⟨c, hc⟩ : ∃ c, c = cos (e.rad - f.rad) := ⟨_, rfl⟩
  obtain ⟨s, hs⟩ : ∃ s, s = sin (e.rad - f.rad) := ⟨_, rfl⟩
  rw [← hs, ← hc] at hcs k1 k2 k3
  rw [← hs]
  have hlt : 0 < f.rmajor ^ 2 - f.rminor ^ 2 := by nlinarith
  have hcz : c * s = 0 := (mul_eq_zero.1 k3).resolve_left hlt.ne'
  rcases mul_eq_zero.1 hcz with h0 | h0
  · exfalso
    rw [h0] at k1 k2 hcs
    have s2 : s ^ 2 = 1 := by linarith
    rw [s2] at k1 k2
    have m1 : e.rmajor ^ 2 = f.rminor ^ 2 := by
      apply mul_left_cancel₀ (show f.rmajor ^ 2 ≠ 0 by positivity)
      linarith
    have m2 : e.rminor ^ 2 = f.rmajor ^ 2 := by
      apply mul_left_cancel₀ (show f.rminor ^ 2 ≠ 0 by positivity)
      linarith
    have m3 : e.rminor ^ 2 < e.rmajor ^ 2 := by
      apply pow_lt_pow_left₀ hne b1.le two_ne_zero
    linarith
  · rw [h0] at k1 k2 hcs
    have c2 : c ^ 2 = 1 := by linarith
    rw [c2] at k1 k2
    have m1 : f.rmajor ^ 2 = e.rmajor ^ 2 := by
      apply mul_left_cancel₀ (show f.rminor ^ 2 ≠ 0 by positivity)
      linarith
    have m2 : f.rminor ^ 2 = e.rminor ^ 2 := by
      apply mul_left_cancel₀ (show f.rmajor ^ 2 ≠ 0 by positivity)
      linarith
    refine ⟨hcen, ?_, ?_, h0⟩
    · exact (pow_left_inj₀ a2.le a1.le two_ne_zero).1 m1
    · exact (pow_left_inj₀ b2.le b1.le two_ne_zero).1 m2

/-- C77 (part): two ellipses with the same points are reported equal, provided that they are not circles and that their
`rmajor` is the larger semi-axis.  Missing: circles given as ellipses, see `C77_circle_counterexample`, and swapped
semi-axes, see `C77_swapped_counterexample`. -/
theorem C77_is_equal_partial (e f : Ellipse) (he : e.Valid) (hf : f.Valid) (hne : e.rminor < e.rmajor)
    (hnf : f.rminor < f.rmajor) (h : ∀ P, OnE e P ↔ OnE f P) : e.is_equal f := by
  obtain ⟨h1, h2, h3, h4⟩ := ellipse_params he hf (fun P => (h P).1) hne hnf
  unfold Ellipse.is_equal
  dsimp only
  rw [h1, h2, h3]
  refine ⟨npClose_refl _, npClose_refl _, npClose_refl _, npClose_refl _, ?_⟩
  obtain ⟨n, hn⟩ := sin_eq_zero_iff.1 h4
  have d1 : ∀ x : Ellipse, (if x.degrees = true then x.alpha else x.alpha * (180 / π)) = x.rad * (180 / π) := by
    intro x
    unfold Ellipse.rad
    split_ifs
    · field_simp
    · rfl
  rw [d1, d1]
  have : e.rad * (180 / π) = f.rad * (180 / π) + n * 180 := by
    rw [show e.rad = f.rad + n * π by linarith]
    field_simp
  rw [this, pyMod_add_int_mul _ (by norm_num)]
  exact npClose_refl _

/-- C77 fails for circles: the same circle with two different angles is not reported equal. -/
theorem C77_circle_counterexample :
    (∀ P, OnE ⟨⟨0, 0⟩, 1, 1, 0, true⟩ P ↔ OnE ⟨⟨0, 0⟩, 1, 1, 90, true⟩ P) ∧
    ¬ (⟨⟨0, 0⟩, 1, 1, 0, true⟩ : Ellipse).is_equal ⟨⟨0, 0⟩, 1, 1, 90, true⟩ := by
  constructor
  · intro P
    unfold OnE
    dsimp only
    rw [onEllipse_iff (by norm_num) (by norm_num), onEllipse_iff (by norm_num) (by norm_num)]
    unfold ellVal axisCoord Ellipse.rad
    simp only [if_true]
    rw [show (90 : ℝ) * (π / 180) = π / 2 by ring, cos_pi_div_two, sin_pi_div_two]
    simp
    rw [add_comm]
  · rintro ⟨-, -, -, -, h⟩
    simp only [if_true] at h
    rw [pyMod_eq_self (by norm_num) (by norm_num), pyMod_eq_self (by norm_num) (by norm_num)] at h
    unfold npClose at h
    norm_num at h

/-- C77 fails for swapped semi-axes: the same ellipse described with its semi-axes in the other order. -/
theorem C77_swapped_counterexample :
    (∀ P, OnE ⟨⟨0, 0⟩, 2, 1, 0, true⟩ P ↔ OnE ⟨⟨0, 0⟩, 1, 2, 90, true⟩ P) ∧
    ¬ (⟨⟨0, 0⟩, 2, 1, 0, true⟩ : Ellipse).is_equal ⟨⟨0, 0⟩, 1, 2, 90, true⟩ := by
  constructor
  · intro P
    unfold OnE
    dsimp only
    rw [onEllipse_iff (by norm_num) (by norm_num), onEllipse_iff (by norm_num) (by norm_num)]
    unfold ellVal axisCoord Ellipse.rad
    simp only [if_true]
    rw [show (90 : ℝ) * (π / 180) = π / 2 by ring, cos_pi_div_two, sin_pi_div_two]
    simp
    constructor <;> intro h <;> linarith
  · rintro ⟨-, -, h, -⟩
    unfold npClose at h
    norm_num at h

/-- The hypotheses of `C77_is_equal_partial` hold for the same ellipse with angles `0` and `180`. -/
example : ∀ P, OnE ⟨⟨0, 0⟩, 2, 1, 0, true⟩ P ↔ OnE ⟨⟨0, 0⟩, 2, 1, 180, true⟩ P := by
  intro P
  unfold OnE
  dsimp only
  rw [onEllipse_iff (by norm_num) (by norm_num), onEllipse_iff (by norm_num) (by norm_num)]
  unfold ellVal axisCoord Ellipse.rad
  simp only [if_true]
  rw [show (180 : ℝ) * (π / 180) = π by ring, cos_pi, sin_pi]
  simp
  constructor <;> intro h <;> linarith

/-! ### C71 -/

theorem circle_point_eq (t : ℝ) (O : Pt) (r : ℝ) : circle_point_ t O r = O + r • (⟨cos t, sin t⟩ : Pt) := by
  unfold circle_point_; ext <;> simp

/-- C71: `path(n)` returns `n` points of the circle, the first one is the starting point and for `n ≥ 2` the last one is
the ending point; the angles increase by equal steps over a total angle in `[0, 2π)`, so that the path goes once
counterclockwise from the starting point to the ending point. -/
theorem C71_arc_path (a : Arc) (n : ℤ) :
    (n ≤ 0 → ∃ m, a.path n = .error (.valueError m)) ∧
    (0 < n → ∃ L, a.path n = .ok L ∧ (L.length : ℤ) = n ∧ (∀ P ∈ L, OnCircle a.center a.radius P) ∧
      L[0]? = some a.starting_point ∧ (2 ≤ n → L.getLast? = some a.ending_point) ∧
      ∃ θ d : ℝ, 0 ≤ d ∧ d < 2 * π ∧ ∀ i : ℕ, (i : ℤ) < n → 2 ≤ n →
        L[i]? = some (a.center + a.radius • (⟨cos (θ + i * d / (n - 1)), sin (θ + i * d / (n - 1))⟩ : Pt))) := by
  constructor
  · intro h
    unfold Arc.path
    rw [if_pos h]
    exact ⟨_, rfl⟩
  · intro h
    have hn : ((n.toNat : ℤ)) = n := Int.toNat_of_nonneg h.le
    have hnR : ((n.toNat : ℝ)) = (n : ℝ) := by rw [← Int.cast_natCast, hn]
    have hπ := pi_pos
    unfold Arc.path
    rw [if_neg (not_le.2 h)]
    dsimp only
    obtain ⟨r1, hr1⟩ : ∃ r1, r1 = if a.degrees = true then a.alpha1 * π / 180 else a.alpha1 := ⟨_, rfl⟩
    obtain ⟨r2, hr2⟩ : ∃ r2, r2 = if a.degrees = true then a.alpha2 * π / 180 else a.alpha2 := ⟨_, rfl⟩
    rw [← hr1, ← hr2]
    obtain ⟨u1, hu1⟩ : ∃ u1, u1 = pyMod r1 (2 * π) := ⟨_, rfl⟩
    obtain ⟨u2, hu2⟩ : ∃ u2, u2 = pyMod r2 (2 * π) := ⟨_, rfl⟩
    rw [← hu1, ← hu2]
    have b1 : 0 ≤ u1 := by rw [hu1]; exact pyMod_nonneg _ (by linarith)
    have b2 : 0 ≤ u2 := by rw [hu2]; exact pyMod_nonneg _ (by linarith)
    have b3 : u1 < 2 * π := by rw [hu1]; exact pyMod_lt _ (by linarith)
    have b4 : u2 < 2 * π := by rw [hu2]; exact pyMod_lt _ (by linarith)
    have hs : a.starting_point = a.center + a.radius • (⟨cos u1, sin u1⟩ : Pt) := by
      have : (if a.degrees = true then a.alpha1 * (π / 180) else a.alpha1) = r1 := by
        rw [hr1]; split_ifs <;> ring
      unfold Arc.starting_point unit_vector_
      dsimp only
      rw [this, hu1, cos_pyMod, sin_pyMod]
    have he : a.ending_point = a.center + a.radius • (⟨cos u2, sin u2⟩ : Pt) := by
      have : (if a.degrees = true then a.alpha2 * (π / 180) else a.alpha2) = r2 := by
        rw [hr2]; split_ifs <;> ring
      unfold Arc.ending_point unit_vector_
      dsimp only
      rw [this, hu2, cos_pyMod, sin_pyMod]
    obtain ⟨d, hd⟩ : ∃ d, d = if u2 - u1 < 0 then u2 - u1 + 2 * π else u2 - u1 := ⟨_, rfl⟩
    rw [← hd]
    have hd0 : 0 ≤ d ∧ d < 2 * π := by
      rw [hd]; split_ifs <;> constructor <;> linarith
    have hdc : cos (u1 + d) = cos u2 ∧ sin (u1 + d) = sin u2 := by
      rw [hd]
      split_ifs
      · rw [show u1 + (u2 - u1 + 2 * π) = u2 + 2 * π by ring, cos_add_two_pi, sin_add_two_pi]; exact ⟨rfl, rfl⟩
      · rw [show u1 + (u2 - u1) = u2 by ring]; exact ⟨rfl, rfl⟩
    have hget : ∀ i : ℕ, i < n.toNat → 2 ≤ n → linspace 0 d n.toNat i = i * d / (n - 1) := by
      intro i hi h2
      unfold linspace
      rw [if_neg (by omega), hnR]
      ring
    refine ⟨_, rfl, ?_, ?_, ?_, ?_, u1, d, hd0.1, hd0.2, ?_⟩
    · rw [List.length_map, List.length_range, hn]
    · intro P hP
      rw [List.mem_map] at hP
      obtain ⟨i, -, rfl⟩ := hP
      rw [circle_point_eq]
      unfold OnCircle sqDist
      simp
      have := sin_sq_add_cos_sq (u1 + linspace 0 d n.toNat i)
      linear_combination a.radius ^ 2 * this
    · rw [List.getElem?_map, List.getElem?_range (by omega), Option.map_some, circle_point_eq, hs]
      have : linspace 0 d n.toNat 0 = 0 := by unfold linspace; split_ifs <;> simp
      rw [this, add_zero]
    · intro h2
      rw [List.getLast?_eq_getElem?, List.length_map, List.length_range, List.getElem?_map,
        List.getElem?_range (by omega), Option.map_some, circle_point_eq, he, hget _ (by omega) h2]
      have h1 : ((n.toNat - 1 : ℕ) : ℝ) = (n : ℝ) - 1 := by
        rw [Nat.cast_sub (by omega), hnR]; norm_num
      have h3 : (n : ℝ) - 1 ≠ 0 := by
        have : (2 : ℝ) ≤ n := by exact_mod_cast h2
        linarith
      rw [h1, mul_div_assoc, mul_div_cancel₀ _ h3, hdc.1, hdc.2]
    · intro i hi h2
      rw [List.getElem?_map, List.getElem?_range (by omega), Option.map_some, circle_point_eq, hget _ (by omega) h2]

example : ∃ L, (⟨⟨0, 0⟩, 2, 350, 10, true⟩ : Arc).path 5 = .ok L := by
  obtain ⟨L, h, -⟩ := (C71_arc_path ⟨⟨0, 0⟩, 2, 350, 10, true⟩ 5).2 (by norm_num)
  exact ⟨L, h⟩

/-- The point of the ellipse of semi-axes 2 and 1 in the direction of 90 degrees is on the vertical half-axis, by both methods. -/
example : (∃ t l : ℝ, (⟨⟨0, 0⟩, 2, 1, 0, true⟩ : Ellipse).theta2t 90 true = .ok t ∧ 0 < l ∧
      ellipsePoint ⟨0, 0⟩ 2 1 (⟨⟨0, 0⟩, 2, 1, 0, true⟩ : Ellipse).rad t = ⟨0, l⟩) ∧
    (∃ l : ℝ, 0 < l ∧ (⟨⟨0, 0⟩, 2, 1, 0, true⟩ : Ellipse).point_from_angle 90 true = ⟨0, l⟩) := by
  have he : (⟨⟨0, 0⟩, 2, 1, 0, true⟩ : Ellipse).Valid := ⟨by norm_num, by norm_num⟩
  have hp := pi_pos
  have e90 : (90 : ℝ) * (π / 180) = π / 2 := by ring
  have hm : pyMod (π / 2) (2 * π) = π / 2 := pyMod_eq_self (by positivity) (by linarith)
  have hv : ∀ l : ℝ, (⟨0, 0⟩ : Pt) + l • (⟨cos ((⟨⟨0, 0⟩, 2, 1, 0, true⟩ : Ellipse).rad + π / 2),
      sin ((⟨⟨0, 0⟩, 2, 1, 0, true⟩ : Ellipse).rad + π / 2)⟩ : Pt) = ⟨0, l⟩ := by
    intro l
    unfold Ellipse.rad
    ext <;> simp
  constructor
  · obtain ⟨t, l, h, hl, hx⟩ := C69_theta2t_partial _ he 90 true (π / 2) (by simp [e90]) (by rw [hm]; positivity)
      (Or.inl (by rw [hm]; linarith))
    exact ⟨t, l, h, hl, hx.trans (hv l)⟩
  · obtain ⟨l, hl, hx⟩ := C78_point_from_angle_partial _ he 90 true (π / 2) (by simp [e90]) (Or.inl (by rw [hm]; linarith))
    exact ⟨l, hl, hx.trans (hv l)⟩

/-- The ellipse of semi-axes 2 and 1 and the same one turned by 180 degrees are reported equal. -/
example (h : ∀ P, OnE ⟨⟨0, 0⟩, 2, 1, 0, true⟩ P ↔ OnE ⟨⟨0, 0⟩, 2, 1, 180, true⟩ P) :
    (⟨⟨0, 0⟩, 2, 1, 0, true⟩ : Ellipse).is_equal ⟨⟨0, 0⟩, 2, 1, 180, true⟩ :=
  C77_is_equal_partial _ _ ⟨by norm_num, by norm_num⟩ ⟨by norm_num, by norm_num⟩ (by norm_num) (by norm_num) h
