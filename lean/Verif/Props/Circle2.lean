import Verif.Props.Circle

/-!
# C18, C22, C23: circles orthogonal to a circle, common points of two circles, mid-circles
-/

open Spec Real Classical

/-! ## C22 -/

theorem atan2_cos_mul (x y : ℝ) : Real.sqrt (x * x + y * y) * cos (atan2 y x) = x := by
  by_cases h : x = 0 ∧ y = 0
  · obtain ⟨rfl, rfl⟩ := h; simp
  · have h' : x ≠ 0 ∨ y ≠ 0 := by tauto
    have hp : 0 < x * x + y * y := by
      rcases h' with h | h
      · nlinarith [mul_self_pos.2 h, mul_self_nonneg y]
      · nlinarith [mul_self_pos.2 h, mul_self_nonneg x]
    have := (Real.sqrt_pos.2 hp).ne'
    rw [cos_atan2 h', mul_div_cancel₀ _ this]

theorem atan2_sin_mul (x y : ℝ) : Real.sqrt (x * x + y * y) * sin (atan2 y x) = y := by
  by_cases h : x = 0 ∧ y = 0
  · obtain ⟨rfl, rfl⟩ := h; simp
  · have h' : x ≠ 0 ∨ y ≠ 0 := by tauto
    have hp : 0 < x * x + y * y := by
      rcases h' with h | h
      · nlinarith [mul_self_pos.2 h, mul_self_nonneg y]
      · nlinarith [mul_self_pos.2 h, mul_self_nonneg x]
    have := (Real.sqrt_pos.2 hp).ne'
    rw [sin_atan2, mul_div_cancel₀ _ this]

/-- Position of the point at angle `atan2 y x + a` relatively to the vector `(x, y)`. -/
theorem rel_unit (d : Pt) (a : ℝ) :
    dot (unit_vector_ (atan2 d.y d.x + a)) d = Real.sqrt (d.x * d.x + d.y * d.y) * cos a ∧
    cross d (unit_vector_ (atan2 d.y d.x + a)) = Real.sqrt (d.x * d.x + d.y * d.y) * sin a := by
  have h1 := atan2_cos_mul d.x d.y
  have h2 := atan2_sin_mul d.x d.y
  obtain ⟨L, hL⟩ : ∃ L, L = Real.sqrt (d.x * d.x + d.y * d.y) := ⟨_, rfl⟩
  have h3 : L ^ 2 = d.x * d.x + d.y * d.y := by rw [hL]; exact Real.sq_sqrt (by nlinarith [sq_nonneg d.x, sq_nonneg d.y])
  have h4 := sin_sq_add_cos_sq (atan2 d.y d.x)
  rw [← hL] at h1 h2
  rw [← hL]
  simp only [dot, cross, unit_vector_, cos_add, sin_add]
  constructor
  · linear_combination L * cos a * h4 - (cos (atan2 d.y d.x) * cos a - sin (atan2 d.y d.x) * sin a) * h1 - (sin (atan2 d.y d.x) * cos a + cos (atan2 d.y d.x) * sin a) * h2
  · linear_combination L * sin a * h4 - (sin (atan2 d.y d.x) * cos a + cos (atan2 d.y d.x) * sin a) * h1 + (cos (atan2 d.y d.x) * cos a - sin (atan2 d.y d.x) * sin a) * h2

theorem unit_vector_sq (t : ℝ) : (unit_vector_ t).x ^ 2 + (unit_vector_ t).y ^ 2 = 1 := by
  simp only [unit_vector_]; linarith [sin_sq_add_cos_sq t]

/-- A point common to the two circles: the scalar product with the vector of the centers. -/
theorem common_rel {O₁ O₂ X : Pt} {r₁ r₂ : ℝ} (h1 : OnCircle O₁ r₁ X) :
    OnCircle O₂ r₂ X ↔ dot (X - O₁) (O₁ - O₂) = (r₂ * r₂ - r₁ * r₁ - sqDist O₁ O₂) / 2 := by
  unfold OnCircle at *
  simp only [sqDist, dot, Pt.sub_x, Pt.sub_y] at *
  constructor <;> intro h <;> linarith

/-- Two circles with a common point: the triangle inequalities. -/
theorem common_ineq {O₁ O₂ X : Pt} {r₁ r₂ : ℝ} (p1 : 0 < r₁) (p2 : 0 < r₂)
    (h1 : OnCircle O₁ r₁ X) (h2 : OnCircle O₂ r₂ X) :
    sqDist O₁ O₂ ≤ (r₁ + r₂) ^ 2 ∧ (r₁ - r₂) ^ 2 ≤ sqDist O₁ O₂ := by
  have e : sqDist O₁ O₂ = r₁ ^ 2 + r₂ ^ 2 - 2 * dot (X - O₁) (X - O₂) := by
    rw [← h1, ← h2]; simp only [sqDist, dot, Pt.sub_x, Pt.sub_y]; ring
  have c : dot (X - O₁) (X - O₂) ^ 2 ≤ (r₁ * r₂) ^ 2 := by
    rw [mul_pow, ← h1, ← h2]
    simp only [sqDist, dot, Pt.sub_x, Pt.sub_y]
    nlinarith [sq_nonneg ((X.x - O₁.x) * (X.y - O₂.y) - (X.y - O₁.y) * (X.x - O₂.x))]
  have := abs_le_of_sq_le_sq' c (by positivity)
  constructor <;> nlinarith [this.1, this.2]

theorem onCircle_unit (O : Pt) (r t : ℝ) : OnCircle O r (O + r • unit_vector_ t) := by
  have := unit_vector_sq t
  simp only [OnCircle, sqDist, Pt.add_x, Pt.add_y, Pt.smul_x, Pt.smul_y]
  linear_combination r ^ 2 * this

/-- The points computed by `intersection_circle_circle` when the cosine is not clamped. -/
theorem icc_points {O₁ O₂ : Pt} {r₁ r₂ : ℝ} (p1 : 0 < r₁) (p2 : 0 < r₂) (hne : O₁ ≠ O₂)
    (hle : sqDist O₁ O₂ ≤ (r₁ + r₂) ^ 2) (hge : (r₁ - r₂) ^ 2 ≤ sqDist O₁ O₂) :
    ∃ q, -1 ≤ q ∧ q ≤ 1 ∧
      max (min ((r₂ * r₂ - r₁ * r₁ - ((O₁ - O₂).x * (O₁ - O₂).x + (O₁ - O₂).y * (O₁ - O₂).y)) /
        (r₁ * Real.sqrt (4 * ((O₁ - O₂).x * (O₁ - O₂).x + (O₁ - O₂).y * (O₁ - O₂).y)))) 1) (-1) = q ∧
      r₁ * (Real.sqrt ((O₁ - O₂).x * (O₁ - O₂).x + (O₁ - O₂).y * (O₁ - O₂).y)) * q =
        (r₂ * r₂ - r₁ * r₁ - sqDist O₁ O₂) / 2 := by
  have e : (O₁ - O₂).x * (O₁ - O₂).x + (O₁ - O₂).y * (O₁ - O₂).y = sqDist O₁ O₂ := by
    simp only [sqDist, Pt.sub_x, Pt.sub_y]; ring
  rw [e]
  have hp := sqDist_pos hne
  obtain ⟨L, hL⟩ : ∃ L, L = Real.sqrt (sqDist O₁ O₂) := ⟨_, rfl⟩
  have hLp : 0 < L := by rw [hL]; exact Real.sqrt_pos.2 hp
  have hL2 : sqDist O₁ O₂ = L ^ 2 := by rw [hL]; exact (Real.sq_sqrt hp.le).symm
  have h4 : Real.sqrt (4 * sqDist O₁ O₂) = 2 * L := by
    rw [hL2, show 4 * L ^ 2 = (2 * L) ^ 2 by ring, Real.sqrt_sq (by linarith)]
  rw [h4, ← hL]
  rw [hL2] at hle hge ⊢
  have hd : 0 < r₁ * (2 * L) := by positivity
  have g1 : L ≤ r₁ + r₂ := abs_le_of_sq_le_sq hle (by linarith) |>.trans' (le_abs_self L)
  have g2 : |r₁ - r₂| ≤ L := abs_le_of_sq_le_sq hge hLp.le
  have g3 := abs_le.1 g2
  have q1 : (r₂ * r₂ - r₁ * r₁ - L ^ 2) / (r₁ * (2 * L)) ≤ 1 := by
    rw [div_le_one hd]; nlinarith
  have q2 : -1 ≤ (r₂ * r₂ - r₁ * r₁ - L ^ 2) / (r₁ * (2 * L)) := by
    rw [le_div_iff₀ hd]
    nlinarith [mul_nonneg (show 0 ≤ r₂ - (r₁ - L) by linarith) (show 0 ≤ r₂ + (r₁ - L) by linarith)]
  refine ⟨(r₂ * r₂ - r₁ * r₁ - L ^ 2) / (r₁ * (2 * L)), q2, q1, ?_, ?_⟩
  · rw [min_eq_left q1, max_eq_left q2]
  · field_simp

/-- The two candidate points are on both circles, and every common point is one of them. -/
theorem icc_common {O₁ O₂ : Pt} {r₁ r₂ q : ℝ} (hne : O₁ ≠ O₂) (q1 : -1 ≤ q) (q2 : q ≤ 1)
    (hq : r₁ * (Real.sqrt ((O₁ - O₂).x * (O₁ - O₂).x + (O₁ - O₂).y * (O₁ - O₂).y)) * q =
        (r₂ * r₂ - r₁ * r₁ - sqDist O₁ O₂) / 2) (X : Pt) :
    (OnCircle O₁ r₁ X ∧ OnCircle O₂ r₂ X) ↔
      X = O₁ + r₁ • unit_vector_ (atan2 (O₁ - O₂).y (O₁ - O₂).x + arccos q) ∨
      X = O₁ + r₁ • unit_vector_ (atan2 (O₁ - O₂).y (O₁ - O₂).x - arccos q) := by
  obtain ⟨a1, a2⟩ := rel_unit (O₁ - O₂) (arccos q)
  obtain ⟨b1, b2⟩ := rel_unit (O₁ - O₂) (-arccos q)
  rw [← sub_eq_add_neg] at b1 b2
  rw [cos_neg] at b1
  rw [sin_neg] at b2
  rw [cos_arccos q1 q2] at a1 b1
  obtain ⟨L, hL⟩ : ∃ L, L = Real.sqrt ((O₁ - O₂).x * (O₁ - O₂).x + (O₁ - O₂).y * (O₁ - O₂).y) := ⟨_, rfl⟩
  have hL2 : L ^ 2 = sqDist O₁ O₂ := by
    rw [hL, Real.sq_sqrt (by nlinarith [sq_nonneg (O₁ - O₂).x, sq_nonneg (O₁ - O₂).y])]
    simp only [sqDist, Pt.sub_x, Pt.sub_y]; ring
  rw [← hL] at a1 a2 b1 b2 hq
  have hs : sin (arccos q) ^ 2 = 1 - q ^ 2 := by
    have := sin_sq_add_cos_sq (arccos q)
    rw [cos_arccos q1 q2] at this; linarith
  obtain ⟨u, hu⟩ : ∃ u, u = unit_vector_ (atan2 (O₁ - O₂).y (O₁ - O₂).x + arccos q) := ⟨_, rfl⟩
  obtain ⟨v, hv⟩ : ∃ v, v = unit_vector_ (atan2 (O₁ - O₂).y (O₁ - O₂).x - arccos q) := ⟨_, rfl⟩
  rw [← hu] at a1 a2
  rw [← hv] at b1 b2
  obtain ⟨s, hse⟩ : ∃ s, s = sin (arccos q) := ⟨_, rfl⟩
  rw [← hse] at a2 b2 hs
  rw [← hu, ← hv]
  have cu : OnCircle O₁ r₁ (O₁ + r₁ • u) := by rw [hu]; exact onCircle_unit O₁ _ _
  have cv : OnCircle O₁ r₁ (O₁ + r₁ • v) := by rw [hv]; exact onCircle_unit O₁ _ _
  constructor
  · rintro ⟨h1, h2⟩
    rw [common_rel h1, ← hq] at h2
    have h3 : cross (O₁ - O₂) (X - O₁) ^ 2 = (r₁ * L * s) ^ 2 := by
      have : sqDist X O₁ * sqDist O₁ O₂ = dot (X - O₁) (O₁ - O₂) ^ 2 + cross (O₁ - O₂) (X - O₁) ^ 2 := by
        simp only [sqDist, dot, cross, Pt.sub_x, Pt.sub_y]; ring
      rw [h1, ← hL2, h2] at this
      linear_combination -this - (r₁ * L) ^ 2 * hs
    have key : ∀ w : Pt, dot w (O₁ - O₂) = L * q → cross (O₁ - O₂) (X - O₁) = r₁ * cross (O₁ - O₂) w →
        X = O₁ + r₁ • w := by
      intro w w1 w2
      refine eq_of_cross_dot (C := O₁) hne.symm ?_ ?_
      · simp only [cross, Pt.sub_x, Pt.sub_y, Pt.add_x, Pt.add_y, Pt.smul_x, Pt.smul_y] at *
        linear_combination -w2
      · simp only [dot, Pt.sub_x, Pt.sub_y, Pt.add_x, Pt.add_y, Pt.smul_x, Pt.smul_y] at *
        linear_combination h2 - r₁ * w1
    rcases sq_eq_sq_iff_eq_or_eq_neg.1 h3 with h4 | h4
    · left; exact key u a1 (by rw [h4, a2]; ring)
    · right; exact key v b1 (by rw [h4, b2]; ring)
  · rintro (rfl | rfl)
    · refine ⟨cu, (common_rel cu).2 ?_⟩
      rw [← hq]
      simp only [dot, Pt.sub_x, Pt.sub_y, Pt.add_x, Pt.add_y, Pt.smul_x, Pt.smul_y] at *
      linear_combination r₁ * a1
    · refine ⟨cv, (common_rel cv).2 ?_⟩
      rw [← hq]
      simp only [dot, Pt.sub_x, Pt.sub_y, Pt.add_x, Pt.add_y, Pt.smul_x, Pt.smul_y] at *
      linear_combination r₁ * b1

theorem is_equal_refl (c : Circle) : c.is_equal c := ⟨approx_equal_refl _, allclose_refl _⟩

/-- What `intersection_circle_circle` computes. -/
theorem icc_cases (c1 c2 : Circle) (h1 : c1.Valid) (h2 : c2.Valid) (hne : ¬ c1.is_equal c2) :
    ((sqDist c1.center c2.center > (c1.radius + c2.radius) ^ 2 + sepsilon_ ∨
      sqDist c1.center c2.center < (c1.radius - c2.radius) ^ 2 - sepsilon_) ∧
      intersection_circle_circle c1 c2 = .ok .none) ∨
    (¬ (sqDist c1.center c2.center > (c1.radius + c2.radius) ^ 2 + sepsilon_ ∨
      sqDist c1.center c2.center < (c1.radius - c2.radius) ^ 2 - sepsilon_) ∧
      ((c1.radius + c2.radius) ^ 2 - sqDist c1.center c2.center < sepsilon_ ∨
        sqDist c1.center c2.center - (c1.radius - c2.radius) ^ 2 < sepsilon_) ∧
      ∃ P, intersection_circle_circle c1 c2 = .ok (.one P) ∧
        (c1.center ≠ c2.center → sqDist c1.center c2.center ≤ (c1.radius + c2.radius) ^ 2 →
          (c1.radius - c2.radius) ^ 2 ≤ sqDist c1.center c2.center →
          OnCircle c1.center c1.radius P ∧ OnCircle c2.center c2.radius P)) ∨
    (sepsilon_ ≤ (c1.radius + c2.radius) ^ 2 - sqDist c1.center c2.center ∧
      sepsilon_ ≤ sqDist c1.center c2.center - (c1.radius - c2.radius) ^ 2 ∧
      ∃ P Q, intersection_circle_circle c1 c2 = .ok (.two P Q) ∧ P ≠ Q ∧
        ∀ X, (OnCircle c1.center c1.radius X ∧ OnCircle c2.center c2.radius X) ↔ X = P ∨ X = Q) := by
  have hs := sepsilon_pos
  unfold intersection_circle_circle
  rw [if_neg hne]
  dsimp only
  rw [dot1_eq]
  have e : (c1.center - c2.center).x * (c1.center - c2.center).x + (c1.center - c2.center).y * (c1.center - c2.center).y =
    sqDist c1.center c2.center := by
    simp only [sqDist, Pt.sub_x, Pt.sub_y]; ring
  by_cases g1 : sqDist c1.center c2.center > (c1.radius + c2.radius) ^ 2 + sepsilon_ ∨
      sqDist c1.center c2.center < (c1.radius - c2.radius) ^ 2 - sepsilon_
  · left; exact ⟨g1, by rw [if_pos g1]⟩
  right
  rw [if_neg g1]
  by_cases g2 : (c1.radius + c2.radius) ^ 2 - sqDist c1.center c2.center < sepsilon_ ∨
        sqDist c1.center c2.center - (c1.radius - c2.radius) ^ 2 < sepsilon_
  · left
    refine ⟨g1, g2, ?_⟩
    simp only [if_pos g2]
    obtain ⟨q, hq⟩ : ∃ q, q = (if (c1.center - c2.center).x * (c1.center - c2.center).x + (c1.center - c2.center).y * (c1.center - c2.center).y = 0 then
       (if c2.radius * c2.radius - c1.radius * c1.radius - ((c1.center - c2.center).x * (c1.center - c2.center).x + (c1.center - c2.center).y * (c1.center - c2.center).y) < 0 then (-1 : ℝ) else 1)
       else max (min ((c2.radius * c2.radius - c1.radius * c1.radius - ((c1.center - c2.center).x * (c1.center - c2.center).x + (c1.center - c2.center).y * (c1.center - c2.center).y)) / (c1.radius * Real.sqrt (4 * ((c1.center - c2.center).x * (c1.center - c2.center).x + (c1.center - c2.center).y * (c1.center - c2.center).y)))) 1) (-1)) := ⟨_, rfl⟩
    rw [← hq]
    have hq1 : -1 ≤ q ∧ q ≤ 1 := by
      rw [hq]; split_ifs
      · norm_num
      · norm_num
      · exact ⟨le_max_right _ _, max_le (min_le_right _ _) (by norm_num)⟩
    have : pyAcos q = .ok (arccos q) := by
      unfold pyAcos; rw [if_neg (by push Not; exact hq1)]
    rw [this]
    refine ⟨_, rfl, ?_⟩
    intro hcc hle hge
    obtain ⟨q', a1, a2, a3, a4⟩ := icc_points h1 h2 hcc hle hge
    have : (c1.center - c2.center).x * (c1.center - c2.center).x + (c1.center - c2.center).y * (c1.center - c2.center).y ≠ 0 := by
      rw [e]; exact (sqDist_pos hcc).ne'
    rw [if_neg this, a3] at hq
    subst hq
    exact (icc_common hcc a1 a2 a4 _).2 (Or.inl rfl)
  · right
    simp only [if_neg g2]
    push Not at g2
    have hcc : c1.center ≠ c2.center := by
      intro h
      rw [h, show sqDist c2.center c2.center = 0 from sqDist_eq_zero.2 rfl] at g2
      nlinarith [sq_nonneg (c1.radius - c2.radius), g2.2]
    refine ⟨g2.1, g2.2, ?_⟩
    obtain ⟨q', a1, a2, a3, a4⟩ := icc_points h1 h2 hcc (by linarith) (by linarith)
    have : (c1.center - c2.center).x * (c1.center - c2.center).x + (c1.center - c2.center).y * (c1.center - c2.center).y ≠ 0 := by
      rw [e]; exact (sqDist_pos hcc).ne'
    rw [if_neg this, a3]
    have : pyAcos q' = .ok (arccos q') := by
      unfold pyAcos; rw [if_neg (by push Not; exact ⟨a1, a2⟩)]
    rw [this]
    refine ⟨_, _, rfl, ?_, icc_common hcc a1 a2 a4⟩
    intro heq
    obtain ⟨b1, b2⟩ := rel_unit (c1.center - c2.center) (arccos q')
    obtain ⟨d1, d2⟩ := rel_unit (c1.center - c2.center) (-arccos q')
    rw [← sub_eq_add_neg] at d1 d2
    have hr : c1.radius ≠ 0 := ne_of_gt h1
    have huv : unit_vector_ (atan2 (c1.center - c2.center).y (c1.center - c2.center).x + arccos q') =
        unit_vector_ (atan2 (c1.center - c2.center).y (c1.center - c2.center).x - arccos q') := by
      have hx := congrArg Pt.x heq
      have hy := congrArg Pt.y heq
      simp only [Pt.add_x, Pt.add_y, Pt.smul_x, Pt.smul_y] at hx hy
      ext
      · exact mul_left_cancel₀ hr (by linarith)
      · exact mul_left_cancel₀ hr (by linarith)
    rw [huv, d2, sin_neg] at b2
    rw [e] at b2 a4
    have hL := Real.sqrt_pos.2 (sqDist_pos hcc)
    have hL2 := Real.sq_sqrt (sqDist_pos hcc).le
    have hs0 : sin (arccos q') = 0 := by
      have : Real.sqrt (sqDist c1.center c2.center) * sin (arccos q') = 0 := by linarith
      exact (mul_eq_zero.1 this).resolve_left hL.ne'
    have hq2 : q' ^ 2 = 1 := by
      have := sin_sq_add_cos_sq (arccos q')
      rw [cos_arccos a1 a2, hs0] at this; linarith
    have h3 : ((c2.radius * c2.radius - c1.radius * c1.radius - sqDist c1.center c2.center) / 2) ^ 2 =
        c1.radius ^ 2 * sqDist c1.center c2.center := by
      rw [← a4, mul_pow, mul_pow, hL2, hq2]; ring
    have h4 : ((c1.radius + c2.radius) ^ 2 - sqDist c1.center c2.center) *
        (sqDist c1.center c2.center - (c1.radius - c2.radius) ^ 2) = 0 := by
      linear_combination -4 * h3
    have := mul_pos (lt_of_lt_of_le hs g2.1) (lt_of_lt_of_le hs g2.2)
    linarith

/-- C22: `None` means that there is no common point. -/
theorem C22_none (c1 c2 : Circle) (h1 : c1.Valid) (h2 : c2.Valid)
    (h : intersection_circle_circle c1 c2 = .ok .none) :
    ¬ ∃ X, OnCircle c1.center c1.radius X ∧ OnCircle c2.center c2.radius X := by
  have hs := sepsilon_pos
  rintro ⟨X, x1, x2⟩
  have hne : ¬ c1.is_equal c2 := by
    intro he; unfold intersection_circle_circle at h; rw [if_pos he] at h; simp at h
  have hi := common_ineq h1 h2 x1 x2
  rcases icc_cases c1 c2 h1 h2 hne with ⟨h3, -⟩ | ⟨-, -, P, h3, -⟩ | ⟨-, -, P, Q, h3, -⟩
  · rcases h3 with h3 | h3 <;> linarith
  · rw [h] at h3; simp at h3
  · rw [h] at h3; simp at h3

/-- C22: a list of two points is the list of the common points. -/
theorem C22_two (c1 c2 : Circle) (h1 : c1.Valid) (h2 : c2.Valid) (P Q : Pt)
    (h : intersection_circle_circle c1 c2 = .ok (.two P Q)) :
    P ≠ Q ∧ ∀ X, (OnCircle c1.center c1.radius X ∧ OnCircle c2.center c2.radius X) ↔ X = P ∨ X = Q := by
  have hne : ¬ c1.is_equal c2 := by
    intro he; unfold intersection_circle_circle at h; rw [if_pos he] at h; simp at h
  rcases icc_cases c1 c2 h1 h2 hne with ⟨-, h3⟩ | ⟨-, -, P', h3, -⟩ | ⟨-, -, P', Q', h3, h4⟩
  · rw [h] at h3; simp at h3
  · rw [h] at h3; simp at h3
  · rw [h] at h3; simp only [Except.ok.injEq, CCRes.two.injEq] at h3
    obtain ⟨rfl, rfl⟩ := h3
    exact h4

/-- C22: circles that are neither nearly tangent nor disjoint give a list of two points. -/
theorem C22_two_of_secant (c1 c2 : Circle) (h1 : c1.Valid) (h2 : c2.Valid) (hne : ¬ c1.is_equal c2)
    (ha : sqDist c1.center c2.center + 1 / 2 ^ 26 ≤ (c1.radius + c2.radius) ^ 2)
    (hb : (c1.radius - c2.radius) ^ 2 + 1 / 2 ^ 26 ≤ sqDist c1.center c2.center) :
    ∃ P Q, intersection_circle_circle c1 c2 = .ok (.two P Q) := by
  have hs := sepsilon_pos
  have he : sepsilon_ = 1 / 2 ^ 26 := rfl
  rcases icc_cases c1 c2 h1 h2 hne with ⟨h3, -⟩ | ⟨-, h3, -⟩ | ⟨-, -, P', Q', h3, -⟩
  · rcases h3 with h3 | h3 <;> linarith
  · rcases h3 with h3 | h3 <;> linarith
  · exact ⟨_, _, h3⟩

/-- C22: tangent circles (exactly one common point) give that point. -/
theorem C22_tangent (c1 c2 : Circle) (h1 : c1.Valid) (h2 : c2.Valid) (hne : ¬ c1.is_equal c2) (T : Pt)
    (t1 : OnCircle c1.center c1.radius T) (t2 : OnCircle c2.center c2.radius T)
    (hu : ∀ X, OnCircle c1.center c1.radius X → OnCircle c2.center c2.radius X → X = T) :
    intersection_circle_circle c1 c2 = .ok (.one T) := by
  have hs := sepsilon_pos
  have hi := common_ineq h1 h2 t1 t2
  rcases icc_cases c1 c2 h1 h2 hne with ⟨h3, -⟩ | ⟨-, -, P, h3, h4⟩ | ⟨-, -, P, Q, -, h4, h5⟩
  · rcases h3 with h3 | h3 <;> linarith
  · have hcc : c1.center ≠ c2.center := by
      intro hc
      apply hne
      have h0 : sqDist c1.center c2.center = 0 := sqDist_eq_zero.2 hc
      have : c1.radius = c2.radius := by nlinarith [hi.2, sq_nonneg (c1.radius - c2.radius)]
      have : c1 = c2 := by ext1 <;> assumption
      rw [this]; exact is_equal_refl _
    have := h4 hcc hi.1 hi.2
    rw [h3, hu P this.1 this.2]
  · have e1 := (h5 P).2 (Or.inl rfl)
    have e2 := (h5 Q).2 (Or.inr rfl)
    exact absurd ((hu P e1.1 e1.2).trans (hu Q e2.1 e2.2).symm) h4

/-- C22: the call never fails. -/
theorem C22_total (c1 c2 : Circle) (h1 : c1.Valid) (h2 : c2.Valid) :
    ∃ res, intersection_circle_circle c1 c2 = .ok res := by
  by_cases hne : c1.is_equal c2
  · exact ⟨_, by unfold intersection_circle_circle; rw [if_pos hne]⟩
  · rcases icc_cases c1 c2 h1 h2 hne with ⟨-, h3⟩ | ⟨-, -, P', h3, -⟩ | ⟨-, -, P', Q', h3, -⟩ <;> exact ⟨_, h3⟩

/-- Two circles of radius 5 with centers 6 apart are found to meet in two points, `(3, 4)` and `(3, -4)`. -/
example : ∃ P Q, intersection_circle_circle ⟨⟨0, 0⟩, 5⟩ ⟨⟨6, 0⟩, 5⟩ = .ok (.two P Q) ∧ P ≠ Q ∧
    ((⟨3, 4⟩ : Pt) = P ∨ (⟨3, 4⟩ : Pt) = Q) ∧ ((⟨3, -4⟩ : Pt) = P ∨ (⟨3, -4⟩ : Pt) = Q) := by
  have h1 : (⟨⟨0, 0⟩, 5⟩ : Circle).Valid := by unfold Circle.Valid; norm_num
  have h2 : (⟨⟨6, 0⟩, 5⟩ : Circle).Valid := by unfold Circle.Valid; norm_num
  obtain ⟨P, Q, h⟩ := C22_two_of_secant _ _ h1 h2
    (by intro h; have := h.2.1; unfold npClose at this; norm_num [abs_of_pos] at this)
    (by unfold sqDist; norm_num) (by unfold sqDist; norm_num)
  obtain ⟨hn, hi⟩ := C22_two _ _ h1 h2 P Q h
  exact ⟨P, Q, h, hn, (hi _).1 ⟨by norm_num [OnCircle, sqDist], by norm_num [OnCircle, sqDist]⟩,
    (hi _).1 ⟨by norm_num [OnCircle, sqDist], by norm_num [OnCircle, sqDist]⟩⟩

/-- Whatever the answer for these two tangent circles is, it is not `None`. -/
example : intersection_circle_circle ⟨⟨0, 0⟩, 1⟩ ⟨⟨3, 0⟩, 2⟩ ≠ .ok .none := fun h =>
  C22_none ⟨⟨0, 0⟩, 1⟩ ⟨⟨3, 0⟩, 2⟩ (by unfold Circle.Valid; norm_num) (by unfold Circle.Valid; norm_num) h
    ⟨⟨1, 0⟩, by norm_num [OnCircle, sqDist], by norm_num [OnCircle, sqDist]⟩

/-- No exception for concentric circles. -/
example : ∃ res, intersection_circle_circle ⟨⟨2, 1⟩, 1⟩ ⟨⟨2, 1⟩, 2⟩ = .ok res :=
  C22_total _ _ (by unfold Circle.Valid; norm_num) (by unfold Circle.Valid; norm_num)

/-- C22, a limit of the claim: concentric circles with slightly different radii are reported as touching at one point
though they have no common point. -/
theorem C22_concentric_counterexample :
    (∃ P, intersection_circle_circle ⟨⟨0, 0⟩, 1⟩ ⟨⟨0, 0⟩, 1 + 1 / 10 ^ 5⟩ = .ok (.one P)) ∧
    ¬ ∃ X, OnCircle (⟨0, 0⟩ : Pt) 1 X ∧ OnCircle (⟨0, 0⟩ : Pt) (1 + 1 / 10 ^ 5) X := by
  constructor
  · have hne : ¬ (⟨⟨0, 0⟩, 1⟩ : Circle).is_equal ⟨⟨0, 0⟩, 1 + 1 / 10 ^ 5⟩ := by
      intro h
      have := approx_equal_bound h.1
      norm_num [abs_of_pos, abs_of_neg, max_def] at this
    rcases icc_cases ⟨⟨0, 0⟩, 1⟩ ⟨⟨0, 0⟩, 1 + 1 / 10 ^ 5⟩ (by unfold Circle.Valid; norm_num)
      (by unfold Circle.Valid; norm_num) hne with ⟨h3, -⟩ | ⟨-, -, P', h3, -⟩ | ⟨-, h3, -⟩
    · norm_num [sqDist, sepsilon_] at h3
    · exact ⟨_, h3⟩
    · norm_num [sqDist, sepsilon_] at h3
  · rintro ⟨X, h1, h2⟩
    unfold OnCircle at *
    rw [h1] at h2; norm_num at h2

example : ¬ (⟨⟨0, 0⟩, 5⟩ : Circle).is_equal ⟨⟨6, 0⟩, 5⟩ ∧
    sqDist (⟨0, 0⟩ : Pt) ⟨6, 0⟩ + 1 / 2 ^ 26 ≤ (5 + 5) ^ 2 ∧ (5 - 5) ^ 2 + 1 / 2 ^ 26 ≤ sqDist (⟨0, 0⟩ : Pt) ⟨6, 0⟩ := by
  refine ⟨?_, ?_, ?_⟩
  · intro h; have := h.2.1; unfold npClose at this; norm_num [abs_of_pos] at this
  · unfold sqDist; norm_num
  · unfold sqDist; norm_num

example : OnCircle (⟨0, 0⟩ : Pt) 1 ⟨1, 0⟩ ∧ OnCircle (⟨3, 0⟩ : Pt) 2 ⟨1, 0⟩ ∧
    ∀ X, OnCircle (⟨0, 0⟩ : Pt) 1 X → OnCircle (⟨3, 0⟩ : Pt) 2 X → X = ⟨1, 0⟩ := by
  unfold OnCircle sqDist
  refine ⟨by norm_num, by norm_num, ?_⟩
  intro X h1 h2
  simp only at h1 h2
  have hx : X.x = 1 := by linarith
  ext
  · exact hx
  · rw [hx] at h1; norm_num at h1; exact h1

/-! ## C18 -/

/-- The perpendicular at the midpoint of a line object is the perpendicular bisector of its defining points. -/
theorem perp_mid {l p : Line} (hl : l.Valid) (h : l.perpendicular ((l.A + l.B) / (2 : ℝ)) = .ok p) {O : Pt}
    (hO : cross (p.B - p.A) (O - p.A) = 0) : sqDist O l.A = sqDist O l.B := by
  have hi : l.includes ((l.A + l.B) / (2 : ℝ)) = true :=
    (C05_includes l hl _).2 (Or.inl ⟨1 / 2, by ext <;> simp <;> ring⟩)
  unfold Line.perpendicular at h
  dsimp only at h
  rw [if_pos hi] at h
  obtain ⟨-, rfl⟩ := mkLine_ok.1 h
  simp only [cross, sqDist, Pt.sub_x, Pt.sub_y, Pt.add_x, Pt.add_y, Pt.div_x, Pt.div_y] at *
  linear_combination -2 * hO

theorem invert_fin {iota : Inversion} {M N : Pt} (h : iota.invert (.fin M) = .fin N) :
    ¬ allclose iota.pole M ∧ IsInverse iota.pole iota.power M N := by
  unfold Inversion.invert at h
  dsimp only at h
  split_ifs at h with hc
  refine ⟨hc, isInverse_iff.2 ⟨(ne_of_not_allclose hc).symm, ?_⟩⟩
  injection h with h
  rw [← h]
  rfl

/-- Power of the pole with respect to a circle through a point and its inverse. -/
theorem orth_of_inverse {I O P Q : Pt} {k : ℝ} (h : IsInverse I k P Q) (hne : P ≠ Q) (hO : sqDist O P = sqDist O Q) :
    sqDist I O = k + sqDist O P := by
  obtain ⟨h0, h1, h2⟩ := h
  have hp := dot_self_pos h0
  have hq := isInverse_iff.1 ⟨h0, h1, h2⟩
  obtain ⟨t, ht⟩ : ∃ t, t = k / dot (P - I) (P - I) := ⟨_, rfl⟩
  have hQ := hq.2
  rw [← ht] at hQ
  have hk : k = t * dot (P - I) (P - I) := by rw [ht]; field_simp
  have ht1 : t ≠ 1 := by
    rintro rfl; apply hne; rw [hQ]; ext <;> simp
  have key : (1 - t) * (sqDist I O - k - sqDist O P) = 0 := by
    rw [hk]
    rw [hQ] at hO
    simp only [sqDist, dot, Pt.sub_x, Pt.sub_y, Pt.add_x, Pt.add_y, Pt.smul_x, Pt.smul_y] at *
    linear_combination -hO
  rcases mul_eq_zero.1 key with h | h
  · exact absurd (by linarith) ht1
  · linarith

/-- The center found by `orthogonal_through_two_points_in_circle`. -/
theorem orth_in_circle_center {I O P1 P2 Q1 Q2 : Pt} {k : ℝ} {l1 l2 p1 p2 : Line}
    (e1 : IsInverse I k P1 Q1) (e2 : IsInverse I k P2 Q2)
    (m1 : mkLine P1 Q1 = .ok l1) (m2 : mkLine P2 Q2 = .ok l2)
    (n1 : l1.perpendicular ((P1 + Q1) / (2 : ℝ)) = .ok p1) (n2 : l2.perpendicular ((P2 + Q2) / (2 : ℝ)) = .ok p2)
    (hO : line_line_intersection_ p1.A p1.B p2.A p2.B = some O) :
    sqDist I O = k + sqDist O P1 ∧ sqDist O P1 = sqDist O P2 := by
  obtain ⟨-, a1, a2⟩ := lli_some hO
  have v1 := mkLine_valid m1
  have v2 := mkLine_valid m2
  have d1 := ne_of_not_allclose v1
  have d2 := ne_of_not_allclose v2
  obtain ⟨-, rfl⟩ := mkLine_ok.1 m1
  obtain ⟨-, rfl⟩ := mkLine_ok.1 m2
  have b1 := orth_of_inverse e1 d1 (perp_mid v1 n1 a1)
  have b2 := orth_of_inverse e2 d2 (perp_mid v2 n2 a2)
  exact ⟨b1, by linarith⟩

/-- C18, first half (it holds for every accepted pair of points): a returned circle passes through both points and is
orthogonal to the reference circle.  The claim also says that points not in the interior are rejected: that is false,
see `C18_outside_accepted_counterexample` (and `C18_rejected_partial` for the part that holds). -/
theorem C18_orthogonal_in_circle (c : Circle) (P1 P2 : Pt) (o : Circle)
    (h : c.orthogonal_through_two_points_in_circle P1 P2 false = .ok (.circle o)) :
    o.Valid ∧ OnCircle o.center o.radius P1 ∧ OnCircle o.center o.radius P2 ∧
      Orthogonal c.center c.radius o.center o.radius := by
  unfold Circle.orthogonal_through_two_points_in_circle at h
  dsimp only at h
  split_ifs at h with g1 g2 g3 g4 g5
  · simp only [Res.bind_ok, Res.pure_ok] at h
    obtain ⟨l, -, h⟩ := h
    simp at h
  · simp at g5
  · cases e1 : Inversion.invert ⟨c.center, c.radius * c.radius⟩ (.fin P1) with
    | inf => rw [e1] at h; simp at h
    | fin Q1 =>
    cases e2 : Inversion.invert ⟨c.center, c.radius * c.radius⟩ (.fin P2) with
    | inf => rw [e1, e2] at h; simp at h
    | fin Q2 =>
    rw [e1, e2] at h
    simp only [Res.bind_ok, Res.pure_ok] at h
    obtain ⟨l1, m1, l2, m2, p1, n1, p2, n2, h⟩ := h
    cases hO : line_line_intersection_ p1.A p1.B p2.A p2.B with
    | none => rw [hO] at h; simp at h
    | some O =>
    rw [hO] at h
    simp only [Res.bind_ok, Res.pure_ok, Circle.OrthRes.circle.injEq] at h
    obtain ⟨o', h1, rfl⟩ := h
    obtain ⟨hr, rfl⟩ := mkCircle_ok.1 h1
    obtain ⟨a1, a2⟩ := orth_in_circle_center (invert_fin e1).2 (invert_fin e2).2 m1 m2 n1 n2 hO
    refine ⟨hr, ?_, ?_, ?_⟩
    · simp only [OnCircle, distance_eq, dist_sq]; rw [sqDist_comm]
    · simp only [OnCircle, distance_eq, dist_sq]; rw [a2, sqDist_comm]
    · simp only [Orthogonal, distance_eq, dist_sq]; rw [a1]; ring

/-- C18: with `arc=True`, an arc of an orthogonal circle whose end points are the two given points. -/
theorem C18_orthogonal_in_circle_arc (c : Circle) (P1 P2 : Pt) (o : Arc)
    (h : c.orthogonal_through_two_points_in_circle P1 P2 true = .ok (.arc o)) :
    Orthogonal c.center c.radius o.center o.radius ∧
      ((o.starting_point = P1 ∧ o.ending_point = P2) ∨ (o.starting_point = P2 ∧ o.ending_point = P1)) := by
  unfold Circle.orthogonal_through_two_points_in_circle at h
  dsimp only at h
  split_ifs at h with g1 g2 g3 g4 g5
  · simp only [Res.bind_ok, Res.pure_ok] at h
    obtain ⟨l, -, h⟩ := h
    simp at h
  · cases e1 : Inversion.invert ⟨c.center, c.radius * c.radius⟩ (.fin P1) with
    | inf => rw [e1] at h; simp at h
    | fin Q1 =>
    cases e2 : Inversion.invert ⟨c.center, c.radius * c.radius⟩ (.fin P2) with
    | inf => rw [e1, e2] at h; simp at h
    | fin Q2 =>
    rw [e1, e2] at h
    simp only [Res.bind_ok, Res.pure_ok] at h
    obtain ⟨l1, m1, l2, m2, p1, n1, p2, n2, h⟩ := h
    cases hO : line_line_intersection_ p1.A p1.B p2.A p2.B with
    | none => rw [hO] at h; simp at h
    | some O =>
    rw [hO] at h
    simp only [Res.bind_ok, Res.pure_ok, Circle.OrthRes.arc.injEq] at h
    obtain ⟨o', h1, rfl⟩ := h
    unfold mkArc at h1
    split_ifs at h1 with hr
    injection h1 with h1
    obtain ⟨a1, a2⟩ := orth_in_circle_center (invert_fin e1).2 (invert_fin e2).2 m1 m2 n1 n2 hO
    have pt : ∀ P : Pt, sqDist O P = sqDist O P1 →
        O + distance_ O P1 • unit_vector_ (pyMod (atan2 (P.y - O.y) (P.x - O.x)) (2 * π)) = P := by
      intro P hP
      have e : distance_ O P1 = Real.sqrt ((P.x - O.x) * (P.x - O.x) + (P.y - O.y) * (P.y - O.y)) := by
        rw [distance_eq, Spec.dist, ← hP]; unfold sqDist; congr 1; ring
      have c1 := atan2_cos_mul (P.x - O.x) (P.y - O.y)
      have c2 := atan2_sin_mul (P.x - O.x) (P.y - O.y)
      rw [← e] at c1 c2
      ext
      · simp only [Pt.add_x, Pt.smul_x, unit_vector_, cos_pyMod]; linarith
      · simp only [Pt.add_y, Pt.smul_y, unit_vector_, sin_pyMod]; linarith
    have q1 := pt P1 rfl
    have q2 := pt P2 a2.symm
    rw [← h1]
    constructor
    · simp only [Orthogonal, distance_eq, dist_sq]; rw [a1]; ring
    · simp only [Arc.starting_point, Arc.ending_point, Bool.false_eq_true, if_false]
      rcases le_total (pyMod (atan2 (P1.y - O.y) (P1.x - O.x)) (2 * π)) (pyMod (atan2 (P2.y - O.y) (P2.x - O.x)) (2 * π)) with hle | hle
      · left; rw [min_eq_left hle, max_eq_right hle]; exact ⟨q1, q2⟩
      · right; rw [min_eq_right hle, max_eq_left hle]; exact ⟨q2, q1⟩
  · simp at g5

/-- C18, what holds of the rejection claim: when the radius is at most `1`, a point that is not in the interior is
rejected.  For a radius greater than `1` the claim is false. -/
theorem C18_rejected_partial (c : Circle) (hc : c.Valid) (hr : c.radius ≤ 1) (P1 P2 : Pt) (arc : Bool)
    (hP : c.radius ≤ Spec.dist P1 c.center ∨ c.radius ≤ Spec.dist P2 c.center) :
    ∃ msg, c.orthogonal_through_two_points_in_circle P1 P2 arc = .error (.valueError msg) := by
  unfold Circle.orthogonal_through_two_points_in_circle
  dsimp only
  rw [distance_eq, distance_eq]
  have : c.radius * c.radius ≤ c.radius := by unfold Circle.Valid at hc; nlinarith
  split_ifs with g1 g2 g3 g4 <;> first | exact ⟨_, rfl⟩ | (exfalso; rcases hP with h | h <;> linarith)

/-- C18, failure: for the circle of radius `2` centered at the origin, the outside points `(3, 0)` and `(0, 3)` are
accepted; a circle is returned. -/
theorem C18_outside_accepted_counterexample :
    ∃ o, (⟨⟨0, 0⟩, 2⟩ : Circle).orthogonal_through_two_points_in_circle ⟨3, 0⟩ ⟨0, 3⟩ = .ok (.circle o) := by
  have d1 : distance_ (⟨3, 0⟩ : Pt) ⟨0, 0⟩ = 3 := by
    rw [distance_eq, dist_eq_iff (by norm_num)]; unfold sqDist; norm_num
  have d2 : distance_ (⟨0, 3⟩ : Pt) ⟨0, 0⟩ = 3 := by
    rw [distance_eq, dist_eq_iff (by norm_num)]; unfold sqDist; norm_num
  have c0 : ¬ collinear_ (⟨0, 0⟩ : Pt) ⟨3, 0⟩ ⟨0, 3⟩ := by
    rw [collinear_iff]; unfold allclose npClose Collinear cross; norm_num
  have i1 : Inversion.invert ⟨⟨0, 0⟩, 2 * 2⟩ (.fin ⟨3, 0⟩) = .fin ⟨4 / 3, 0⟩ := by
    unfold Inversion.invert
    dsimp only
    rw [if_neg (by unfold allclose npClose; norm_num)]
    congr 1; ext <;> simp [dot1_, dot_]; norm_num
  have i2 : Inversion.invert ⟨⟨0, 0⟩, 2 * 2⟩ (.fin ⟨0, 3⟩) = .fin ⟨0, 4 / 3⟩ := by
    unfold Inversion.invert
    dsimp only
    rw [if_neg (by unfold allclose npClose; norm_num)]
    congr 1; ext <;> simp [dot1_, dot_]; norm_num
  have v1 : (⟨⟨3, 0⟩, ⟨4 / 3, 0⟩, true, true⟩ : Line).Valid := by
    unfold Line.Valid allclose npClose; norm_num [abs_of_pos]
  have v2 : (⟨⟨0, 3⟩, ⟨0, 4 / 3⟩, true, true⟩ : Line).Valid := by
    unfold Line.Valid allclose npClose; norm_num [abs_of_pos]
  have m1 : mkLine (⟨3, 0⟩ : Pt) ⟨4 / 3, 0⟩ = .ok ⟨⟨3, 0⟩, ⟨4 / 3, 0⟩, true, true⟩ := mkLine_ok.2 ⟨v1, rfl⟩
  have m2 : mkLine (⟨0, 3⟩ : Pt) ⟨0, 4 / 3⟩ = .ok ⟨⟨0, 3⟩, ⟨0, 4 / 3⟩, true, true⟩ := mkLine_ok.2 ⟨v2, rfl⟩
  have n1 : (⟨⟨3, 0⟩, ⟨4 / 3, 0⟩, true, true⟩ : Line).perpendicular (((⟨3, 0⟩ : Pt) + ⟨4 / 3, 0⟩) / (2 : ℝ)) =
      .ok ⟨⟨13 / 6, 0⟩, ⟨13 / 6, -5 / 3⟩, true, true⟩ := by
    unfold Line.perpendicular
    dsimp only
    rw [if_pos ((C05_includes _ v1 _).2 (Or.inl ⟨1 / 2, by ext <;> simp; norm_num⟩))]
    rw [mkLine_ok]
    constructor
    · unfold allclose npClose; norm_num [abs_of_pos, abs_of_neg]
    · ext <;> norm_num
  have n2 : (⟨⟨0, 3⟩, ⟨0, 4 / 3⟩, true, true⟩ : Line).perpendicular (((⟨0, 3⟩ : Pt) + ⟨0, 4 / 3⟩) / (2 : ℝ)) =
      .ok ⟨⟨0, 13 / 6⟩, ⟨5 / 3, 13 / 6⟩, true, true⟩ := by
    unfold Line.perpendicular
    dsimp only
    rw [if_pos ((C05_includes _ v2 _).2 (Or.inl ⟨1 / 2, by ext <;> simp; norm_num⟩))]
    rw [mkLine_ok]
    constructor
    · unfold allclose npClose; norm_num [abs_of_pos, abs_of_neg]
    · ext <;> norm_num
  have hO : line_line_intersection_ (⟨13 / 6, 0⟩ : Pt) ⟨13 / 6, -5 / 3⟩ ⟨0, 13 / 6⟩ ⟨5 / 3, 13 / 6⟩ = some ⟨13 / 6, 13 / 6⟩ := by
    unfold line_line_intersection_ det2x2_
    dsimp only
    rw [if_neg (by norm_num)]
    congr 1; ext <;> norm_num
  have hp : 0 < distance_ (⟨13 / 6, 13 / 6⟩ : Pt) ⟨3, 0⟩ := by
    rw [distance_eq]; apply Real.sqrt_pos.2; unfold sqDist; norm_num
  refine ⟨⟨⟨13 / 6, 13 / 6⟩, distance_ (⟨13 / 6, 13 / 6⟩ : Pt) ⟨3, 0⟩⟩, ?_⟩
  unfold Circle.orthogonal_through_two_points_in_circle
  dsimp only
  rw [if_neg (by unfold allclose npClose; norm_num), d1, d2, if_neg (by norm_num), if_neg (by norm_num), if_neg c0, i1, i2]
  dsimp only
  rw [m1, Res.ok_bind, m2, Res.ok_bind, n1, Res.ok_bind, n2, Res.ok_bind]
  dsimp only
  rw [hO]
  dsimp only
  rw [if_neg (by norm_num), mkCircle_pos hp]
  rfl

/-- The circle returned for these two points is orthogonal to the reference circle and goes through the points. -/
example : ∃ o, (⟨⟨0, 0⟩, 2⟩ : Circle).orthogonal_through_two_points_in_circle ⟨3, 0⟩ ⟨0, 3⟩ = .ok (.circle o) ∧
    OnCircle o.center o.radius ⟨3, 0⟩ ∧ OnCircle o.center o.radius ⟨0, 3⟩ ∧
    Orthogonal (⟨0, 0⟩ : Pt) 2 o.center o.radius := by
  obtain ⟨o, h⟩ := C18_outside_accepted_counterexample
  exact ⟨o, h, (C18_orthogonal_in_circle _ _ _ _ h).2⟩

/-- With a radius of at most 1, a point outside is rejected. -/
example : ∃ msg, (⟨⟨0, 0⟩, 1⟩ : Circle).orthogonal_through_two_points_in_circle ⟨2, 0⟩ ⟨0, 1 / 2⟩ false =
    .error (.valueError msg) := by
  refine C18_rejected_partial _ (by unfold Circle.Valid; norm_num) (by norm_num) _ _ _ (Or.inl ?_)
  have : Spec.dist (⟨2, 0⟩ : Pt) ⟨0, 0⟩ = 2 := by
    rw [dist_eq_iff (by norm_num)]; norm_num [sqDist]
  simp only; rw [this]; norm_num

/-- C18, failure in the other direction: for a radius smaller than `1`, points of the interior are rejected. -/
theorem C18_inside_rejected_counterexample :
    Spec.dist (⟨3 / 10, 0⟩ : Pt) ⟨0, 0⟩ < 1 / 2 ∧ Spec.dist (⟨0, 3 / 10⟩ : Pt) ⟨0, 0⟩ < 1 / 2 ∧
    (⟨⟨0, 0⟩, 1 / 2⟩ : Circle).orthogonal_through_two_points_in_circle ⟨3 / 10, 0⟩ ⟨0, 3 / 10⟩ =
      .error (.valueError "`P1` is not in the interior of the reference circle.") := by
  have d1 : Spec.dist (⟨3 / 10, 0⟩ : Pt) ⟨0, 0⟩ = 3 / 10 := by
    rw [dist_eq_iff (by norm_num)]; unfold sqDist; norm_num
  have d2 : Spec.dist (⟨0, 3 / 10⟩ : Pt) ⟨0, 0⟩ = 3 / 10 := by
    rw [dist_eq_iff (by norm_num)]; unfold sqDist; norm_num
  refine ⟨by rw [d1]; norm_num, by rw [d2]; norm_num, ?_⟩
  unfold Circle.orthogonal_through_two_points_in_circle
  dsimp only
  rw [if_neg (by unfold allclose npClose; norm_num [abs_of_pos]), distance_eq, d1, if_pos (by norm_num)]

/-! ## C23 -/

/-- The inversion on a circle (or the reflection in a line) exchanges the two circles, in both directions. -/
def Swaps (g : GCircle) (c1 c2 : Circle) : Prop :=
  match g with
  | .circle m => m.Valid ∧
      InvMapsOnto (Inversion.on_circle m).pole (Inversion.on_circle m).power
        (OnCircle c1.center c1.radius) (OnCircle c2.center c2.radius) ∧
      InvMapsOnto (Inversion.on_circle m).pole (Inversion.on_circle m).power
        (OnCircle c2.center c2.radius) (OnCircle c1.center c1.radius)
  | .line l => l.Valid ∧ l.extendA = true ∧ l.extendB = true ∧
      MirrorMapsOnto l.A l.B (OnCircle c1.center c1.radius) (OnCircle c2.center c2.radius) ∧
      MirrorMapsOnto l.A l.B (OnCircle c2.center c2.radius) (OnCircle c1.center c1.radius)

theorem swaps_circle {c1 c2 : Circle} {I : Pt} {k s : ℝ} {m : Circle}
    (hm : mkCircle I (Real.sqrt k) = .ok m) (hs : s * (sqDist c1.center I - c1.radius ^ 2) = k)
    (hC : c2.center = I + s • (c1.center - I)) (hr : c2.radius ^ 2 = s ^ 2 * c1.radius ^ 2) :
    Swaps (.circle m) c1 c2 := by
  obtain ⟨h0, rfl⟩ := mkCircle_ok.1 hm
  have hk : 0 < k := Real.sqrt_pos.1 h0
  have e : (Inversion.on_circle ⟨I, Real.sqrt k⟩).power = k := by
    simp only [Inversion.on_circle]; exact Real.sq_sqrt hk.le
  have := inv_circle_image hk.ne' hs hC hr
  refine ⟨h0, ?_, ?_⟩
  · rw [e]; exact this
  · rw [e]; exact this.symm hk.ne'

/-- The mirror images in the perpendicular bisector. -/
theorem swaps_line {O₁ O₂ A B : Pt} {r : ℝ} (hne : O₁ ≠ O₂) (h1 : sqDist A O₁ = sqDist A O₂)
    (h2 : Perp (B - A) (O₂ - O₁)) (hAB : A ≠ B) : MirrorMapsOnto A B (OnCircle O₁ r) (OnCircle O₂ r) := by
  intro P Q hPQ
  obtain ⟨hm, hp⟩ := hPQ
  rw [onLine_iff_cross hAB] at hm
  have hd := sqDist_pos hAB
  have key : sqDist P O₁ = sqDist Q O₂ := by
    simp only [Perp, cross, dot, sqDist, Pt.sub_x, Pt.sub_y, Pt.add_x, Pt.add_y, Pt.div_x, Pt.div_y] at *
    obtain ⟨t, ht1, ht2⟩ : ∃ t, (P.x + Q.x) / 2 - A.x = t * (B.x - A.x) ∧ (P.y + Q.y) / 2 - A.y = t * (B.y - A.y) := by
      refine ⟨(((P.x + Q.x) / 2 - A.x) * (B.x - A.x) + ((P.y + Q.y) / 2 - A.y) * (B.y - A.y)) /
        ((A.x - B.x) ^ 2 + (A.y - B.y) ^ 2), ?_, ?_⟩
      · field_simp; linear_combination -(B.y - A.y) * 2 * hm
      · field_simp; linear_combination (B.x - A.x) * 2 * hm
    obtain ⟨w, hw1, hw2⟩ : ∃ w, Q.x - P.x = -w * (B.y - A.y) ∧ Q.y - P.y = w * (B.x - A.x) := by
      refine ⟨((Q.y - P.y) * (B.x - A.x) - (Q.x - P.x) * (B.y - A.y)) /
        ((A.x - B.x) ^ 2 + (A.y - B.y) ^ 2), ?_, ?_⟩
      · field_simp; linear_combination (B.x - A.x) * hp
      · field_simp; linear_combination (B.y - A.y) * hp
    obtain ⟨m, hm1, hm2⟩ : ∃ m, O₂.x - O₁.x = -m * (B.y - A.y) ∧ O₂.y - O₁.y = m * (B.x - A.x) := by
      refine ⟨((O₂.y - O₁.y) * (B.x - A.x) - (O₂.x - O₁.x) * (B.y - A.y)) /
        ((A.x - B.x) ^ 2 + (A.y - B.y) ^ 2), ?_, ?_⟩
      · field_simp; linear_combination (B.x - A.x) * h2
      · field_simp; linear_combination (B.y - A.y) * h2
    have m0 : m ≠ 0 := by
      rintro rfl
      apply hne; ext <;> linarith
    have eP1 : P.x = A.x + t * (B.x - A.x) + w / 2 * (B.y - A.y) := by linarith
    have eP2 : P.y = A.y + t * (B.y - A.y) - w / 2 * (B.x - A.x) := by linarith
    have eQ1 : Q.x = A.x + t * (B.x - A.x) - w / 2 * (B.y - A.y) := by linarith
    have eQ2 : Q.y = A.y + t * (B.y - A.y) + w / 2 * (B.x - A.x) := by linarith
    have eO1 : O₂.x = O₁.x - m * (B.y - A.y) := by linarith
    have eO2 : O₂.y = O₁.y + m * (B.x - A.x) := by linarith
    rw [eO1, eO2] at h1
    have h3 : 2 * ((A.x - O₁.x) * (B.y - A.y) - (A.y - O₁.y) * (B.x - A.x)) + m * ((A.x - B.x) ^ 2 + (A.y - B.y) ^ 2) = 0 := by
      have : m * (2 * ((A.x - O₁.x) * (B.y - A.y) - (A.y - O₁.y) * (B.x - A.x)) + m * ((A.x - B.x) ^ 2 + (A.y - B.y) ^ 2)) = 0 := by
        linear_combination -h1
      exact (mul_eq_zero.1 this).resolve_left m0
    rw [eP1, eP2, eQ1, eQ2, eO1, eO2]
    linear_combination (w - m) * h3
  unfold OnCircle
  rw [key]

/-- External center of similitude. -/
theorem iext_rel {O₁ O₂ : Pt} {r₁ r₂ : ℝ} (p1 : 0 < r₁) (p2 : 0 < r₂) (hne : r₁ ≠ r₂) :
    O₂ = (O₁ - (r₁ / r₂ / (1 - r₁ / r₂)) • (O₂ - O₁)) +
      (r₂ / r₁) • (O₁ - (O₁ - (r₁ / r₂ / (1 - r₁ / r₂)) • (O₂ - O₁))) ∧
    sqDist O₁ (O₁ - (r₁ / r₂ / (1 - r₁ / r₂)) • (O₂ - O₁)) = r₁ ^ 2 / (r₁ - r₂) ^ 2 * sqDist O₁ O₂ ∧
    dot1_ ((O₁ - (r₁ / r₂ / (1 - r₁ / r₂)) • (O₂ - O₁)) - O₂) = r₂ ^ 2 / (r₁ - r₂) ^ 2 * sqDist O₁ O₂ := by
  have e : r₁ / r₂ / (1 - r₁ / r₂) = r₁ / (r₂ - r₁) := by
    have : r₂ - r₁ ≠ 0 := sub_ne_zero.2 hne.symm
    have h' : 1 - r₁ / r₂ ≠ 0 := by
      rw [show 1 - r₁ / r₂ = (r₂ - r₁) / r₂ by field_simp]; positivity
    field_simp
  rw [e]
  have h1 : r₂ - r₁ ≠ 0 := sub_ne_zero.2 hne.symm
  have h2 : r₁ - r₂ ≠ 0 := sub_ne_zero.2 hne
  have e2 : (r₁ - r₂) ^ 2 = (r₂ - r₁) ^ 2 := by ring
  rw [e2]
  refine ⟨?_, ?_, ?_⟩
  · ext <;> simp <;> field_simp <;> ring
  · simp [sqDist]; field_simp; ring
  · simp [sqDist, dot1_, dot_]; field_simp; ring

/-- Internal center of similitude. -/
theorem iint_rel {O₁ O₂ : Pt} {r₁ r₂ : ℝ} (p1 : 0 < r₁) (p2 : 0 < r₂) :
    O₂ = (O₁ + (r₁ / r₂ / (1 + r₁ / r₂)) • (O₂ - O₁)) +
      (-(r₂ / r₁)) • (O₁ - (O₁ + (r₁ / r₂ / (1 + r₁ / r₂)) • (O₂ - O₁))) ∧
    sqDist O₁ (O₁ + (r₁ / r₂ / (1 + r₁ / r₂)) • (O₂ - O₁)) = r₁ ^ 2 / (r₁ + r₂) ^ 2 * sqDist O₁ O₂ ∧
    dot1_ ((O₁ + (r₁ / r₂ / (1 + r₁ / r₂)) • (O₂ - O₁)) - O₂) = r₂ ^ 2 / (r₁ + r₂) ^ 2 * sqDist O₁ O₂ := by
  have e : r₁ / r₂ / (1 + r₁ / r₂) = r₁ / (r₁ + r₂) := by
    have h' : 1 + r₁ / r₂ ≠ 0 := by positivity
    have : r₁ + r₂ ≠ 0 := by positivity
    field_simp; ring
  rw [e]
  have : r₁ + r₂ ≠ 0 := by positivity
  refine ⟨?_, ?_, ?_⟩
  · ext <;> simp <;> field_simp <;> ring
  · simp [sqDist]; field_simp; ring
  · simp [sqDist, dot1_, dot_]; field_simp; ring

theorem swaps_ext {c1 c2 m : Circle} (h1 : c1.Valid) (h2 : c2.Valid) (hne : c1.radius ≠ c2.radius)
    (hd : (c1.radius - c2.radius) ^ 2 < sqDist c1.center c2.center)
    (hm : mkCircle (c1.center - (c1.radius / c2.radius / (1 - c1.radius / c2.radius)) • (c2.center - c1.center))
      (Real.sqrt (c1.radius / c2.radius * |dot1_ ((c1.center - (c1.radius / c2.radius / (1 - c1.radius / c2.radius)) •
        (c2.center - c1.center)) - c2.center) - c2.radius * c2.radius|)) = .ok m) : Swaps (.circle m) c1 c2 := by
  obtain ⟨a1, a2, a3⟩ := iext_rel (O₁ := c1.center) (O₂ := c2.center) h1 h2 hne
  have n1 : c1.radius ≠ 0 := ne_of_gt h1
  have n2 : c2.radius ≠ 0 := ne_of_gt h2
  have hp : 0 < (c1.radius - c2.radius) ^ 2 := by
    have := sub_ne_zero.2 hne; positivity
  have hge : 0 ≤ c2.radius ^ 2 / (c1.radius - c2.radius) ^ 2 * sqDist c1.center c2.center - c2.radius * c2.radius := by
    have : c2.radius ^ 2 / (c1.radius - c2.radius) ^ 2 * sqDist c1.center c2.center - c2.radius * c2.radius =
      c2.radius ^ 2 * ((sqDist c1.center c2.center - (c1.radius - c2.radius) ^ 2) / (c1.radius - c2.radius) ^ 2) := by
      field_simp
    rw [this]
    exact mul_nonneg (sq_nonneg _) (div_nonneg (by linarith) hp.le)
  refine swaps_circle hm (s := c2.radius / c1.radius) ?_ a1 ?_
  · rw [a2, a3, abs_of_nonneg hge]; field_simp
  · field_simp

theorem swaps_int {c1 c2 m : Circle} (h1 : c1.Valid) (h2 : c2.Valid)
    (hd : sqDist c1.center c2.center < (c1.radius + c2.radius) ^ 2)
    (hm : mkCircle (c1.center + (c1.radius / c2.radius / (1 + c1.radius / c2.radius)) • (c2.center - c1.center))
      (Real.sqrt (c1.radius / c2.radius * |dot1_ ((c1.center + (c1.radius / c2.radius / (1 + c1.radius / c2.radius)) •
        (c2.center - c1.center)) - c2.center) - c2.radius * c2.radius|)) = .ok m) : Swaps (.circle m) c1 c2 := by
  obtain ⟨a1, a2, a3⟩ := iint_rel (O₁ := c1.center) (O₂ := c2.center) h1 h2
  have n1 : c1.radius ≠ 0 := ne_of_gt h1
  have n2 : c2.radius ≠ 0 := ne_of_gt h2
  have hp : 0 < (c1.radius + c2.radius) ^ 2 := by
    have := add_pos h1 h2; positivity
  have hge : c2.radius ^ 2 / (c1.radius + c2.radius) ^ 2 * sqDist c1.center c2.center - c2.radius * c2.radius ≤ 0 := by
    have : c2.radius ^ 2 / (c1.radius + c2.radius) ^ 2 * sqDist c1.center c2.center - c2.radius * c2.radius =
      -(c2.radius ^ 2 * (((c1.radius + c2.radius) ^ 2 - sqDist c1.center c2.center) / (c1.radius + c2.radius) ^ 2)) := by
      rw [sub_div, div_self hp.ne']; ring
    rw [this, neg_nonpos]
    exact mul_nonneg (sq_nonneg _) (div_nonneg (by linarith) hp.le)
  refine swaps_circle hm (s := -(c2.radius / c1.radius)) ?_ a1 ?_
  · rw [a2, a3, abs_of_nonpos hge]; field_simp
  · field_simp

/-- Every object returned by `mid_circles`. -/
def MidRes.all (m : MidRes) (p : GCircle → Prop) : Prop :=
  match m with
  | .single g => p g
  | .pair g h => p g ∧ p h

/-- C23, partial: each returned circle or line exchanges the two circles.  The claim "for every pair of circles" needs
two restrictions.  (1) The circles are not tiny: `4 r1 r2` is at least the tolerance `2^-26`; without it the claim is
false (`C23_small_circles_counterexample`).  (2) Congruent circles have equal centers or centers that are not
`np.allclose` (otherwise the first circle is returned, as if the circles were equal). -/
theorem C23_mid_circles_partial (c1 c2 : Circle) (h1 : c1.Valid) (h2 : c2.Valid)
    (hsmall : 1 / 2 ^ 26 ≤ 4 * c1.radius * c2.radius)
    (hclose : c1.radius = c2.radius → allclose c1.center c2.center → c1.center = c2.center)
    (res : MidRes) (h : mid_circles c1 c2 = .ok res) : res.all (fun g => Swaps g c1 c2) := by
  have hs := sepsilon_pos
  have he : sepsilon_ = 1 / 2 ^ 26 := rfl
  have q1 := h1
  have q2 := h2
  unfold Circle.Valid at q1 q2
  unfold mid_circles at h
  dsimp only at h
  rw [dot1_eq] at h
  split_ifs at h with g1 g2 g3 g4 g5 g6 g7
  · -- equal circles
    injection h with h
    subst h
    have hc : c2 = c1 := by ext1; exacts [(hclose g1 g2).symm, g1.symm]
    subst hc
    have : mkCircle c2.center (Real.sqrt (c2.radius ^ 2)) = .ok c2 := by
      rw [Real.sqrt_sq h1.le, mkCircle_ok]; exact ⟨h1, rfl⟩
    refine swaps_circle this (s := -1) ?_ ?_ (by ring)
    · rw [sqDist_eq_zero.2 rfl]; ring
    · ext <;> simp
  · have hne := ne_of_not_allclose g2
    simp only [Res.bind_ok, Res.pure_ok] at h
    obtain ⟨l, hl, c, hc, rfl⟩ := h
    refine ⟨swaps_circle hc (s := -1) ?_ ?_ (by rw [g1]; ring), ?_⟩
    · have e : dot1_ ((c1.center + c2.center) / (2 : ℝ) - c2.center) = sqDist c1.center c2.center / 4 := by
        simp [dot1_, dot_, sqDist]; ring
      have e' : sqDist c1.center ((c1.center + c2.center) / (2 : ℝ)) = sqDist c1.center c2.center / 4 := by
        simp [sqDist]; ring
      rw [e, e', g1, abs_of_nonpos (by rw [g1] at g3; nlinarith)]; ring
    · ext <;> simp <;> ring
    · have v := mkLine_valid hl
      have n := ne_of_not_allclose v
      obtain ⟨-, rfl⟩ := mkLine_ok.1 hl
      refine ⟨v, rfl, rfl, ?_, ?_⟩
      · rw [g1]
        refine swaps_line hne ?_ ?_ n
        · simp [sqDist]; ring
        · simp [Perp, dot]; ring
      · rw [g1]
        refine swaps_line hne.symm ?_ ?_ n
        · simp [sqDist]; ring
        · simp [Perp, dot]; ring
  · have hne := ne_of_not_allclose g2
    simp only [Res.bind_ok, Res.pure_ok] at h
    obtain ⟨l, hl, rfl⟩ := h
    have v := mkLine_valid hl
    have n := ne_of_not_allclose v
    obtain ⟨-, rfl⟩ := mkLine_ok.1 hl
    refine ⟨v, rfl, rfl, ?_, ?_⟩
    · rw [g1]
      refine swaps_line hne ?_ ?_ n
      · simp [sqDist]; ring
      · simp [Perp, dot]; ring
    · rw [g1]
      refine swaps_line hne.symm ?_ ?_ n
      · simp [sqDist]; ring
      · simp [Perp, dot]; ring
  · simp only [Res.bind_ok, Res.pure_ok] at h
    obtain ⟨c, hc, rfl⟩ := h
    exact swaps_ext h1 h2 g1 (by nlinarith) hc
  · simp only [Res.bind_ok, Res.pure_ok] at h
    obtain ⟨c, hc, rfl⟩ := h
    exact swaps_int h1 h2 (by nlinarith) hc
  · simp only [Res.bind_ok, Res.pure_ok] at h
    obtain ⟨c, hc, rfl⟩ := h
    exact swaps_ext h1 h2 g1 (by nlinarith) hc
  · simp only [Res.bind_ok, Res.pure_ok] at h
    obtain ⟨c, hc, rfl⟩ := h
    exact swaps_int h1 h2 (by nlinarith) hc
  · simp only [Res.bind_ok, Res.pure_ok] at h
    obtain ⟨c, hc, d, hd, rfl⟩ := h
    exact ⟨swaps_ext h1 h2 g1 (by nlinarith) hc, swaps_int h1 h2 (by nlinarith) hd⟩

/-- C23: a line is returned only if the radii are equal. -/
theorem C23_line_only_if_congruent (c1 c2 : Circle) (res : MidRes) (h : mid_circles c1 c2 = .ok res)
    (hne : c1.radius ≠ c2.radius) : res.all (fun g => ∃ c, g = .circle c) := by
  unfold mid_circles at h
  dsimp only at h
  rw [if_neg hne] at h
  split_ifs at h with g1 g2 g3 g4
  all_goals
    simp only [Res.bind_ok, Res.pure_ok] at h
  · obtain ⟨c, -, rfl⟩ := h; exact ⟨c, rfl⟩
  · obtain ⟨c, -, rfl⟩ := h; exact ⟨c, rfl⟩
  · obtain ⟨c, -, rfl⟩ := h; exact ⟨c, rfl⟩
  · obtain ⟨c, -, rfl⟩ := h; exact ⟨c, rfl⟩
  · obtain ⟨c, -, d, -, rfl⟩ := h; exact ⟨⟨c, rfl⟩, ⟨d, rfl⟩⟩

/-- The mid circle of the circles of radius 1 and 2 with centers 10 apart is a circle that exchanges them. -/
example (res : MidRes) (h : mid_circles ⟨⟨0, 0⟩, 1⟩ ⟨⟨10, 0⟩, 2⟩ = .ok res) :
    res.all (fun g => Swaps g ⟨⟨0, 0⟩, 1⟩ ⟨⟨10, 0⟩, 2⟩) ∧ res.all (fun g => ∃ c, g = .circle c) :=
  ⟨C23_mid_circles_partial _ _ (by unfold Circle.Valid; norm_num) (by unfold Circle.Valid; norm_num) (by norm_num)
    (by intro h; norm_num at h) _ h, C23_line_only_if_congruent _ _ _ h (by norm_num)⟩

/-- C23, failure: for two tiny nested circles the returned circle does not exchange them. -/
theorem C23_small_circles_counterexample :
    ∃ m, mid_circles ⟨⟨0, 0⟩, 1 / 10 ^ 5⟩ ⟨⟨1 / 10 ^ 6, 0⟩, 2 / 10 ^ 5⟩ = .ok (.single (.circle m)) ∧
      ¬ Swaps (.circle m) ⟨⟨0, 0⟩, 1 / 10 ^ 5⟩ ⟨⟨1 / 10 ^ 6, 0⟩, 2 / 10 ^ 5⟩ := by
  have hk : (0 : ℝ) < 198 / 10 ^ 12 := by norm_num
  refine ⟨⟨⟨-1 / 10 ^ 6, 0⟩, Real.sqrt (198 / 10 ^ 12)⟩, ?_, ?_⟩
  · unfold mid_circles
    dsimp only
    rw [if_neg (by norm_num), if_neg (by simp [dot1_, dot_, sepsilon_]; norm_num),
      if_neg (by simp [dot1_, dot_, sepsilon_]; norm_num), if_pos (by simp [dot1_, dot_, sepsilon_]; norm_num)]
    have e1 : ((⟨0, 0⟩ : Pt) - ((1 / 10 ^ 5 / (2 / 10 ^ 5) : ℝ) / (1 - (1 / 10 ^ 5 / (2 / 10 ^ 5) : ℝ))) • ((⟨1 / 10 ^ 6, 0⟩ : Pt) - ⟨0, 0⟩)) =
        ⟨-1 / 10 ^ 6, 0⟩ := by ext <;> norm_num
    rw [e1]
    have e2 : (1 / 10 ^ 5 / (2 / 10 ^ 5) : ℝ) * |dot1_ ((⟨-1 / 10 ^ 6, 0⟩ : Pt) - ⟨1 / 10 ^ 6, 0⟩) - 2 / 10 ^ 5 * (2 / 10 ^ 5)| =
        198 / 10 ^ 12 := by
      simp only [dot1_, dot_, Pt.sub_x, Pt.sub_y]; rw [abs_of_nonpos (by norm_num)]; norm_num
    rw [e2, mkCircle_pos (Real.sqrt_pos.2 hk)]
    rfl
  · rintro ⟨-, h, -⟩
    simp only [Inversion.on_circle, Real.sq_sqrt hk.le] at h
    have := (h ⟨1 / 10 ^ 5, 0⟩ ⟨17 / 10 ^ 6, 0⟩ (by
      refine ⟨?_, ?_, ?_⟩
      · intro h; have := congrArg Pt.x h; norm_num at this
      · simp [cross]
      · simp [dot]; norm_num)).1 (by unfold OnCircle sqDist; norm_num)
    unfold OnCircle sqDist at this
    norm_num at this

example : (1 : ℝ) / 2 ^ 26 ≤ 4 * 1 * 2 ∧
    (∃ m, mid_circles ⟨⟨0, 0⟩, 1⟩ ⟨⟨10, 0⟩, 2⟩ = .ok (.single (.circle m))) := by
  refine ⟨by norm_num, ?_⟩
  unfold mid_circles
  dsimp only
  rw [if_neg (by norm_num), if_pos (by simp [dot1_, dot_, sepsilon_]; norm_num), mkCircle_pos]
  · exact ⟨_, rfl⟩
  · apply Real.sqrt_pos.2; simp [dot1_, dot_]; norm_num
