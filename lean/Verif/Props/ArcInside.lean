import Verif.Props.Circle2
import Verif.Props.EllipseAngle

/-!
# C82, C83: the arcs returned by `orthogonal_through_two_points_on_circle` and `orthogonal_through_two_points_in_circle`
-/

open Spec Real Classical

namespace Spec

/-- The point with polar angle `t` of a circle. -/
noncomputable def circlePoint (O : Pt) (r t : ℝ) : Pt := ⟨O.x + r * Real.cos t, O.y + r * Real.sin t⟩

/-- `X` is on the arc described counterclockwise when the polar angle goes from `t1` to `t2` (end points included). -/
def OnArc (O : Pt) (r t1 t2 : ℝ) (X : Pt) : Prop := ∃ t, t1 ≤ t ∧ t ≤ t2 ∧ X = circlePoint O r t

/-- `X` is strictly inside the circle. -/
def Inside (O : Pt) (r : ℝ) (X : Pt) : Prop := sqDist X O < r ^ 2

end Spec

namespace ArcIn

/-- A point of an orthogonal circle is in the open disk iff its direction is close to the one of the center. -/
theorem inside_iff {I O : Pt} {r ρ : ℝ} (hρ : 0 < ρ) (ho : Orthogonal I r O ρ) (t : ℝ) :
    Inside I r (circlePoint O ρ t) ↔ ρ + ((O.x - I.x) * cos t + (O.y - I.y) * sin t) < 0 := by
  have h1 : cos t ^ 2 + sin t ^ 2 = 1 := by rw [add_comm]; exact sin_sq_add_cos_sq t
  unfold Orthogonal sqDist at ho
  have h2 : sqDist (circlePoint O ρ t) I = r ^ 2 + 2 * ρ * (ρ + ((O.x - I.x) * cos t + (O.y - I.y) * sin t)) := by
    unfold sqDist circlePoint
    dsimp only
    linear_combination ρ ^ 2 * h1 + ho
  unfold Inside
  rw [h2]
  constructor
  · intro h
    have : 2 * ρ * (ρ + ((O.x - I.x) * cos t + (O.y - I.y) * sin t)) < 0 := by linarith
    by_contra hn
    push Not at hn
    have : 0 ≤ 2 * ρ * (ρ + ((O.x - I.x) * cos t + (O.y - I.y) * sin t)) := by positivity
    linarith
  · intro h
    have : 2 * ρ * (ρ + ((O.x - I.x) * cos t + (O.y - I.y) * sin t)) < 0 := mul_neg_of_pos_of_neg (by positivity) h
    linarith

/-- Among the angles strictly between `t1` and `t2` with `t2 - t1 ≤ π`. -/
theorem between {A B ρ t1 t2 t : ℝ} (hρ : 0 < ρ) (h1 : ρ + (A * cos t1 + B * sin t1) < 0)
    (h2 : ρ + (A * cos t2 + B * sin t2) < 0) (ha : t1 ≤ t) (hb : t ≤ t2) (hd : t2 - t1 < π) :
    ρ + (A * cos t + B * sin t) < 0 := by
  rcases eq_or_lt_of_le ha with rfl | ha
  · exact h1
  rcases eq_or_lt_of_le hb with rfl | hb
  · exact h2
  have s1 : 0 < sin (t2 - t) := sin_pos_of_pos_of_lt_pi (by linarith) (by linarith)
  have s2 : 0 < sin (t - t1) := sin_pos_of_pos_of_lt_pi (by linarith) (by linarith)
  have s3 : 0 < sin (t2 - t1) := sin_pos_of_pos_of_lt_pi (by linarith) (by linarith)
  have key : sin (t2 - t1) * (A * cos t + B * sin t) =
      sin (t2 - t) * (A * cos t1 + B * sin t1) + sin (t - t1) * (A * cos t2 + B * sin t2) := by
    rw [sin_sub, sin_sub, sin_sub]; ring
  have hadd : sin (t2 - t1) ≤ sin (t2 - t) + sin (t - t1) := by
    have e : t2 - t1 = (t2 - t) + (t - t1) := by ring
    rw [e, sin_add]
    nlinarith [cos_le_one (t2 - t), cos_le_one (t - t1)]
  have m1 : sin (t2 - t) * (A * cos t1 + B * sin t1) < sin (t2 - t) * (-ρ) := mul_lt_mul_of_pos_left (by linarith) s1
  have m2 : sin (t - t1) * (A * cos t2 + B * sin t2) < sin (t - t1) * (-ρ) := mul_lt_mul_of_pos_left (by linarith) s2
  have m3 : sin (t2 - t1) * (A * cos t + B * sin t) < sin (t2 - t1) * (-ρ) := by
    rw [key]; nlinarith
  have := lt_of_mul_lt_mul_left m3 s3.le
  linarith

/-- When the angle is larger than `π`, the middle is on the other side. -/
theorem middle {A B ρ t1 t2 : ℝ} (hρ : 0 < ρ) (h1 : ρ + (A * cos t1 + B * sin t1) < 0)
    (h2 : ρ + (A * cos t2 + B * sin t2) < 0) (hd : π ≤ t2 - t1) (hd' : t2 - t1 ≤ 2 * π) :
    0 < ρ + (A * cos ((t1 + t2) / 2) + B * sin ((t1 + t2) / 2)) := by
  obtain ⟨m, hm⟩ : ∃ m, m = (t1 + t2) / 2 := ⟨_, rfl⟩
  obtain ⟨d, hde⟩ : ∃ d, d = (t2 - t1) / 2 := ⟨_, rfl⟩
  have e1 : t1 = m - d := by rw [hm, hde]; ring
  have e2 : t2 = m + d := by rw [hm, hde]; ring
  rw [← hm]
  rw [e1, cos_sub, sin_sub] at h1
  rw [e2, cos_add, sin_add] at h2
  have hc : cos d ≤ 0 := cos_nonpos_of_pi_div_two_le_of_le (by linarith) (by linarith [pi_pos])
  by_contra hn
  push Not at hn
  have hg : A * cos m + B * sin m ≤ -ρ := by linarith
  have : 0 ≤ cos d * (A * cos m + B * sin m) := mul_nonneg_of_nonpos_of_nonpos hc (by linarith)
  nlinarith

/-- The path of an arc with increasing angles. -/
theorem path_onArc (a : Arc) (hd : a.degrees = false) (h1 : a.alpha1 ≤ a.alpha2) (h2 : a.alpha2 < a.alpha1 + 2 * π)
    (n : ℤ) (L : List Pt) (h : a.path n = .ok L) : ∀ X ∈ L, OnArc a.center a.radius a.alpha1 a.alpha2 X := by
  have hpi := pi_pos
  unfold Arc.path at h
  dsimp only at h
  by_cases hn : n ≤ 0
  · rw [if_pos hn] at h; simp at h
  rw [if_neg hn, hd] at h
  simp only [Bool.false_eq_true, if_false, Except.ok.injEq] at h
  have m1a := pyMod_nonneg a.alpha1 (m := 2 * π) (by positivity)
  have m1b := pyMod_lt a.alpha1 (m := 2 * π) (by positivity)
  have m2a := pyMod_nonneg a.alpha2 (m := 2 * π) (by positivity)
  have m2b := pyMod_lt a.alpha2 (m := 2 * π) (by positivity)
  obtain ⟨k1, hk1⟩ : ∃ k : ℤ, pyMod a.alpha1 (2 * π) = a.alpha1 - 2 * π * k := ⟨⌊a.alpha1 / (2 * π)⌋, rfl⟩
  obtain ⟨k2, hk2⟩ : ∃ k : ℤ, pyMod a.alpha2 (2 * π) = a.alpha2 - 2 * π * k := ⟨⌊a.alpha2 / (2 * π)⌋, rfl⟩
  have hdal : (if pyMod a.alpha2 (2 * π) - pyMod a.alpha1 (2 * π) < 0 then pyMod a.alpha2 (2 * π) - pyMod a.alpha1 (2 * π) + 2 * π
      else pyMod a.alpha2 (2 * π) - pyMod a.alpha1 (2 * π)) = a.alpha2 - a.alpha1 := by
    obtain ⟨m, hm⟩ : ∃ m : ℤ, m = k2 - k1 := ⟨_, rfl⟩
    have hm' : (m : ℝ) = k2 - k1 := by rw [hm]; push_cast; ring
    split_ifs with hneg
    · have l1 : (m : ℝ) < 2 := by
        by_contra hge
        push Not at hge
        nlinarith
      have l2 : (0 : ℝ) < m := by
        by_contra hge
        push Not at hge
        nlinarith
      have : m = 1 := by
        have a1 : m < 2 := by exact_mod_cast l1
        have a2 : 0 < m := by exact_mod_cast l2
        omega
      rw [this] at hm'
      push_cast at hm'
      rw [hk1, hk2]
      have : (k2 : ℝ) = k1 + 1 := by linarith
      rw [this]; ring
    · push Not at hneg
      have l1 : (m : ℝ) < 1 := by
        by_contra hge
        push Not at hge
        nlinarith
      have l2 : (-1 : ℝ) < m := by
        by_contra hge
        push Not at hge
        nlinarith
      have : m = 0 := by
        have a1 : m < 1 := by exact_mod_cast l1
        have a2 : -1 < m := by exact_mod_cast l2
        omega
      rw [this] at hm'
      push_cast at hm'
      rw [hk1, hk2]
      have : (k2 : ℝ) = k1 := by linarith
      rw [this]; ring
  rw [hdal] at h
  subst h
  intro X hX
  rw [List.mem_map] at hX
  obtain ⟨i, hi, rfl⟩ := hX
  rw [List.mem_range] at hi
  have hlin : 0 ≤ linspace 0 (a.alpha2 - a.alpha1) n.toNat i ∧ linspace 0 (a.alpha2 - a.alpha1) n.toNat i ≤ a.alpha2 - a.alpha1 := by
    unfold linspace
    split_ifs with hone
    · exact ⟨le_refl _, by linarith⟩
    · have hn2 : 2 ≤ n.toNat := by omega
      have hnr : (2 : ℝ) ≤ n.toNat := by exact_mod_cast hn2
      have hir : (i : ℝ) ≤ n.toNat - 1 := by
        have : i + 1 ≤ n.toNat := by omega
        have : (i : ℝ) + 1 ≤ n.toNat := by exact_mod_cast this
        linarith
      have hpos : (0 : ℝ) < n.toNat - 1 := by linarith
      rw [sub_zero, zero_add]
      have hq : 0 ≤ (a.alpha2 - a.alpha1) / (n.toNat - 1 : ℝ) := div_nonneg (by linarith) hpos.le
      refine ⟨by positivity, ?_⟩
      calc (i : ℝ) * ((a.alpha2 - a.alpha1) / (n.toNat - 1 : ℝ)) ≤ (n.toNat - 1) * ((a.alpha2 - a.alpha1) / (n.toNat - 1 : ℝ)) :=
            mul_le_mul_of_nonneg_right hir hq
        _ = a.alpha2 - a.alpha1 := by field_simp
  refine ⟨a.alpha1 + linspace 0 (a.alpha2 - a.alpha1) n.toNat i, by linarith [hlin.1], by linarith [hlin.2], ?_⟩
  unfold circle_point_ circlePoint
  have e : pyMod a.alpha1 (2 * π) + linspace 0 (a.alpha2 - a.alpha1) n.toNat i =
      (a.alpha1 + linspace 0 (a.alpha2 - a.alpha1) n.toNat i) - k1 * (2 * π) := by rw [hk1]; ring
  rw [e, cos_sub_int_mul_two_pi, sin_sub_int_mul_two_pi]

end ArcIn

/-- C82: for angles that do not differ by a multiple of `π`, `orthogonal_through_two_points_on_circle(arc=True)` returns an
arc with increasing angles and length less than `π`, made of the points of the orthogonal circle that are in the reference disk:
an inner point of the arc is strictly inside, and every point of the orthogonal circle strictly inside is on the arc. -/
theorem C82_arc_on_circle (c : Circle) (hc : c.Valid) (a1 a2 : ℝ) (h : ∀ n : ℤ, a1 - a2 ≠ n * π) :
    ∃ a : Arc, c.orthogonal_through_two_points_on_circle a1 a2 true = .ok (.arc a) ∧ 0 < a.radius ∧ a.degrees = false ∧
      a.alpha1 < a.alpha2 ∧ a.alpha2 < a.alpha1 + π ∧
      (∀ t, a.alpha1 < t → t < a.alpha2 → Inside c.center c.radius (circlePoint a.center a.radius t)) ∧
      ∀ X, OnCircle a.center a.radius X → Inside c.center c.radius X → OnArc a.center a.radius a.alpha1 a.alpha2 X := by
  have hpi := pi_pos
  have hm : pyMod (a1 - a2) π ≠ 0 := by
    rw [Ne, pyMod_eq_zero_iff pi_ne_zero]; push Not; exact h
  obtain ⟨hcos, hsin⟩ := cos_half_ne_zero hm
  have htan : tan ((a1 - a2) / 2) ≠ 0 := by rw [tan_eq_sin_div_cos]; exact div_ne_zero hsin hcos
  have hr0 : 0 < c.radius * |tan ((a1 - a2) / 2)| := mul_pos hc (abs_pos.2 htan)
  obtain ⟨D, hD⟩ : ∃ D, D = pyMod (a2 - a1) (2 * π) := ⟨_, rfl⟩
  obtain ⟨k, hk⟩ : ∃ k : ℤ, D = a2 - a1 - 2 * π * k := ⟨⌊(a2 - a1) / (2 * π)⌋, by rw [hD]; rfl⟩
  have hD0 : 0 ≤ D := by rw [hD]; exact pyMod_nonneg _ (by positivity)
  have hD1 : D < 2 * π := by rw [hD]; exact pyMod_lt _ (by positivity)
  have hDne0 : D ≠ 0 := by
    intro h0; apply h (-2 * k); push_cast; rw [h0] at hk; linarith
  have hDnepi : D ≠ π := by
    intro h0; apply h (-2 * k - 1); push_cast; rw [h0] at hk; linarith
  have hDpos : 0 < D := lt_of_le_of_ne hD0 (Ne.symm hDne0)
  have hsD : 0 < sin (D / 2) := sin_pos_of_pos_of_lt_pi (by linarith) (by linarith)
  have e1 : (a1 - a2) / 2 = -(D / 2 + k * π) := by rw [hk]; ring
  have e2 : (a1 + a2) / 2 = (a1 + D / 2) + k * π := by rw [hk]; ring
  have hcosD : cos (D / 2) ≠ 0 := by
    intro h0
    apply hcos
    rw [e1, cos_neg, (cos_add_int_pi _ _).1, h0, mul_zero]
  have hsgn : ((-1 : ℝ) ^ k) * (-1) ^ k = 1 := by rw [← mul_zpow]; simp
  have hsgn0 : ((-1 : ℝ) ^ k) ≠ 0 := by intro h0; rw [h0] at hsgn; simp at hsgn
  -- center and radius in terms of D
  have hctr : c.center + (c.radius / cos ((a1 - a2) / 2)) • unit_vector_ ((a1 + a2) / 2) =
      ⟨c.center.x + c.radius / cos (D / 2) * cos (a1 + D / 2), c.center.y + c.radius / cos (D / 2) * sin (a1 + D / 2)⟩ := by
    unfold unit_vector_
    rw [e1, cos_neg, (cos_add_int_pi _ _).1, e2, (cos_add_int_pi _ _).1, (cos_add_int_pi _ _).2]
    ext
    · simp only [Pt.add_x, Pt.smul_x]; field_simp
    · simp only [Pt.add_y, Pt.smul_y]; field_simp
  have htanD : |tan ((a1 - a2) / 2)| = sin (D / 2) / |cos (D / 2)| := by
    rw [e1, tan_neg, tan_add_int_mul_pi, abs_neg, tan_eq_sin_div_cos, abs_div, abs_of_pos hsD]
  obtain ⟨ρ, hρ⟩ : ∃ ρ, ρ = c.radius * |tan ((a1 - a2) / 2)| := ⟨_, rfl⟩
  obtain ⟨ctr, hctre⟩ : ∃ ctr, ctr = c.center + (c.radius / cos ((a1 - a2) / 2)) • unit_vector_ ((a1 + a2) / 2) := ⟨_, rfl⟩
  have hρpos : 0 < ρ := by rw [hρ]; exact hr0
  have hcx : ctr.x - c.center.x = c.radius / cos (D / 2) * cos (a1 + D / 2) := by rw [hctre, hctr]; ring
  have hcy : ctr.y - c.center.y = c.radius / cos (D / 2) * sin (a1 + D / 2) := by rw [hctre, hctr]; ring
  have ho : Orthogonal c.center c.radius ctr ρ := by
    have t1 : cos (a1 + D / 2) ^ 2 + sin (a1 + D / 2) ^ 2 = 1 := by rw [add_comm]; exact sin_sq_add_cos_sq _
    have t2 : cos (D / 2) ^ 2 + sin (D / 2) ^ 2 = 1 := by rw [add_comm]; exact sin_sq_add_cos_sq _
    have hsq : ρ ^ 2 = c.radius ^ 2 * sin (D / 2) ^ 2 / cos (D / 2) ^ 2 := by
      rw [hρ, htanD, mul_pow, div_pow, sq_abs]; ring
    have hsd : sqDist c.center ctr = (c.radius / cos (D / 2)) ^ 2 := by
      unfold sqDist
      have x1 : c.center.x - ctr.x = -(c.radius / cos (D / 2) * cos (a1 + D / 2)) := by linarith
      have x2 : c.center.y - ctr.y = -(c.radius / cos (D / 2) * sin (a1 + D / 2)) := by linarith
      rw [x1, x2]
      linear_combination (c.radius / cos (D / 2)) ^ 2 * t1
    unfold Orthogonal
    rw [hsd, hsq]
    field_simp
    linear_combination -c.radius ^ 2 * t2
  have hin : ∀ t, Inside c.center c.radius (circlePoint ctr ρ t) ↔
      sin (D / 2) / |cos (D / 2)| + cos (t - (a1 + D / 2)) / cos (D / 2) < 0 := by
    intro t
    rw [ArcIn.inside_iff hρpos ho, hcx, hcy, hρ, htanD]
    have : c.radius * (sin (D / 2) / |cos (D / 2)|) +
        (c.radius / cos (D / 2) * cos (a1 + D / 2) * cos t + c.radius / cos (D / 2) * sin (a1 + D / 2) * sin t) =
        c.radius * (sin (D / 2) / |cos (D / 2)| + cos (t - (a1 + D / 2)) / cos (D / 2)) := by
      rw [cos_sub]; ring
    rw [this]
    constructor
    · intro hlt
      by_contra hge
      push Not at hge
      have := mul_nonneg (le_of_lt hc) hge
      linarith
    · intro hlt
      exact mul_neg_of_pos_of_neg hc hlt
  have hang : ∀ X, OnCircle ctr ρ X → ∃ t, X = circlePoint ctr ρ t := by
    intro X hX
    have hs := dist_sq X ctr
    unfold OnCircle at hX
    refine ⟨atan2 (X.y - ctr.y) (X.x - ctr.x), ?_⟩
    have hq : Real.sqrt ((X.x - ctr.x) * (X.x - ctr.x) + (X.y - ctr.y) * (X.y - ctr.y)) = ρ := by
      rw [← abs_of_pos hρpos, ← Real.sqrt_sq_eq_abs]
      congr 1
      rw [← hX]
      unfold sqDist; ring
    have c1 := atan2_cos_mul (X.x - ctr.x) (X.y - ctr.y)
    have c2 := atan2_sin_mul (X.x - ctr.x) (X.y - ctr.y)
    rw [hq] at c1 c2
    unfold circlePoint
    ext <;> dsimp only <;> linarith
  have hmod : ∀ (t s : ℝ), ∃ j : ℤ, |t - s - 2 * π * j| ≤ π ∧ circlePoint ctr ρ t = circlePoint ctr ρ (t - 2 * π * j) := by
    intro t s
    obtain ⟨j, hj⟩ : ∃ j : ℤ, pyMod (t - s + π) (2 * π) = (t - s + π) - 2 * π * j := ⟨_, rfl⟩
    have l1 := pyMod_nonneg (t - s + π) (m := 2 * π) (by positivity)
    have l2 := pyMod_lt (t - s + π) (m := 2 * π) (by positivity)
    rw [hj] at l1 l2
    refine ⟨j, abs_le.2 ⟨by linarith, by linarith⟩, ?_⟩
    unfold circlePoint
    rw [show t - 2 * π * j = t - j * (2 * π) by ring, cos_sub_int_mul_two_pi, sin_sub_int_mul_two_pi]
  have hret : c.orthogonal_through_two_points_on_circle a1 a2 true = .ok (.arc ⟨ctr, ρ,
      min (-π / 2 + (if D ≥ π then π else 0) + a1) (-π / 2 + (if D ≥ π then π else 0) - π + D + a1),
      max (-π / 2 + (if D ≥ π then π else 0) + a1) (-π / 2 + (if D ≥ π then π else 0) - π + D + a1), false⟩) := by
    unfold Circle.orthogonal_through_two_points_on_circle
    dsimp only
    rw [if_neg hm, if_pos rfl, ← hD, ← hctre]
    unfold mkArc
    rw [← hρ, if_neg (by push Not; exact hρpos)]
    rfl
  rcases lt_or_gt_of_ne hDnepi with hlt | hgt
  · have hcp : 0 < cos (D / 2) := cos_pos_of_mem_Ioo ⟨by linarith, by linarith⟩
    rw [if_neg (by linarith), min_eq_right (by linarith), max_eq_left (by linarith)] at hret
    refine ⟨_, hret, hρpos, rfl, by dsimp only; linarith, by dsimp only; linarith, ?_, ?_⟩
    · intro t h1 h2
      dsimp only at h1 h2 ⊢
      rw [hin, abs_of_pos hcp, ← add_div]
      refine div_neg_of_neg_of_pos ?_ hcp
      have h3 : cos (t - (a1 + D / 2)) = -cos (t - (a1 + D / 2) + π) := by rw [cos_add_pi]; ring
      have h4 : sin (D / 2) = cos (π / 2 - D / 2) := by rw [cos_pi_div_two_sub]
      rw [h3, h4]
      have h5 : cos (π / 2 - D / 2) < cos |t - (a1 + D / 2) + π| :=
        cos_lt_cos_of_nonneg_of_le_pi (abs_nonneg _) (by linarith) (abs_lt.2 ⟨by linarith, by linarith⟩)
      rw [cos_abs] at h5
      linarith
    · intro X hX hI
      dsimp only at hX ⊢
      obtain ⟨t0, rfl⟩ := hang X hX
      obtain ⟨j, hj, hje⟩ := hmod t0 (a1 + D / 2 - π)
      rw [hje] at hI ⊢
      obtain ⟨t, ht⟩ : ∃ t, t = t0 - 2 * π * j := ⟨_, rfl⟩
      have hj' : |t - (a1 + D / 2 - π)| ≤ π := by rw [ht]; convert hj using 2; ring
      rw [← ht] at hI ⊢
      rw [hin, abs_of_pos hcp, ← add_div, div_neg_iff] at hI
      have hI' : sin (D / 2) + cos (t - (a1 + D / 2)) < 0 := by
        rcases hI with ⟨-, hI⟩ | ⟨hI, -⟩
        · linarith
        · exact hI
      have h3 : cos (t - (a1 + D / 2)) = -cos |t - (a1 + D / 2 - π)| := by
        rw [cos_abs, show t - (a1 + D / 2 - π) = t - (a1 + D / 2) + π by ring, cos_add_pi]; ring
      have h4 : sin (D / 2) = cos (π / 2 - D / 2) := by rw [cos_pi_div_two_sub]
      rw [h3, h4] at hI'
      have h5 : |t - (a1 + D / 2 - π)| < π / 2 - D / 2 := by
        by_contra hge
        push Not at hge
        have := cos_le_cos_of_nonneg_of_le_pi (by linarith) hj' hge
        linarith
      rw [abs_lt] at h5
      exact ⟨t, by linarith, by linarith, rfl⟩
  · have hcn : cos (D / 2) < 0 := cos_neg_of_pi_div_two_lt_of_lt (by linarith) (by linarith)
    rw [if_pos (by linarith), min_eq_left (by linarith), max_eq_right (by linarith)] at hret
    refine ⟨_, hret, hρpos, rfl, by dsimp only; linarith, by dsimp only; linarith, ?_, ?_⟩
    · intro t h1 h2
      dsimp only at h1 h2 ⊢
      rw [hin, abs_of_neg hcn, div_neg, ← neg_div, ← add_div]
      refine div_neg_of_pos_of_neg ?_ hcn
      have h4 : sin (D / 2) = cos (D / 2 - π / 2) := by rw [cos_sub_pi_div_two]
      rw [h4]
      have h5 : cos (D / 2 - π / 2) < cos |t - (a1 + D / 2)| :=
        cos_lt_cos_of_nonneg_of_le_pi (abs_nonneg _) (by linarith) (abs_lt.2 ⟨by linarith, by linarith⟩)
      rw [cos_abs] at h5
      linarith
    · intro X hX hI
      dsimp only at hX ⊢
      obtain ⟨t0, rfl⟩ := hang X hX
      obtain ⟨j, hj, hje⟩ := hmod t0 (a1 + D / 2)
      rw [hje] at hI ⊢
      obtain ⟨t, ht⟩ : ∃ t, t = t0 - 2 * π * j := ⟨_, rfl⟩
      have hj' : |t - (a1 + D / 2)| ≤ π := by rw [ht]; convert hj using 2; ring
      rw [← ht] at hI ⊢
      rw [hin, abs_of_neg hcn, div_neg, ← neg_div, ← add_div, div_neg_iff] at hI
      have hI' : 0 < -sin (D / 2) + cos (t - (a1 + D / 2)) := by
        rcases hI with ⟨hI, -⟩ | ⟨-, hI⟩
        · exact hI
        · linarith
      have h3 : cos (t - (a1 + D / 2)) = cos |t - (a1 + D / 2)| := by rw [cos_abs]
      have h4 : sin (D / 2) = cos (D / 2 - π / 2) := by rw [cos_sub_pi_div_two]
      rw [h3, h4] at hI'
      have h5 : |t - (a1 + D / 2)| < D / 2 - π / 2 := by
        by_contra hge
        push Not at hge
        have := cos_le_cos_of_nonneg_of_le_pi (by linarith) hj' hge
        linarith
      rw [abs_lt] at h5
      exact ⟨t, by linarith, by linarith, rfl⟩

theorem ArcIn.starting_point_eq (a : Arc) (hd : a.degrees = false) :
    a.starting_point = circlePoint a.center a.radius a.alpha1 ∧ a.ending_point = circlePoint a.center a.radius a.alpha2 := by
  unfold Arc.starting_point Arc.ending_point circlePoint unit_vector_
  rw [hd]
  constructor <;> ext <;> simp

/-- C82: all the points of the path of the returned arc are in the closed reference disk. -/
theorem C82_arc_path (c : Circle) (hc : c.Valid) (a1 a2 : ℝ) (h : ∀ n : ℤ, a1 - a2 ≠ n * π) (a : Arc)
    (ha : c.orthogonal_through_two_points_on_circle a1 a2 true = .ok (.arc a)) (n : ℤ) (L : List Pt) (hL : a.path n = .ok L) :
    ∀ X ∈ L, sqDist X c.center ≤ c.radius ^ 2 := by
  obtain ⟨a', ha', hr, hd, l1, l2, hin, -⟩ := C82_arc_on_circle c hc a1 a2 h
  rw [ha] at ha'
  have : a = a' := by simpa using ha'
  subst this
  obtain ⟨o, a'', -, ha'', -, -, hends⟩ := C17_orthogonal_on_circle_arc c hc a1 a2 h
  rw [ha] at ha''
  have : a = a'' := by simpa using ha''
  subst this
  have hon : ∀ α, sqDist (c.point_from_angle α false) c.center ≤ c.radius ^ 2 := by
    intro α
    rw [(C14_point_from_angle c hc α).1]
    unfold sqDist
    have h1 : cos α ^ 2 + sin α ^ 2 = 1 := by rw [add_comm]; exact sin_sq_add_cos_sq α
    apply le_of_eq
    dsimp only
    linear_combination c.radius ^ 2 * h1
  intro X hX
  obtain ⟨t, t1, t2, rfl⟩ := ArcIn.path_onArc a hd l1.le (by linarith [pi_pos]) n L hL X hX
  obtain ⟨s1, s2⟩ := ArcIn.starting_point_eq a hd
  rcases eq_or_lt_of_le t1 with rfl | t1
  · rw [← s1]
    rcases hends with ⟨e, -⟩ | ⟨e, -⟩ <;> rw [e] <;> exact hon _
  rcases eq_or_lt_of_le t2 with rfl | t2
  · rw [← s2]
    rcases hends with ⟨-, e⟩ | ⟨-, e⟩ <;> rw [e] <;> exact hon _
  exact le_of_lt (hin t t1 t2)

/-- The hypotheses of C82 are satisfiable. -/
example : ∃ a, (⟨⟨1, 2⟩, 3⟩ : Circle).orthogonal_through_two_points_on_circle 0 1 true = .ok (.arc a) := by
  obtain ⟨a, ha, -⟩ := C82_arc_on_circle ⟨⟨1, 2⟩, 3⟩ (by norm_num [Circle.Valid]) 0 1 (by
    intro n hn
    have h3 := pi_gt_three
    have hpi := pi_pos
    rcases le_or_gt 0 n with hn0 | hn0
    · have : (0 : ℝ) ≤ n := by exact_mod_cast hn0
      have := mul_nonneg this hpi.le
      linarith
    · have : (n : ℝ) ≤ -1 := by exact_mod_cast (by omega : n ≤ -1)
      nlinarith)
  exact ⟨a, ha⟩

/-! ### C83 -/

/-- What `orthogonal_through_two_points_in_circle(arc=True)` returns: angles of `[0, 2π)` in increasing order. -/
theorem ArcIn.in_circle_shape (c : Circle) (P1 P2 : Pt) (o : Arc)
    (h : c.orthogonal_through_two_points_in_circle P1 P2 true = .ok (.arc o)) :
    0 < o.radius ∧ o.degrees = false ∧ 0 ≤ o.alpha1 ∧ o.alpha1 ≤ o.alpha2 ∧ o.alpha2 < 2 * π := by
  have hpi := pi_pos
  unfold Circle.orthogonal_through_two_points_in_circle at h
  dsimp only at h
  split_ifs at h with g1 g2 g3 g4 g5
  · simp only [Res.bind_ok, Res.pure_ok] at h
    obtain ⟨l, -, h⟩ := h
    simp at h
  · cases e1 : Inversion.invert ⟨c.center, c.radius * c.radius⟩ (.fin P1) with
    | inf => rw [e1] at h; simp at h
    | fin Q1 =>
    cases e2 : Inversion.invert ⟨c.center, c.radius * c.radius⟩ (.fin P2) with
    | inf => rw [e1, e2] at h; simp at h
    | fin Q2 =>
    rw [e1, e2] at h
    simp only [Res.bind_ok, Res.pure_ok] at h
    obtain ⟨l1, m1, l2, m2, p1, n1, p2, n2, h⟩ := h
    cases hO : line_line_intersection_ p1.A p1.B p2.A p2.B with
    | none => rw [hO] at h; simp at h
    | some O =>
    rw [hO] at h
    simp only [Res.bind_ok, Res.pure_ok, Circle.OrthRes.arc.injEq] at h
    obtain ⟨o', h1, rfl⟩ := h
    unfold mkArc at h1
    split_ifs at h1 with hr
    injection h1 with h1
    rw [← h1]
    refine ⟨by push Not at hr; exact hr, rfl, ?_, min_le_max, ?_⟩
    · exact le_min (pyMod_nonneg _ (by positivity)) (pyMod_nonneg _ (by positivity))
    · exact max_lt (pyMod_lt _ (by positivity)) (pyMod_lt _ (by positivity))
  · simp at g5

/-- C83 (part): for two points strictly inside the reference circle, the returned arc stays inside the circle exactly when
its angle is less than `π`; the code does not ensure this, see `C83_arc_counterexample`. -/
theorem C83_arc_in_circle_partial (c : Circle) (P1 P2 : Pt) (h1 : Inside c.center c.radius P1) (h2 : Inside c.center c.radius P2)
    (o : Arc) (h : c.orthogonal_through_two_points_in_circle P1 P2 true = .ok (.arc o)) :
    (∀ X, OnArc o.center o.radius o.alpha1 o.alpha2 X → Inside c.center c.radius X) ↔ o.alpha2 - o.alpha1 < π := by
  obtain ⟨hr, hd, l0, l1, l2⟩ := ArcIn.in_circle_shape c P1 P2 o h
  obtain ⟨ho, hends⟩ := C18_orthogonal_in_circle_arc c P1 P2 o h
  obtain ⟨s1, s2⟩ := ArcIn.starting_point_eq o hd
  have i1 : Inside c.center c.radius (circlePoint o.center o.radius o.alpha1) := by
    rw [← s1]; rcases hends with ⟨e, -⟩ | ⟨e, -⟩ <;> rw [e] <;> assumption
  have i2 : Inside c.center c.radius (circlePoint o.center o.radius o.alpha2) := by
    rw [← s2]; rcases hends with ⟨-, e⟩ | ⟨-, e⟩ <;> rw [e] <;> assumption
  rw [ArcIn.inside_iff hr ho] at i1 i2
  constructor
  · intro hall
    by_contra hge
    push Not at hge
    have hm := ArcIn.middle hr i1 i2 hge (by linarith)
    have := hall (circlePoint o.center o.radius ((o.alpha1 + o.alpha2) / 2)) ⟨_, by linarith, by linarith, rfl⟩
    rw [ArcIn.inside_iff hr ho] at this
    linarith
  · rintro hlt X ⟨t, t1, t2, rfl⟩
    rw [ArcIn.inside_iff hr ho]
    exact ArcIn.between hr i1 i2 t1 t2 hlt

/-- C83 fails: for the unit circle and the points `(-1/2, 1/2)` and `(-1/2, -1/2)`, the returned arc goes around the other
way and leaves the disk. -/
theorem C83_arc_counterexample :
    Inside ⟨0, 0⟩ 1 ⟨-1 / 2, 1 / 2⟩ ∧ Inside ⟨0, 0⟩ 1 ⟨-1 / 2, -1 / 2⟩ ∧
    ∃ o : Arc, (⟨⟨0, 0⟩, 1⟩ : Circle).orthogonal_through_two_points_in_circle ⟨-1 / 2, 1 / 2⟩ ⟨-1 / 2, -1 / 2⟩ true = .ok (.arc o) ∧
      ∃ X, OnArc o.center o.radius o.alpha1 o.alpha2 X ∧ ¬ Inside ⟨0, 0⟩ 1 X := by
  have hpi := pi_pos
  have in1 : Inside ⟨0, 0⟩ 1 ⟨-1 / 2, 1 / 2⟩ := by unfold Inside sqDist; norm_num
  have in2 : Inside ⟨0, 0⟩ 1 ⟨-1 / 2, -1 / 2⟩ := by unfold Inside sqDist; norm_num
  have d1 : distance_ (⟨-1 / 2, 1 / 2⟩ : Pt) ⟨0, 0⟩ < 1 := by
    rw [distance_eq, Spec.dist, Real.sqrt_lt' (by norm_num)]; unfold sqDist; norm_num
  have d2 : distance_ (⟨-1 / 2, -1 / 2⟩ : Pt) ⟨0, 0⟩ < 1 := by
    rw [distance_eq, Spec.dist, Real.sqrt_lt' (by norm_num)]; unfold sqDist; norm_num
  have c0 : ¬ collinear_ (⟨0, 0⟩ : Pt) ⟨-1 / 2, 1 / 2⟩ ⟨-1 / 2, -1 / 2⟩ := by
    rw [collinear_iff]; unfold allclose npClose Collinear cross; norm_num [abs_of_pos, abs_of_neg]
  have i1 : Inversion.invert ⟨⟨0, 0⟩, 1 * 1⟩ (.fin ⟨-1 / 2, 1 / 2⟩) = .fin ⟨-1, 1⟩ := by
    unfold Inversion.invert
    dsimp only
    rw [if_neg (by unfold allclose npClose; norm_num [abs_of_pos, abs_of_neg])]
    congr 1; ext <;> simp [dot1_, dot_] <;> norm_num
  have i2 : Inversion.invert ⟨⟨0, 0⟩, 1 * 1⟩ (.fin ⟨-1 / 2, -1 / 2⟩) = .fin ⟨-1, -1⟩ := by
    unfold Inversion.invert
    dsimp only
    rw [if_neg (by unfold allclose npClose; norm_num [abs_of_pos, abs_of_neg])]
    congr 1; ext <;> simp [dot1_, dot_] <;> norm_num
  have v1 : (⟨⟨-1 / 2, 1 / 2⟩, ⟨-1, 1⟩, true, true⟩ : Line).Valid := by
    unfold Line.Valid allclose npClose; norm_num [abs_of_pos, abs_of_neg]
  have v2 : (⟨⟨-1 / 2, -1 / 2⟩, ⟨-1, -1⟩, true, true⟩ : Line).Valid := by
    unfold Line.Valid allclose npClose; norm_num [abs_of_pos, abs_of_neg]
  have m1 : mkLine (⟨-1 / 2, 1 / 2⟩ : Pt) ⟨-1, 1⟩ = .ok ⟨⟨-1 / 2, 1 / 2⟩, ⟨-1, 1⟩, true, true⟩ := mkLine_ok.2 ⟨v1, rfl⟩
  have m2 : mkLine (⟨-1 / 2, -1 / 2⟩ : Pt) ⟨-1, -1⟩ = .ok ⟨⟨-1 / 2, -1 / 2⟩, ⟨-1, -1⟩, true, true⟩ := mkLine_ok.2 ⟨v2, rfl⟩
  have n1 : (⟨⟨-1 / 2, 1 / 2⟩, ⟨-1, 1⟩, true, true⟩ : Line).perpendicular (((⟨-1 / 2, 1 / 2⟩ : Pt) + ⟨-1, 1⟩) / (2 : ℝ)) =
      .ok ⟨⟨-3 / 4, 3 / 4⟩, ⟨-5 / 4, 1 / 4⟩, true, true⟩ := by
    unfold Line.perpendicular
    dsimp only
    rw [if_pos ((C05_includes _ v1 _).2 (Or.inl ⟨1 / 2, by ext <;> simp <;> norm_num⟩))]
    rw [mkLine_ok]
    constructor
    · unfold allclose npClose; norm_num [abs_of_pos, abs_of_neg]
    · ext <;> norm_num
  have n2 : (⟨⟨-1 / 2, -1 / 2⟩, ⟨-1, -1⟩, true, true⟩ : Line).perpendicular (((⟨-1 / 2, -1 / 2⟩ : Pt) + ⟨-1, -1⟩) / (2 : ℝ)) =
      .ok ⟨⟨-3 / 4, -3 / 4⟩, ⟨-1 / 4, -5 / 4⟩, true, true⟩ := by
    unfold Line.perpendicular
    dsimp only
    rw [if_pos ((C05_includes _ v2 _).2 (Or.inl ⟨1 / 2, by ext <;> simp <;> norm_num⟩))]
    rw [mkLine_ok]
    constructor
    · unfold allclose npClose; norm_num [abs_of_pos, abs_of_neg]
    · ext <;> norm_num
  have hO : line_line_intersection_ (⟨-3 / 4, 3 / 4⟩ : Pt) ⟨-5 / 4, 1 / 4⟩ ⟨-3 / 4, -3 / 4⟩ ⟨-1 / 4, -5 / 4⟩ = some ⟨-3 / 2, 0⟩ := by
    unfold line_line_intersection_ det2x2_
    dsimp only
    rw [if_neg (by norm_num)]
    congr 1; ext <;> norm_num
  have hp : 0 < distance_ (⟨-3 / 2, 0⟩ : Pt) ⟨-1 / 2, 1 / 2⟩ := by
    rw [distance_eq]; apply Real.sqrt_pos.2; unfold sqDist; norm_num
  obtain ⟨u, hu⟩ : ∃ u, u = atan2 ((⟨-1 / 2, 1 / 2⟩ : Pt).y - (⟨-3 / 2, 0⟩ : Pt).y) ((⟨-1 / 2, 1 / 2⟩ : Pt).x - (⟨-3 / 2, 0⟩ : Pt).x) := ⟨_, rfl⟩
  obtain ⟨w, hw⟩ : ∃ w, w = atan2 ((⟨-1 / 2, -1 / 2⟩ : Pt).y - (⟨-3 / 2, 0⟩ : Pt).y) ((⟨-1 / 2, -1 / 2⟩ : Pt).x - (⟨-3 / 2, 0⟩ : Pt).x) := ⟨_, rfl⟩
  have hu0 : 0 ≤ u := by
    rw [hu, atan2, Complex.arg_nonneg_iff]; norm_num
  have hu1 : u < π / 2 := by
    have : |u| < π / 2 := by
      rw [hu, atan2, Complex.abs_arg_lt_pi_div_two_iff]; left; norm_num
    exact (abs_lt.1 this).2
  have hw0 : w < 0 := by
    rw [hw, atan2, Complex.arg_neg_iff]; norm_num
  have hw1 : -(π / 2) < w := by
    have : |w| < π / 2 := by
      rw [hw, atan2, Complex.abs_arg_lt_pi_div_two_iff]; left; norm_num
    exact (abs_lt.1 this).1
  have hmu : pyMod u (2 * π) = u := pyMod_eq_self hu0 (by linarith)
  have hmw : pyMod w (2 * π) = w + 2 * π := by
    rw [← pyMod_add_int_mul w (by positivity : (2 * π) ≠ 0) 1]
    rw [pyMod_eq_self (by push_cast; linarith) (by push_cast; linarith)]
    push_cast; ring
  have hret : (⟨⟨0, 0⟩, 1⟩ : Circle).orthogonal_through_two_points_in_circle ⟨-1 / 2, 1 / 2⟩ ⟨-1 / 2, -1 / 2⟩ true =
      .ok (.arc ⟨⟨-3 / 2, 0⟩, distance_ (⟨-3 / 2, 0⟩ : Pt) ⟨-1 / 2, 1 / 2⟩, u, w + 2 * π, false⟩) := by
    unfold Circle.orthogonal_through_two_points_in_circle
    dsimp only
    rw [if_neg (by unfold allclose npClose; norm_num [abs_of_pos, abs_of_neg]), if_neg (by linarith), if_neg (by linarith), if_neg c0, i1, i2]
    dsimp only
    rw [m1, Res.ok_bind, m2, Res.ok_bind, n1, Res.ok_bind, n2, Res.ok_bind]
    dsimp only
    rw [hO]
    dsimp only at hu hw ⊢
    rw [if_pos rfl, ← hu, ← hw, hmu, hmw, min_eq_left (by linarith), max_eq_right (by linarith)]
    unfold mkArc
    rw [if_neg (by linarith)]
    rfl
  refine ⟨in1, in2, _, hret, ?_⟩
  have hnot := (C83_arc_in_circle_partial ⟨⟨0, 0⟩, 1⟩ _ _ in1 in2 _ hret).not.2 (by dsimp only; linarith)
  push Not at hnot
  exact hnot

/-- A case where the arc is right: for the unit circle and the points `(1/2, 1/2)` and `(1/2, -1/2)`, on the side of the
positive axis, the returned arc is the part inside the disk. -/
example : ∃ o : Arc, (⟨⟨0, 0⟩, 1⟩ : Circle).orthogonal_through_two_points_in_circle ⟨1 / 2, 1 / 2⟩ ⟨1 / 2, -1 / 2⟩ true = .ok (.arc o) ∧
    ∀ X, OnArc o.center o.radius o.alpha1 o.alpha2 X → Inside ⟨0, 0⟩ 1 X := by

  have hpi := pi_pos
  have in1 : Inside ⟨0, 0⟩ 1 ⟨1 / 2, 1 / 2⟩ := by unfold Inside sqDist; norm_num
  have in2 : Inside ⟨0, 0⟩ 1 ⟨1 / 2, -1 / 2⟩ := by unfold Inside sqDist; norm_num
  have d1 : distance_ (⟨1 / 2, 1 / 2⟩ : Pt) ⟨0, 0⟩ < 1 := by
    rw [distance_eq, Spec.dist, Real.sqrt_lt' (by norm_num)]; unfold sqDist; norm_num
  have d2 : distance_ (⟨1 / 2, -1 / 2⟩ : Pt) ⟨0, 0⟩ < 1 := by
    rw [distance_eq, Spec.dist, Real.sqrt_lt' (by norm_num)]; unfold sqDist; norm_num
  have c0 : ¬ collinear_ (⟨0, 0⟩ : Pt) ⟨1 / 2, 1 / 2⟩ ⟨1 / 2, -1 / 2⟩ := by
    rw [collinear_iff]; unfold allclose npClose Collinear cross; norm_num [abs_of_pos, abs_of_neg]
  have i1 : Inversion.invert ⟨⟨0, 0⟩, 1 * 1⟩ (.fin ⟨1 / 2, 1 / 2⟩) = .fin ⟨1, 1⟩ := by
    unfold Inversion.invert
    dsimp only
    rw [if_neg (by unfold allclose npClose; norm_num [abs_of_pos, abs_of_neg])]
    congr 1; ext <;> simp [dot1_, dot_] <;> norm_num
  have i2 : Inversion.invert ⟨⟨0, 0⟩, 1 * 1⟩ (.fin ⟨1 / 2, -1 / 2⟩) = .fin ⟨1, -1⟩ := by
    unfold Inversion.invert
    dsimp only
    rw [if_neg (by unfold allclose npClose; norm_num [abs_of_pos, abs_of_neg])]
    congr 1; ext <;> simp [dot1_, dot_] <;> norm_num
  have v1 : (⟨⟨1 / 2, 1 / 2⟩, ⟨1, 1⟩, true, true⟩ : Line).Valid := by
    unfold Line.Valid allclose npClose; norm_num [abs_of_pos, abs_of_neg]
  have v2 : (⟨⟨1 / 2, -1 / 2⟩, ⟨1, -1⟩, true, true⟩ : Line).Valid := by
    unfold Line.Valid allclose npClose; norm_num [abs_of_pos, abs_of_neg]
  have m1 : mkLine (⟨1 / 2, 1 / 2⟩ : Pt) ⟨1, 1⟩ = .ok ⟨⟨1 / 2, 1 / 2⟩, ⟨1, 1⟩, true, true⟩ := mkLine_ok.2 ⟨v1, rfl⟩
  have m2 : mkLine (⟨1 / 2, -1 / 2⟩ : Pt) ⟨1, -1⟩ = .ok ⟨⟨1 / 2, -1 / 2⟩, ⟨1, -1⟩, true, true⟩ := mkLine_ok.2 ⟨v2, rfl⟩
  have n1 : (⟨⟨1 / 2, 1 / 2⟩, ⟨1, 1⟩, true, true⟩ : Line).perpendicular (((⟨1 / 2, 1 / 2⟩ : Pt) + ⟨1, 1⟩) / (2 : ℝ)) =
      .ok ⟨⟨3 / 4, 3 / 4⟩, ⟨1 / 4, 5 / 4⟩, true, true⟩ := by
    unfold Line.perpendicular
    dsimp only
    rw [if_pos ((C05_includes _ v1 _).2 (Or.inl ⟨1 / 2, by ext <;> simp <;> norm_num⟩))]
    rw [mkLine_ok]
    constructor
    · unfold allclose npClose; norm_num [abs_of_pos, abs_of_neg]
    · ext <;> norm_num
  have n2 : (⟨⟨1 / 2, -1 / 2⟩, ⟨1, -1⟩, true, true⟩ : Line).perpendicular (((⟨1 / 2, -1 / 2⟩ : Pt) + ⟨1, -1⟩) / (2 : ℝ)) =
      .ok ⟨⟨3 / 4, -3 / 4⟩, ⟨5 / 4, -1 / 4⟩, true, true⟩ := by
    unfold Line.perpendicular
    dsimp only
    rw [if_pos ((C05_includes _ v2 _).2 (Or.inl ⟨1 / 2, by ext <;> simp <;> norm_num⟩))]
    rw [mkLine_ok]
    constructor
    · unfold allclose npClose; norm_num [abs_of_pos, abs_of_neg]
    · ext <;> norm_num
  have hO : line_line_intersection_ (⟨3 / 4, 3 / 4⟩ : Pt) ⟨1 / 4, 5 / 4⟩ ⟨3 / 4, -3 / 4⟩ ⟨5 / 4, -1 / 4⟩ = some ⟨3 / 2, 0⟩ := by
    unfold line_line_intersection_ det2x2_
    dsimp only
    rw [if_neg (by norm_num)]
    congr 1; ext <;> norm_num
  have hp : 0 < distance_ (⟨3 / 2, 0⟩ : Pt) ⟨1 / 2, 1 / 2⟩ := by
    rw [distance_eq]; apply Real.sqrt_pos.2; unfold sqDist; norm_num
  obtain ⟨u, hu⟩ : ∃ u, u = atan2 ((⟨1 / 2, 1 / 2⟩ : Pt).y - (⟨3 / 2, 0⟩ : Pt).y) ((⟨1 / 2, 1 / 2⟩ : Pt).x - (⟨3 / 2, 0⟩ : Pt).x) := ⟨_, rfl⟩
  obtain ⟨w, hw⟩ : ∃ w, w = atan2 ((⟨1 / 2, -1 / 2⟩ : Pt).y - (⟨3 / 2, 0⟩ : Pt).y) ((⟨1 / 2, -1 / 2⟩ : Pt).x - (⟨3 / 2, 0⟩ : Pt).x) := ⟨_, rfl⟩
  have hu0 : 0 ≤ u := by
    rw [hu, atan2, Complex.arg_nonneg_iff]; norm_num
  have hu1 : π / 2 < u := by
    have : π / 2 < |u| := by
      rw [← not_le, hu, atan2, Complex.abs_arg_le_pi_div_two_iff]; norm_num
    rwa [abs_of_nonneg hu0] at this
  have hu2 : u ≤ π := by rw [hu, atan2]; exact Complex.arg_le_pi _
  have hw0 : w < 0 := by
    rw [hw, atan2, Complex.arg_neg_iff]; norm_num
  have hw1 : w < -(π / 2) := by
    have : π / 2 < |w| := by
      rw [← not_le, hw, atan2, Complex.abs_arg_le_pi_div_two_iff]; norm_num
    rw [abs_of_neg hw0] at this
    linarith
  have hw2 : -π < w := by rw [hw, atan2]; exact Complex.neg_pi_lt_arg _
  have hmu : pyMod u (2 * π) = u := pyMod_eq_self hu0 (by linarith)
  have hmw : pyMod w (2 * π) = w + 2 * π := by
    rw [← pyMod_add_int_mul w (by positivity : (2 * π) ≠ 0) 1]
    rw [pyMod_eq_self (by push_cast; linarith) (by push_cast; linarith)]
    push_cast; ring
  have hret : (⟨⟨0, 0⟩, 1⟩ : Circle).orthogonal_through_two_points_in_circle ⟨1 / 2, 1 / 2⟩ ⟨1 / 2, -1 / 2⟩ true =
      .ok (.arc ⟨⟨3 / 2, 0⟩, distance_ (⟨3 / 2, 0⟩ : Pt) ⟨1 / 2, 1 / 2⟩, u, w + 2 * π, false⟩) := by
    unfold Circle.orthogonal_through_two_points_in_circle
    dsimp only
    rw [if_neg (by unfold allclose npClose; norm_num [abs_of_pos, abs_of_neg]), if_neg (by linarith), if_neg (by linarith), if_neg c0, i1, i2]
    dsimp only
    rw [m1, Res.ok_bind, m2, Res.ok_bind, n1, Res.ok_bind, n2, Res.ok_bind]
    dsimp only
    rw [hO]
    dsimp only at hu hw ⊢
    rw [if_pos rfl, ← hu, ← hw, hmu, hmw, min_eq_left (by linarith), max_eq_right (by linarith)]
    unfold mkArc
    rw [if_neg (by linarith)]
    rfl
  exact ⟨_, hret, (C83_arc_in_circle_partial ⟨⟨0, 0⟩, 1⟩ _ _ in1 in2 _ hret).2 (by dsimp only; linarith)⟩
