import Verif.Props.Ellipse

/-!
# C66, C69, C77, C71, C73: ellipses from equations, angles, equality of ellipses, arcs
-/

open Spec Real Classical

/-! ### C66 -/

/-- What the guards of `from_equation` give. -/
theorem from_equation_ok {A B C D E F : ℝ} {ev : ℝ × ℝ} {e : Ellipse}
    (h : Ellipse.from_equation A B C D E F ev = .ok e) :
    0 < A * C ∧ 0 < 4 * A * C - B * B ∧ ∃ N a b : ℝ, N ≠ 0 ∧
      N = Coeffs.k ⟨A, B, C, D, E, F⟩ / 4 ∧
      0 < a ∧ 0 < b ∧ ev.1 * a ^ 2 = N / ((4 * A * C - B * B) / 4) ∧ ev.2 * b ^ 2 = N / ((4 * A * C - B * B) / 4) ∧
      e = ⟨(⟨B * E - 2 * C * D, B * D - 2 * A * E⟩ : Pt) / (4 * A * C - B * B), max a b, min a b,
        pyMod ((if A = C then 0 else
          if |C| > |A| then Real.arctan (B / (A - C)) / 2 else Real.pi / 2 - Real.arctan (-B / (A - C)) / 2) * 180 / π) 180,
        true⟩ := by
  unfold Ellipse.from_equation at h
  by_cases h1 : A * C ≤ 0 ∨ B * B - 4 * A * C ≥ 0 ∨ D * D + E * E ≤ 4 * (A + C) * F
  · rw [if_pos h1] at h; simp at h
  rw [if_neg h1] at h
  push Not at h1
  dsimp only at h
  by_cases h2 : Matrix.det !![2 * A, B, D; B, 2 * C, E; D, E, 2 * F] = 0
  · rw [if_pos h2] at h; simp at h
  rw [if_neg h2] at h
  obtain ⟨g1, g2, g3⟩ := h1
  have hdM : Matrix.det !![A, B / 2; B / 2, C] = (4 * A * C - B * B) / 4 := by
    rw [Matrix.det_fin_two]; simp; ring
  have hpos : 0 < 4 * A * C - B * B := by linarith
  have hpos' := hpos.ne'
  have hdM0 : -Matrix.det !![F, D / 2, E / 2; D / 2, A, B / 2; E / 2, B / 2, C] =
      Coeffs.k ⟨A, B, C, D, E, F⟩ / 4 := by
    rw [Matrix.det_fin_three]; unfold Coeffs.k; simp; ring
  have hN : -Matrix.det !![F, D / 2, E / 2; D / 2, A, B / 2; E / 2, B / 2, C] ≠ 0 := by
    have : Matrix.det !![2 * A, B, D; B, 2 * C, E; D, E, 2 * F] =
        8 * Matrix.det !![F, D / 2, E / 2; D / 2, A, B / 2; E / 2, B / 2, C] := by
      rw [Matrix.det_fin_three, Matrix.det_fin_three]; simp; ring
    rw [this] at h2
    intro h0
    apply h2
    linarith
  rw [hdM] at h
  obtain ⟨N, hNe⟩ : ∃ N, N = -Matrix.det !![F, D / 2, E / 2; D / 2, A, B / 2; E / 2, B / 2, C] := ⟨_, rfl⟩
  rw [← hNe] at h hN hdM0
  obtain ⟨qa, k1, k2⟩ := Res.bind_ok.1 h
  obtain ⟨a, k3, k4⟩ := Res.bind_ok.1 k2
  obtain ⟨qb, k5, k6⟩ := Res.bind_ok.1 k4
  obtain ⟨b, k7, k8⟩ := Res.bind_ok.1 k6
  clear h k2 k4 k6
  unfold npDiv at k1 k5
  unfold pySqrt at k3 k7
  split_ifs at k1 k5 k3 k7 with c1 c2 c3 c4
  simp only [Except.ok.injEq] at k1 k3 k5 k7
  have v1 : ev.1 ≠ 0 := by intro h0; apply c1; rw [h0, mul_zero]
  have v2 : ev.2 ≠ 0 := by intro h0; apply c2; rw [h0, mul_zero]
  have e1 : ev.1 * a ^ 2 = N / ((4 * A * C - B * B) / 4) := by
    rw [← k3, Real.sq_sqrt (not_lt.1 c3), ← k1]
    field_simp
  have e2 : ev.2 * b ^ 2 = N / ((4 * A * C - B * B) / 4) := by
    rw [← k7, Real.sq_sqrt (not_lt.1 c4), ← k5]
    field_simp
  have hNd : N / ((4 * A * C - B * B) / 4) ≠ 0 := div_ne_zero hN (by linarith)
  have ha : 0 < a := by
    rcases (show 0 ≤ a by rw [← k3]; exact Real.sqrt_nonneg _).lt_or_eq with h | h
    · exact h
    · exfalso; apply hNd; rw [← e1, ← h]; ring
  have hb : 0 < b := by
    rcases (show 0 ≤ b by rw [← k7]; exact Real.sqrt_nonneg _).lt_or_eq with h | h
    · exact h
    · exfalso; apply hNd; rw [← e2, ← h]; ring
  refine ⟨g1, hpos, N, a, b, hN, hdM0, ha, hb, e1, e2, ?_⟩
  unfold mkEllipse at k8
  rw [if_neg (not_le.2 (lt_max_of_lt_left ha)), if_neg (not_le.2 (lt_min ha hb))] at k8
  exact (Except.ok.inj k8).symm

/-- The axis angle chosen by `from_equation`. -/
theorem from_equation_axis {A B C l1 l2 φ : ℝ} (hAC : 0 < A * C) (hs : l1 + l2 = A + C) (hp : l1 * l2 = A * C - B * B / 4)
    (hlt : 0 < l1 * l2) (hle : |l1| ≤ |l2|) (hok : A ≠ C ∨ B = 0)
    (hφ : φ = if A = C then 0 else
      if |C| > |A| then Real.arctan (B / (A - C)) / 2 else Real.pi / 2 - Real.arctan (-B / (A - C)) / 2) :
    A = l1 * cos φ ^ 2 + l2 * sin φ ^ 2 ∧ B = 2 * (l1 - l2) * (cos φ * sin φ) ∧
    C = l1 * sin φ ^ 2 + l2 * cos φ ^ 2 := by
  have hd : (l1 - l2) ^ 2 = (A - C) ^ 2 + B ^ 2 := by
    linear_combination (l1 + l2 + A + C) * hs - 4 * hp
  have hcs := sin_sq_add_cos_sq φ
  suffices h : (l1 - l2) * cos (2 * φ) = A - C ∧ (l1 - l2) * sin (2 * φ) = B by
    obtain ⟨h1, h2⟩ := h
    rw [cos_two_mul] at h1
    rw [sin_two_mul] at h2
    refine ⟨?_, ?_, ?_⟩
    · linear_combination (-1 / 2) * hs - 1 / 2 * h1 - l2 * hcs
    · linear_combination -h2
    · linear_combination (-1 / 2) * hs + 1 / 2 * h1 - l1 * hcs
  by_cases hAC' : A = C
  · have hB : B = 0 := by tauto
    rw [if_pos hAC'] at hφ
    subst hAC'
    subst hB
    have : l1 - l2 = 0 := by
      have : (l1 - l2) ^ 2 = 0 := by rw [hd]; ring
      simpa using this
    rw [this]; simp
  · rw [if_neg hAC'] at hφ
    have hne : A - C ≠ 0 := sub_ne_zero.2 hAC'
    obtain ⟨r, hr⟩ : ∃ r, r = B / (A - C) := ⟨_, rfl⟩
    have hrB : r * (A - C) = B := by rw [hr]; field_simp
    obtain ⟨w, hw⟩ : ∃ w, w = sqrt (1 + r ^ 2) := ⟨_, rfl⟩
    have hw2 : w ^ 2 = 1 + r ^ 2 := by rw [hw]; exact Real.sq_sqrt (by positivity)
    have hw0 : 0 < w := by rw [hw]; exact Real.sqrt_pos.2 (by positivity)
    have hc : cos (arctan r) = 1 / w := by rw [hw]; exact cos_arctan r
    have hsn : sin (arctan r) = r / w := by rw [hw]; exact sin_arctan r
    have hsq : (l1 - l2) ^ 2 = (w * (A - C)) ^ 2 := by
      rw [hd, mul_pow, hw2, ← hrB]; ring
    -- signs
    have hsgn : (0 < A ∧ 0 < C ∧ l1 ≤ l2) ∨ (A < 0 ∧ C < 0 ∧ l2 ≤ l1) := by
      rcases mul_pos_iff.1 hAC with ⟨a1, a2⟩ | ⟨a1, a2⟩
      · left
        rcases mul_pos_iff.1 hlt with ⟨b1, b2⟩ | ⟨b1, b2⟩
        · rw [abs_of_pos b1, abs_of_pos b2] at hle
          exact ⟨a1, a2, hle⟩
        · linarith
      · right
        rcases mul_pos_iff.1 hlt with ⟨b1, b2⟩ | ⟨b1, b2⟩
        · linarith
        · rw [abs_of_neg b1, abs_of_neg b2] at hle
          exact ⟨a1, a2, by linarith⟩
    by_cases hlt' : |C| > |A|
    · rw [if_pos hlt', ← hr] at hφ
      have h2φ : 2 * φ = arctan r := by rw [hφ]; ring
      rw [h2φ, hc, hsn]
      have hl : l1 - l2 = w * (A - C) := by
        rcases sq_eq_sq_iff_eq_or_eq_neg.1 hsq with h | h
        · exact h
        · exfalso
          rcases hsgn with ⟨a1, a2, a3⟩ | ⟨a1, a2, a3⟩
          · rw [abs_of_pos a1, abs_of_pos a2] at hlt'
            have : w * (A - C) < 0 := mul_neg_of_pos_of_neg hw0 (by linarith)
            linarith
          · rw [abs_of_neg a1, abs_of_neg a2] at hlt'
            have : 0 < w * (A - C) := mul_pos hw0 (by linarith)
            linarith
      rw [hl]
      constructor
      · field_simp
      · field_simp; linarith
    · rw [if_neg hlt'] at hφ
      have hφ2 : 2 * φ = π + arctan r := by
        rw [hφ, show -B / (A - C) = -r by rw [hr]; ring, arctan_neg]; ring
      rw [hφ2, add_comm, cos_add_pi, sin_add_pi, hc, hsn]
      have hl : l1 - l2 = -(w * (A - C)) := by
        rcases sq_eq_sq_iff_eq_or_eq_neg.1 hsq with h | h
        · exfalso
          push Not at hlt'
          rcases hsgn with ⟨a1, a2, a3⟩ | ⟨a1, a2, a3⟩
          · rw [abs_of_pos a1, abs_of_pos a2] at hlt'
            have : 0 < w * (A - C) := mul_pos hw0 (lt_of_le_of_ne (by linarith) (Ne.symm hne))
            linarith
          · rw [abs_of_neg a1, abs_of_neg a2] at hlt'
            have : w * (A - C) < 0 := mul_neg_of_pos_of_neg hw0 (lt_of_le_of_ne (by linarith) hne)
            linarith
        · exact h
      rw [hl]
      constructor
      · field_simp
      · field_simp; linarith

/-- C66 (part): a returned ellipse is exactly the zero set of the equation, provided that `A ≠ C` or `B = 0`.  Missing:
for `A = C` and `B ≠ 0` the returned ellipse is wrong, see `C66_A_eq_C_counterexample`. -/
theorem C66_from_equation_partial (A B C D E F : ℝ) (ev : ℝ × ℝ) (hev : Ellipse.IsEigvals (Ellipse.eqMatrix A B C) ev)
    (hAC : A ≠ C ∨ B = 0) (e : Ellipse) (h : Ellipse.from_equation A B C D E F ev = .ok e) :
    e.Valid ∧ e.rminor ≤ e.rmajor ∧ ∀ P, OnE e P ↔ (Coeffs.mk A B C D E F).eval P = 0 := by
  obtain ⟨g1, g2, N, a, b, hN, hNe, ha, hb, e1, e2, he⟩ := from_equation_ok h
  obtain ⟨hs, hp⟩ := hev
  have hs' : ev.1 + ev.2 = A + C := by rw [hs]; simp [Ellipse.eqMatrix]
  have hp' : ev.1 * ev.2 = A * C - B * B / 4 := by rw [hp]; simp [Ellipse.eqMatrix]; ring
  have hlt : 0 < ev.1 * ev.2 := by rw [hp']; linarith
  have hmx : 0 < max a b := lt_max_of_lt_left ha
  have hmn : 0 < min a b := lt_min ha hb
  obtain ⟨m, hm⟩ : ∃ m, m = N / ((4 * A * C - B * B) / 4) := ⟨_, rfl⟩
  rw [← hm] at e1 e2
  have hm0 : m ≠ 0 := by rw [hm]; exact div_ne_zero hN (by linarith)
  obtain ⟨φ, hφ⟩ : ∃ φ, φ = if A = C then 0 else
      if |C| > |A| then Real.arctan (B / (A - C)) / 2 else Real.pi / 2 - Real.arctan (-B / (A - C)) / 2 := ⟨_, rfl⟩
  rw [← hφ] at he
  -- the eigenvalues in the order of the semi-axes
  have hl : ∃ l1 l2 : ℝ, l1 + l2 = A + C ∧ l1 * l2 = A * C - B * B / 4 ∧ 0 < l1 * l2 ∧ |l1| ≤ |l2| ∧
      l1 * (max a b) ^ 2 = m ∧ l2 * (min a b) ^ 2 = m := by
    have habs : ∀ x y p q : ℝ, 0 < p → 0 < q → p ≤ q → x * q ^ 2 = m → y * p ^ 2 = m → |x| ≤ |y| := by
      intro x y p q hp0 hq0 hpq hx hy
      have h1 : |x| * q ^ 2 = |y| * p ^ 2 := by
        rw [← abs_of_pos (show 0 < q ^ 2 by positivity), ← abs_mul, hx, ← hy, abs_mul, abs_of_pos (show 0 < p ^ 2 by positivity)]
      have h2 : p ^ 2 ≤ q ^ 2 := by nlinarith
      have h3 : |x| * p ^ 2 ≤ |y| * p ^ 2 := by
        rw [← h1]; exact mul_le_mul_of_nonneg_left h2 (abs_nonneg x)
      exact le_of_mul_le_mul_right h3 (by positivity)
    rcases le_total a b with hab | hab
    · rw [max_eq_right hab, min_eq_left hab]
      exact ⟨ev.2, ev.1, by linarith, by linarith, by linarith, habs _ _ _ _ ha hb hab e2 e1, e2, e1⟩
    · rw [max_eq_left hab, min_eq_right hab]
      exact ⟨ev.1, ev.2, by linarith, by linarith, by linarith, habs _ _ _ _ hb ha hab e1 e2, e1, e2⟩
  obtain ⟨l1, l2, k1, k2, k3, k4, k5, k6⟩ := hl
  obtain ⟨f1, f2, f3⟩ := from_equation_axis g1 k1 k2 k3 k4 hAC hφ
  obtain ⟨x1, x2, x3⟩ := sameAxis_mod_deg φ
  subst he
  refine ⟨⟨hmx, hmn⟩, min_le_max, ?_⟩
  intro P
  have hΔ0 := g2.ne'
  obtain ⟨Δ, hΔ⟩ : ∃ Δ, Δ = 4 * A * C - B * B := ⟨_, rfl⟩
  have key := eval_eq_ellVal (q := ⟨A, B, C, D, E, F⟩) (O := (⟨B * E - 2 * C * D, B * D - 2 * A * E⟩ : Pt) / (4 * A * C - B * B))
    (a := max a b) (b := min a b) (α := pyMod (φ * 180 / π) 180 * (π / 180)) (l1 := l1) (l2 := l2) (m := m) hmx hmn
    (by rw [x1, x2]; exact f1) (by rw [x3]; exact f2) (by rw [x1, x2]; exact f3)
    (by simp only [Pt.div_x, Pt.div_y]; rw [← hΔ] at hΔ0 ⊢; field_simp; rw [hΔ]; ring)
    (by simp only [Pt.div_x, Pt.div_y]; rw [← hΔ] at hΔ0 ⊢; field_simp; rw [hΔ]; ring)
    (by simp only [Pt.div_x, Pt.div_y]; rw [hm, hNe]; unfold Coeffs.k; dsimp only; rw [← hΔ] at hΔ0 ⊢; field_simp; rw [hΔ]; ring) k5 k6 P
  unfold OnE
  rw [onEllipse_iff hmx hmn, key]
  change ellVal _ _ _ (pyMod (φ * 180 / π) 180 * (π / 180)) P = 0 ↔ _
  rw [mul_eq_zero]
  exact ⟨Or.inr, fun h => h.resolve_left hm0⟩

/-- C66 (part): the equation of an ellipse is accepted, for every result of `np.linalg.eigvals`, as soon as the third
guard `D² + E² > 4(A+C)F` lets it through; then the result has the same points unless `A = C` and `B ≠ 0`.  Missing: this
guard rejects ellipses, see `C66_guard_counterexample`. -/
theorem C66_accepts_partial (e : Ellipse) (he : e.Valid) (ev : ℝ × ℝ)
    (hev : Ellipse.IsEigvals (Ellipse.eqMatrix e.equation.A e.equation.B e.equation.C) ev)
    (hg : 4 * (e.equation.A + e.equation.C) * e.equation.F < e.equation.D * e.equation.D + e.equation.E * e.equation.E) :
    ∃ e', Ellipse.from_equation e.equation.A e.equation.B e.equation.C e.equation.D e.equation.E e.equation.F ev = .ok e' ∧
      (e.equation.A ≠ e.equation.C ∨ e.equation.B = 0 → ∀ P, OnE e' P ↔ OnE e P) := by
  obtain ⟨pA, pC, p3⟩ := equation_pos he
  have pk := equation_k he
  have hm : 0 < (e.rmajor * e.rminor) ^ 2 := by have := he.1; have := he.2; positivity
  obtain ⟨hs, hp⟩ := id hev
  have hok : ∃ e', Ellipse.from_equation e.equation.A e.equation.B e.equation.C e.equation.D e.equation.E e.equation.F ev = .ok e' := by
    generalize e.equation = q at *
    obtain ⟨A, B, C, D, E, F⟩ := q
    dsimp only at *
    have hs' : ev.1 + ev.2 = A + C := by rw [hs]; simp [Ellipse.eqMatrix]
    have hp' : ev.1 * ev.2 = A * C - B * B / 4 := by rw [hp]; simp [Ellipse.eqMatrix]; ring
    have hpp : 0 < ev.1 * ev.2 := by rw [hp']; linarith
    have v1 : 0 < ev.1 := by
      rcases mul_pos_iff.1 hpp with ⟨b1, b2⟩ | ⟨b1, b2⟩
      · exact b1
      · linarith
    have v2 : 0 < ev.2 := (mul_pos_iff_of_pos_left v1).1 hpp
    have hdM : Matrix.det !![A, B / 2; B / 2, C] = (4 * A * C - B * B) / 4 := by
      rw [Matrix.det_fin_two]; simp; ring
    have hdMp : 0 < (4 * A * C - B * B) / 4 := by linarith
    have hN : -Matrix.det !![F, D / 2, E / 2; D / 2, A, B / 2; E / 2, B / 2, C] = Coeffs.k ⟨A, B, C, D, E, F⟩ / 4 := by
      rw [Matrix.det_fin_three]; unfold Coeffs.k; simp; ring
    have hQ : Matrix.det !![2 * A, B, D; B, 2 * C, E; D, E, 2 * F] = -2 * Coeffs.k ⟨A, B, C, D, E, F⟩ := by
      rw [Matrix.det_fin_three]; unfold Coeffs.k; simp; ring
    unfold Ellipse.from_equation
    rw [if_neg (by push Not; exact ⟨by positivity, by linarith, hg⟩), if_neg (by rw [hQ]; intro h0; linarith)]
    dsimp only
    rw [hdM, hN]
    obtain ⟨k, hk⟩ : ∃ k, k = Coeffs.k ⟨A, B, C, D, E, F⟩ := ⟨_, rfl⟩
    rw [← hk] at pk ⊢
    obtain ⟨d, hd⟩ : ∃ d, d = (4 * A * C - B * B) / 4 := ⟨_, rfl⟩
    rw [← hd] at hdMp ⊢
    have q1 : 0 < k / 4 / (d * ev.1) := by positivity
    have q2 : 0 < k / 4 / (d * ev.2) := by positivity
    unfold npDiv pySqrt mkEllipse
    rw [if_neg (by positivity), Res.ok_bind, if_neg (not_lt.2 q1.le), Res.ok_bind, if_neg (by positivity), Res.ok_bind,
      if_neg (not_lt.2 q2.le), Res.ok_bind]
    have r1 := Real.sqrt_pos.2 q1
    have r2 := Real.sqrt_pos.2 q2
    rw [if_neg (not_le.2 (lt_max_of_lt_left r1)), if_neg (not_le.2 (lt_min r1 r2))]
    exact ⟨_, rfl⟩
  obtain ⟨e', he'⟩ := hok
  refine ⟨e', he', fun hAC P => ?_⟩
  rw [(C66_from_equation_partial _ _ _ _ _ _ ev hev hAC e' he').2.2 P]
  exact (C64_equation e he P).1

/-- C66 fails: the equation of the circle of center `(3, 0)` and radius 1 is rejected. -/
theorem C66_guard_counterexample (ev : ℝ × ℝ) :
    (⟨⟨3, 0⟩, 1, 1, 0, true⟩ : Ellipse).Valid ∧
    ∃ m, Ellipse.from_equation (⟨⟨3, 0⟩, 1, 1, 0, true⟩ : Ellipse).equation.A (⟨⟨3, 0⟩, 1, 1, 0, true⟩ : Ellipse).equation.B
      (⟨⟨3, 0⟩, 1, 1, 0, true⟩ : Ellipse).equation.C (⟨⟨3, 0⟩, 1, 1, 0, true⟩ : Ellipse).equation.D
      (⟨⟨3, 0⟩, 1, 1, 0, true⟩ : Ellipse).equation.E (⟨⟨3, 0⟩, 1, 1, 0, true⟩ : Ellipse).equation.F ev =
      .error (.valueError m) := by
  refine ⟨⟨by norm_num, by norm_num⟩, ?_⟩
  unfold Ellipse.from_equation
  rw [if_pos]
  · exact ⟨_, rfl⟩
  · right; right
    unfold Ellipse.equation
    norm_num

/-- C66 fails: for `x² + xy + y² = 1` the returned ellipse is not the zero set of the equation (its axes are parallel to
the coordinate axes). -/
theorem C66_A_eq_C_counterexample :
    Ellipse.IsEigvals (Ellipse.eqMatrix 1 1 1) (1 / 2, 3 / 2) ∧
    ∃ e P, Ellipse.from_equation 1 1 1 0 0 (-1) (1 / 2, 3 / 2) = .ok e ∧
      (Coeffs.mk 1 1 1 0 0 (-1)).eval P = 0 ∧ ¬ OnE e P := by
  have hev : Ellipse.IsEigvals (Ellipse.eqMatrix 1 1 1) (1 / 2, 3 / 2) := by
    constructor <;> simp [Ellipse.eqMatrix] <;> norm_num
  refine ⟨hev, ?_⟩
  have hok : ∃ e, Ellipse.from_equation 1 1 1 0 0 (-1) (1 / 2, 3 / 2) = .ok e := by
    unfold Ellipse.from_equation
    rw [if_neg (by norm_num), if_neg (by rw [Matrix.det_fin_three]; simp; norm_num)]
    dsimp only
    rw [Matrix.det_fin_three, Matrix.det_fin_two]
    simp
    unfold npDiv pySqrt mkEllipse
    rw [if_neg (by norm_num), Res.ok_bind, if_neg (by norm_num), Res.ok_bind, if_neg (by norm_num), Res.ok_bind,
      if_neg (by norm_num), Res.ok_bind]
    rw [if_neg, if_neg]
    · exact ⟨_, rfl⟩
    · rw [not_le]; apply lt_min <;> apply Real.sqrt_pos.2 <;> norm_num
    · rw [not_le]; apply lt_max_of_lt_left; apply Real.sqrt_pos.2; norm_num
  obtain ⟨e, he⟩ := hok
  refine ⟨e, ⟨1, 0⟩, he, by unfold Coeffs.eval; norm_num, ?_⟩
  obtain ⟨g1, g2, N, a, b, hN, hNe, ha, hb, e1, e2, hee⟩ := from_equation_ok he
  have hN1 : N = 3 / 4 := by rw [hNe]; unfold Coeffs.k; norm_num
  rw [hN1] at e1 e2
  have a2 : a ^ 2 = 2 := by norm_num at e1; linarith
  have b2 : b ^ 2 = 2 / 3 := by norm_num at e2; linarith
  have hab : b ≤ a := by nlinarith
  rw [max_eq_left hab, min_eq_right hab, if_pos rfl] at hee
  have hp : pyMod ((0 : ℝ) * 180 / π) 180 = 0 := by
    rw [zero_mul, zero_div]; exact pyMod_eq_self le_rfl (by norm_num)
  rw [hp] at hee
  subst hee
  unfold OnE
  dsimp only
  rw [onEllipse_iff ha hb]
  unfold ellVal axisCoord Ellipse.rad
  simp
  rw [a2]
  norm_num

/-- The hypotheses of `C66_accepts_partial` hold for an ellipse centered at the origin. -/
example : 4 * ((⟨⟨0, 0⟩, 2, 1, 30, true⟩ : Ellipse).equation.A + (⟨⟨0, 0⟩, 2, 1, 30, true⟩ : Ellipse).equation.C) *
    (⟨⟨0, 0⟩, 2, 1, 30, true⟩ : Ellipse).equation.F <
    (⟨⟨0, 0⟩, 2, 1, 30, true⟩ : Ellipse).equation.D * (⟨⟨0, 0⟩, 2, 1, 30, true⟩ : Ellipse).equation.D +
    (⟨⟨0, 0⟩, 2, 1, 30, true⟩ : Ellipse).equation.E * (⟨⟨0, 0⟩, 2, 1, 30, true⟩ : Ellipse).equation.E := by
  have h := equation_pos (e := ⟨⟨0, 0⟩, 2, 1, 30, true⟩) ⟨by norm_num, by norm_num⟩
  have hF : (⟨⟨0, 0⟩, 2, 1, 30, true⟩ : Ellipse).equation.F = -4 := by unfold Ellipse.equation; norm_num
  rw [hF]
  nlinarith [mul_self_nonneg (⟨⟨0, 0⟩, 2, 1, 30, true⟩ : Ellipse).equation.D,
    mul_self_nonneg (⟨⟨0, 0⟩, 2, 1, 30, true⟩ : Ellipse).equation.E]

/-- From the equation `x² + 4 y² = 4` an ellipse with exactly these points is returned. -/
example : (∃ e, Ellipse.from_equation 1 0 4 0 0 (-4) (1, 4) = .ok e ∧ e.Valid ∧ ∀ P, OnE e P ↔ P.x ^ 2 + 4 * P.y ^ 2 = 4) := by
  have hev : Ellipse.IsEigvals (Ellipse.eqMatrix 1 0 4) (1, 4) := by constructor <;> norm_num [Ellipse.eqMatrix]
  have hq : (⟨⟨0, 0⟩, 2, 1, 0, true⟩ : Ellipse).equation = ⟨1, 0, 4, 0, 0, -4⟩ := by
    unfold Ellipse.equation; norm_num
  obtain ⟨e, h, -⟩ := C66_accepts_partial ⟨⟨0, 0⟩, 2, 1, 0, true⟩ ⟨by norm_num, by norm_num⟩ (1, 4)
    (by rw [hq]; exact hev) (by rw [hq]; norm_num)
  rw [hq] at h
  obtain ⟨hv, -, hP⟩ := C66_from_equation_partial 1 0 4 0 0 (-4) (1, 4) hev (Or.inr rfl) e h
  refine ⟨e, h, hv, fun P => (hP P).trans ?_⟩
  unfold Coeffs.eval
  constructor <;> intro h <;> dsimp only at * <;> linarith
