import Verif.Lemmas.DescartesRegion
import Verif.Lemmas.ApollonianSeed

/-! Three mutually tangent circles inside a fourth one, the mirrors of the gasket, and the tolerance of `invert_circle`. -/

open Spec Real Classical

namespace GV
noncomputable section

/-- The four regions. -/
def four (c0 c1 c2 O : Circle) : Fin 4 → GV := ![circ c0, circ c1, circ c2, -circ O]

theorem pr_circ_inner {c d : Circle} (hc : c.Valid) (hd : d.Valid) (h : sqDist c.center d.center = (d.radius - c.radius) ^ 2) :
    pr (circ c) (circ d) = 1 := by
  have e := pr_circ hc hd
  have hr : 0 < c.radius := hc
  have hr' : 0 < d.radius := hd
  have h2 : (2 * c.radius * d.radius) ≠ 0 := by positivity
  apply mul_right_cancel₀ h2
  rw [e, h]; ring

theorem pr_neg' (X Y : GV) : pr X (-Y) = -pr X Y := by rw [pr_comm, pr_neg, pr_comm]

theorem four_spec {c0 c1 c2 O : Circle} (h : Soddy c0 c1 c2 O) : Four (four c0 c1 c2 O) := by
  have r0 : 0 < c0.radius := h.v0
  have r1 : 0 < c1.radius := h.v1
  have r2 : 0 < c2.radius := h.v2
  have rO : 0 < O.radius := h.vO
  have t01 := (pr_circ_tangent h.v0 h.v1).2 h.t01
  have t02 := (pr_circ_tangent h.v0 h.v2).2 h.t02
  have t12 := (pr_circ_tangent h.v1 h.v2).2 h.t12
  have i0 := pr_circ_inner h.v0 h.vO h.i0
  have i1 := pr_circ_inner h.v1 h.vO h.i1
  have i2 := pr_circ_inner h.v2 h.vO h.i2
  have k0 : 1 / O.radius < 1 / c0.radius := one_div_lt_one_div_of_lt r0 h.l0
  have k1 : 1 / O.radius < 1 / c1.radius := one_div_lt_one_div_of_lt r1 h.l1
  have k2 : 1 / O.radius < 1 / c2.radius := one_div_lt_one_div_of_lt r2 h.l2
  have q0 : 0 < 1 / c0.radius := by positivity
  have q1 : 0 < 1 / c1.radius := by positivity
  have q2 : 0 < 1 / c2.radius := by positivity
  refine ⟨?_, ?_, ?_⟩
  · intro i
    fin_cases i
    · exact pr_circ_self h.v0
    · exact pr_circ_self h.v1
    · exact pr_circ_self h.v2
    · change pr (-circ O) (-circ O) = 1
      rw [pr_neg, pr_neg', pr_circ_self h.vO]; norm_num
  · have main : ∀ i j : Fin 4, i < j → pr (four c0 c1 c2 O i) (four c0 c1 c2 O j) = -1 := by
      intro i j hij
      fin_cases i <;> fin_cases j <;> first | exact absurd hij (by decide) | skip
      · exact t01
      · exact t02
      · change pr (circ c0) (-circ O) = -1
        rw [pr_neg', i0]
      · exact t12
      · change pr (circ c1) (-circ O) = -1
        rw [pr_neg', i1]
      · change pr (circ c2) (-circ O) = -1
        rw [pr_neg', i2]
    intro i j hij
    rcases lt_or_gt_of_ne hij with h | h
    · exact main i j h
    · rw [pr_comm]; exact main j i h
  · have main : ∀ i j : Fin 4, i < j → 0 < four c0 c1 c2 O i 0 + four c0 c1 c2 O j 0 := by
      intro i j hij
      fin_cases i <;> fin_cases j <;> first | exact absurd hij (by decide) | skip
      · change 0 < 1 / c0.radius + 1 / c1.radius; linarith
      · change 0 < 1 / c0.radius + 1 / c2.radius; linarith
      · change 0 < 1 / c0.radius + -(1 / O.radius); linarith
      · change 0 < 1 / c1.radius + 1 / c2.radius; linarith
      · change 0 < 1 / c1.radius + -(1 / O.radius); linarith
      · change 0 < 1 / c2.radius + -(1 / O.radius); linarith
    intro i j hij
    rcases lt_or_gt_of_ne hij with h | h
    · exact main i j h
    · rw [add_comm]; exact main j i h

/-- A vector of norm 1 orthogonal to a circle: the power of the pole of its inversion with respect to the circle. -/
theorem orth_power {m : GV} (hm : pr m m = 1) (h0 : m 0 ≠ 0) {c : Circle} (hc : c.Valid) (h : pr m (circ c) = 0) :
    sqDist c.center (inv m).pole - c.radius ^ 2 = (inv m).power := by
  have hr : 0 < c.radius := hc
  have e : m 2 * c.center.x + m 3 * c.center.y - (m 0 * (c.center.x ^ 2 + c.center.y ^ 2 - c.radius ^ 2) + m 1) / 2 = 0 := by
    have : pr m (circ c) * c.radius = m 2 * c.center.x + m 3 * c.center.y - (m 0 * (c.center.x ^ 2 + c.center.y ^ 2 - c.radius ^ 2) + m 1) / 2 := by
      simp only [pr, circ, Matrix.cons_val_zero, Matrix.cons_val_one, Matrix.cons_val]
      field_simp
    rw [← this, h, zero_mul]
  unfold pr at hm
  unfold inv sqDist
  dsimp only
  field_simp
  linear_combination (-2 * m 0) * e + hm

/-- If the curvature is positive the region is the disc of the inversion. -/
theorem region_inv {m : GV} (hm : pr m m = 1) (h0 : 0 < m 0) : region m = mirrorDisc (inv m) := by
  have e : √(inv m).power = 1 / m 0 := by
    unfold inv
    rw [show 1 / m 0 ^ 2 = (1 / m 0) ^ 2 by rw [div_pow, one_pow]]
    exact Real.sqrt_sq (by positivity)
  unfold mirrorDisc
  rw [e, ← region_circ (by unfold Circle.Valid; positivity)]
  congr 1
  have h1 : m 1 = (m 2 ^ 2 + m 3 ^ 2 - 1) / m 0 := by
    rw [eq_div_iff h0.ne']
    unfold pr at hm
    linear_combination -hm
  ext i
  fin_cases i
  · change m 0 = 1 / (1 / m 0); field_simp
  · change m 1 = ((m 2 / m 0) ^ 2 + (m 3 / m 0) ^ 2 - (1 / m 0) ^ 2) / (1 / m 0)
    rw [h1]; field_simp
  · change m 2 = m 2 / m 0 / (1 / m 0); field_simp
  · change m 3 = m 3 / m 0 / (1 / m 0); field_simp

/-- A disc that does not meet the outside of a circle is inside the circle. -/
theorem inside_of_apart {c O : Circle} (hc : c.Valid) (hO : O.Valid) (h : (disc c).Apart (outside O)) :
    Spec.dist c.center O.center + c.radius ≤ O.radius := by
  have rc : 0 < c.radius := hc
  have rO : 0 < O.radius := hO
  by_contra hlt
  push Not at hlt
  obtain ⟨δ, hδ⟩ : ∃ δ, δ = Spec.dist c.center O.center := ⟨_, rfl⟩
  have hδ0 : 0 ≤ δ := by rw [hδ]; exact Real.sqrt_nonneg _
  have hδ2 : sqDist c.center O.center = δ ^ 2 := by rw [hδ]; exact (Real.sq_sqrt (sqDist_nonneg _ _)).symm
  rw [← hδ] at hlt
  -- a point of the disc far from the center of `O`
  obtain ⟨ρ, hρ0, hρ1, hρ2⟩ : ∃ ρ, 0 ≤ ρ ∧ ρ < c.radius ∧ O.radius < δ + ρ := by
    refine ⟨max 0 ((O.radius - δ + c.radius) / 2), le_max_left _ _, ?_, ?_⟩
    · apply max_lt rc; linarith
    · have := le_max_right 0 ((O.radius - δ + c.radius) / 2); linarith
  obtain ⟨u, hu, hu2⟩ : ∃ u : Pt, sqDist u ⟨0, 0⟩ = 1 ∧ c.center = O.center + δ • u := by
    by_cases h0 : δ = 0
    · refine ⟨⟨1, 0⟩, by unfold sqDist; norm_num, ?_⟩
      rw [h0] at hδ2 ⊢
      have : c.center = O.center := by
        by_contra hne
        have := sqDist_pos hne
        rw [hδ2] at this
        norm_num at this
      rw [this]; ext <;> simp
    · refine ⟨⟨(c.center.x - O.center.x) / δ, (c.center.y - O.center.y) / δ⟩, ?_, ?_⟩
      · unfold sqDist at hδ2 ⊢
        dsimp only
        rw [sub_zero, sub_zero, div_pow, div_pow, ← add_div, hδ2, div_self (pow_ne_zero 2 h0)]
      · ext
        · simp only [Pt.add_x, Pt.smul_x]; field_simp; ring
        · simp only [Pt.add_y, Pt.smul_y]; field_simp; ring
  have hdj := Set.disjoint_left.1 h
  refine hdj (a := XPt.fin (O.center + (δ + ρ) • u)) ?_ ?_
  · rw [mem_disc_fin, hu2]
    have : sqDist (O.center + (δ + ρ) • u) (O.center + δ • u) = ρ ^ 2 * sqDist u ⟨0, 0⟩ := by
      unfold sqDist; simp; ring
    rw [this, hu, mul_one]
    exact pow_lt_pow_left₀ hρ1 hρ0 two_ne_zero
  · rw [mem_outside_fin]
    have : sqDist (O.center + (δ + ρ) • u) O.center = (δ + ρ) ^ 2 * sqDist u ⟨0, 0⟩ := by
      unfold sqDist; simp; ring
    rw [this, hu, mul_one]
    exact pow_lt_pow_left₀ hρ2 rO.le two_ne_zero

/-- A circle inside `O`, seen from a pole outside `O`. -/
theorem far_outside {c O : Circle} {I : Pt} (hc : c.Valid) (h : Spec.dist c.center O.center + c.radius ≤ O.radius) {g : ℝ} (hg : 0 < g)
    (hI : O.radius + g ≤ Spec.dist I O.center) : g ^ 2 < sqDist c.center I - c.radius ^ 2 := by
  have rc : 0 < c.radius := hc
  have tri := specDist_triangle I c.center O.center
  rw [specDist_comm I c.center] at tri
  have h1 : g + c.radius ≤ Spec.dist c.center I := by linarith
  have h2 : Spec.dist c.center I ^ 2 = sqDist c.center I := Real.sq_sqrt (sqDist_nonneg _ _)
  have := pow_le_pow_left₀ (by positivity) h1 2
  nlinarith [mul_pos hg rc]

/-- The gasket of three mutually tangent circles inside a fourth. -/
theorem soddy_frame {c0 c1 c2 O : Circle} (h : Soddy c0 c1 c2 O) (hm : ∀ i, mir (four c0 c1 c2 O) i 0 ≠ 0)
    (hgap : ∀ i : Fin 4, i ≠ 3 → O.radius + 1 / 2 ^ 13 ≤ Spec.dist (inv (mir (four c0 c1 c2 O) i)).pole O.center)
    (hpow : 1 / 2 ^ 26 ≤ (inv (mir (four c0 c1 c2 O) 3)).power) {C : Fin 4 → Circle} (hC : ∀ i, (C i).Valid)
    (hCd : ∀ i, disc (C i) = region (reflect (mir (four c0 c1 c2 O) i) (four c0 c1 c2 O i))) :
    GasketFrame (Four.mirs (four c0 c1 c2 O)) (Four.mirW (four c0 c1 c2 O)) {disc c0, disc c1, disc c2, outside O}
      [(C 0, 0), (C 1, 1), (C 2, 2), (C 3, 3)] := by
  have hf := four_spec h
  have eS : (Set.range fun i => region (four c0 c1 c2 O i)) = {disc c0, disc c1, disc c2, outside O} := by
    ext s
    simp only [Set.mem_range, Set.mem_insert_iff, Set.mem_singleton_iff]
    constructor
    · rintro ⟨i, rfl⟩
      fin_cases i
      · left; exact region_circ h.v0
      · right; left; exact region_circ h.v1
      · right; right; left; exact region_circ h.v2
      · right; right; right; exact region_neg_circ h.vO
    · rintro (rfl | rfl | rfl | rfl)
      · exact ⟨0, region_circ h.v0⟩
      · exact ⟨1, region_circ h.v1⟩
      · exact ⟨2, region_circ h.v2⟩
      · exact ⟨3, region_neg_circ h.vO⟩
  rw [← eS]
  refine hf.frame hm hC hCd ?_
  intro i k hki c hc hsub hap
  by_cases hi : i = 3
  · subst hi
    have n3 : pr (mir (four c0 c1 c2 O) 3) (mir (four c0 c1 c2 O) 3) = 1 := by rw [hf.mir_mir, if_pos rfl]
    have pos3 : 0 < mir (four c0 c1 c2 O) 3 0 := by
      have r0 : 0 < 1 / c0.radius := one_div_pos.2 h.v0
      have r1 : 0 < 1 / c1.radius := one_div_pos.2 h.v1
      have r2 : 0 < 1 / c2.radius := one_div_pos.2 h.v2
      have rO : 0 < 1 / O.radius := one_div_pos.2 h.vO
      change 0 < (1 / 2 : ℝ) * (1 / c0.radius + 1 / c1.radius + 1 / c2.radius + -(1 / O.radius)) - -(1 / O.radius)
      linarith
    have ha : (disc c).Apart (mirrorDisc (inv (mir (four c0 c1 c2 O) 3))) := by
      rw [← region_inv n3 pos3]
      exact Set.disjoint_of_subset_left hsub (region_apart (hf.mir_apart hki))
    have := (image_apart (inv_power_pos pos3.ne') hc ha).1
    linarith
  · have h3 := hap 3
    rw [show region (four c0 c1 c2 O 3) = outside O from region_neg_circ h.vO] at h3
    have := far_outside hc (inside_of_apart hc h.vO h3) (by norm_num : (0 : ℝ) < 1 / 2 ^ 13) (hgap i hi)
    norm_num at this ⊢
    linarith

end
end GV
