import Verif.Lemmas.RingGasket

/-! The ring of a Steiner chain, and the circles of the mirrors. -/

open Spec Real Classical Gasket

namespace GV
noncomputable section

theorem pr_lprod {a b : Circle} (ha : a.Valid) (hb : b.Valid) : pr (circ a) (circ b) * (2 * (a.radius * b.radius)) = -lprod a b := by
  have := pr_circ ha hb
  unfold lprod
  linarith

theorem opp_circ {a b : Circle} (ha : a.Valid) (hb : b.Valid) (h : 2 * (a.radius * b.radius) ≤ lprod a b) : Opp (circ a) (circ b) := by
  have ra : 0 < a.radius := ha
  have rb : 0 < b.radius := hb
  have e := pr_lprod ha hb
  have hp : pr (circ a) (circ b) ≤ -1 := by
    have h2 : 0 < 2 * (a.radius * b.radius) := by positivity
    by_contra hlt
    push Not at hlt
    have := mul_lt_mul_of_pos_right hlt h2
    linarith
  refine sum_nonneg ?_ ?_
  · rw [pr_add, pr_add', pr_add', pr_circ_self ha, pr_circ_self hb, pr_comm (circ b)]
    linarith
  · change 0 < 1 / a.radius + 1 / b.radius
    positivity

theorem opp_outer {a c0 : Circle} (ha : a.Valid) (h0 : c0.Valid) (hlt : a.radius < c0.radius) (h : lprod a c0 ≤ -(2 * (a.radius * c0.radius))) :
    Opp (circ a) (-circ c0) := by
  have ra : 0 < a.radius := ha
  have rb : 0 < c0.radius := h0
  have e := pr_lprod ha h0
  have hp : 1 ≤ pr (circ a) (circ c0) := by
    have h2 : 0 < 2 * (a.radius * c0.radius) := by positivity
    by_contra hlt
    push Not at hlt
    have := mul_lt_mul_of_pos_right hlt h2
    linarith
  refine sum_nonneg ?_ ?_
  · rw [pr_add, pr_add', pr_add', pr_circ_self ha, pr_neg', pr_neg, pr_neg, pr_neg', pr_circ_self h0, pr_comm (circ c0)]
    linarith
  · change 0 < 1 / a.radius + -(1 / c0.radius)
    have := one_div_lt_one_div_of_lt ra hlt
    linarith

/-- The mirror that swaps the outer and the inner circle. -/
theorem inv_swapV {c0 inner : Circle} (h0 : c0.Valid) (hi : inner.Valid) (h : lprod inner c0 ≤ -(2 * (inner.radius * c0.radius))) :
    0 < swapV (-circ c0) (circ inner) 0 ∧ inv (swapV (-circ c0) (circ inner)) = swapMirror c0 inner := by
  have R0 : 0 < c0.radius := h0
  have r0 : 0 < inner.radius := hi
  have e := pr_lprod hi h0
  obtain ⟨ν, hν⟩ : ∃ ν, ν = √(2 - 2 * pr (circ inner) (-circ c0)) := ⟨_, rfl⟩
  have e2 : (2 - 2 * pr (circ inner) (-circ c0)) * (inner.radius * c0.radius) = (c0.radius + inner.radius) ^ 2 - sqDist inner.center c0.center := by
    rw [pr_neg']
    unfold lprod at e
    linarith
  have hY : 0 < (c0.radius + inner.radius) ^ 2 - sqDist inner.center c0.center := by
    unfold lprod at h
    nlinarith [mul_pos R0 r0]
  have hpos : 0 < 2 - 2 * pr (circ inner) (-circ c0) := by
    rw [← e2] at hY
    exact pos_of_mul_pos_left hY (by positivity)
  have hν0 : 0 < ν := by rw [hν]; exact Real.sqrt_pos.2 hpos
  have hν2 : ν ^ 2 = 2 - 2 * pr (circ inner) (-circ c0) := by rw [hν]; exact Real.sq_sqrt hpos.le
  have v0 : swapV (-circ c0) (circ inner) 0 = 1 / ν * (1 / inner.radius + 1 / c0.radius) := by
    unfold swapV; rw [← hν]
    change 1 / ν * (1 / inner.radius - -(1 / c0.radius)) = _
    ring
  have v2 : swapV (-circ c0) (circ inner) 2 = 1 / ν * (inner.center.x / inner.radius + c0.center.x / c0.radius) := by
    unfold swapV; rw [← hν]
    change 1 / ν * (inner.center.x / inner.radius - -(c0.center.x / c0.radius)) = _
    ring
  have v3 : swapV (-circ c0) (circ inner) 3 = 1 / ν * (inner.center.y / inner.radius + c0.center.y / c0.radius) := by
    unfold swapV; rw [← hν]
    change 1 / ν * (inner.center.y / inner.radius - -(c0.center.y / c0.radius)) = _
    ring
  refine ⟨by rw [v0]; positivity, ?_⟩
  unfold inv swapMirror
  rw [v0, v2, v3]
  congr 1
  · ext
    · simp only [Pt.add_x, Pt.smul_x, Pt.sub_x]; field_simp; ring
    · simp only [Pt.add_y, Pt.smul_y, Pt.sub_y]; field_simp; ring
  · rw [← e2, ← hν2]
    field_simp

variable {n : ℕ} {c0 inner : Circle} {r m : ℕ → Circle}

/-- The ring of the circles described by `ApSeed`. -/
theorem ring_of_seed (h : ApSeed n c0 inner r m) :
    Ring n (-circ c0) (circ inner) (fun i => circ (r i)) (fun i => circ (m i)) (swapV (-circ c0) (circ inner)) := by
  have p0 : 0 < c0.radius := h.pos0
  have pin : 0 < inner.radius := h.posi
  have vr : ∀ i, (r i).Valid := h.posr
  have vm : ∀ i, (m i).Valid := h.posm
  have uO : pr (-circ c0) (-circ c0) = 1 := by rw [pr_neg, pr_neg', pr_circ_self h.pos0]; norm_num
  have uI : pr (circ inner) (circ inner) = 1 := pr_circ_self h.posi
  have IO := opp_outer h.posi h.pos0 h.ilt h.i0
  have eIO := pr_lprod (a := inner) (b := c0) h.posi h.pos0
  have hIO : pr (circ inner) (-circ c0) < 1 := by
    rw [pr_neg']
    have hi0 := h.i0
    have h2 : 0 < 2 * (inner.radius * c0.radius) := by positivity
    by_contra hlt
    push Not at hlt
    have hlt' : pr (circ inner) (circ c0) ≤ -1 := by linarith
    have := mul_le_mul_of_nonneg_right hlt' h2.le
    linarith
  obtain ⟨uw, wI, wO⟩ := swapV_spec uO uI hIO
  obtain ⟨w0, -⟩ := inv_swapV h.pos0 h.posi h.i0
  have hmod : ∀ i < n, (i + 1) % n < n := fun i hi => Nat.mod_lt _ (by omega)
  obtain ⟨ν, hν⟩ : ∃ ν, ν = √(2 - 2 * pr (circ inner) (-circ c0)) := ⟨_, rfl⟩
  have hpos : 0 < 2 - 2 * pr (circ inner) (-circ c0) := by linarith
  have hν0 : 0 < ν := by rw [hν]; exact Real.sqrt_pos.2 hpos
  have hν2 : ν ^ 2 = 2 - 2 * pr (circ inner) (-circ c0) := by rw [hν]; exact Real.sq_sqrt hpos.le
  have pw : ∀ X, pr X (swapV (-circ c0) (circ inner)) = 1 / ν * (pr X (circ inner) + pr X (circ c0)) := by
    intro X
    unfold swapV
    rw [← hν, pr_smul', pr_sub', pr_neg']
    ring
  have zero : ∀ {a b : Circle}, a.Valid → b.Valid → lprod a b = 0 → pr (circ a) (circ b) = 0 := by
    intro a b ha hb hab
    have ra : 0 < a.radius := ha
    have rb : 0 < b.radius := hb
    have e := pr_lprod ha hb
    rw [hab, neg_zero] at e
    rcases mul_eq_zero.1 e with h | h
    · exact h
    · have : 0 < 2 * (a.radius * b.radius) := by positivity
      linarith
  have one : ∀ {a b : Circle}, a.Valid → b.Valid → ∀ t : ℝ, lprod a b = t * (2 * (a.radius * b.radius)) → pr (circ a) (circ b) = -t := by
    intro a b ha hb t hab
    have ra : 0 < a.radius := ha
    have rb : 0 < b.radius := hb
    have e := pr_lprod ha hb
    have : (2 * (a.radius * b.radius)) ≠ 0 := by positivity
    apply mul_right_cancel₀ this
    rw [e, hab]; ring
  refine ⟨fun i _ => pr_circ_self (vm i), uw, fun i j hi hj hij => opp_circ (vm i) (vm j) (h.mm i j hi hj hij), ?_, ?_, ?_, ?_, ?_, ?_, ?_, ?_, IO, ?_,
    wI, wO, ?_, ?_, ?_, ?_, ?_, ?_⟩
  · intro i hi
    have em := pr_lprod (vm i) h.posi
    have e0 := zero (vm i) h.pos0 (h.m0 i hi)
    have pm : 0 < (m i).radius := h.posm i
    have key := h.key i hi
    have mi := h.mi i hi
    obtain ⟨x, hx⟩ : ∃ x, x = pr (circ (m i)) (circ inner) := ⟨_, rfl⟩
    rw [← hx] at em
    have hL : lprod (m i) inner = -x * (2 * ((m i).radius * inner.radius)) := by linarith
    have hx0 : x ≤ -1 := by
      rw [hL] at mi
      have h2 : 0 < 2 * ((m i).radius * inner.radius) := by positivity
      nlinarith
    have hν3 : ν ^ 2 * (inner.radius * c0.radius) = 2 * (c0.radius * inner.radius) - lprod inner c0 := by
      rw [hν2, pr_neg']; linarith
    have hxν : ν ^ 2 ≤ x ^ 2 := by
      rw [← hν3, hL] at key
      have h2 : 0 < 4 * c0.radius * (m i).radius ^ 2 * inner.radius ^ 2 := by positivity
      by_contra hlt
      push Not at hlt
      have := mul_lt_mul_of_pos_left hlt h2
      linarith
    have hνx : ν ≤ -x := by
      refine le_of_sq_le_sq ?_ (by linarith)
      rw [neg_sq]; exact hxν
    have hpw : pr (circ (m i)) (swapV (-circ c0) (circ inner)) ≤ -1 := by
      rw [pw, e0, ← hx, add_zero, one_div_mul_eq_div, div_le_iff₀ hν0]
      linarith
    refine sum_nonneg ?_ ?_
    · rw [pr_add, pr_add', pr_add', pr_circ_self (vm i), uw, pr_comm (swapV _ _) (circ (m i))]
      linarith
    · have : 0 < circ (m i) 0 := by change 0 < 1 / (m i).radius; positivity
      linarith
  · intro i j hi hj hij
    rw [pr_comm]
    exact zero (vm i) (vr j) (h.mr0 i j hi hj hij)
  · exact fun i j hi hj h1 h2 => (opp_circ (vm i) (vr j) (h.mr i j hi hj h1 h2)).symm
  · exact fun i hi => (opp_circ (vm i) h.posi (h.mi i hi)).symm
  · intro i hi
    rw [pr_neg, pr_comm, zero (vm i) h.pos0 (h.m0 i hi), neg_zero]
  · exact fun i j hi hj hij => opp_circ (vr i) (vr j) (h.rr i j hi hj hij)
  · exact fun i hi => opp_circ (vr i) h.posi (h.ri i hi).ge
  · exact fun i _ => opp_outer (vr i) h.pos0 (h.rlt i) (h.r0 i).le
  · intro i hi
    rw [pw, one (vr i) h.posi 1 (by rw [h.ri i hi]; ring), one (vr i) h.pos0 (-1) (by rw [h.r0 i]; ring)]
    ring
  · intro i _
    unfold NE
    rw [region_circ (vr i)]
    exact disc_nonempty (vr i)
  · unfold NE
    rw [region_circ h.posi]
    exact disc_nonempty h.posi
  · unfold NE
    rw [region_neg_circ h.pos0]
    exact ⟨.inf, mem_outside_inf⟩
  · intro i hi
    have := h.next i hi
    have pr := h.posr i
    have pr2 := h.posr ((i + 1) % n)
    rw [region_circ (vr _), region_circ (vr _)]
    unfold lprod at this
    exact touches_of rfl rfl rfl (by positivity) (by linarith)
  · intro i hi
    have := h.ri i hi
    have pr := h.posr i
    rw [region_circ (vr _), region_circ h.posi]
    unfold lprod at this
    exact touches_of rfl rfl rfl (by positivity) (by linarith)
  · intro i hi
    have := h.r0 i
    have hl := h.rlt i
    rw [region_circ (vr _), region_neg_circ h.pos0]
    unfold lprod at this
    exact touches_of (b := c0) (r2 := -c0.radius) rfl rfl (by ring) (by linarith) (by linarith)

/-! ### Inverting circles -/

/-- The vector of an inversion of positive power. -/
def invV (I : Pt) (k : ℝ) : GV := circ ⟨I, √k⟩

theorem invV_spec {I : Pt} {k : ℝ} (hk : 0 < k) : pr (invV I k) (invV I k) = 1 ∧ 0 < invV I k 0 ∧ inv (invV I k) = ⟨I, k⟩ := by
  have hs : 0 < √k := Real.sqrt_pos.2 hk
  refine ⟨pr_circ_self hs, ?_, ?_⟩
  · change 0 < 1 / √k
    positivity
  · unfold inv invV
    change Inversion.mk ⟨I.x / √k / (1 / √k), I.y / √k / (1 / √k)⟩ (1 / (1 / √k) ^ 2) = _
    congr 1
    · ext
      · dsimp only; field_simp
      · dsimp only; field_simp
    · rw [div_pow, one_pow, one_div_one_div, Real.sq_sqrt hk.le]

/-- The image of a circle with the pole outside. -/
theorem reflect_circ {I : Pt} {k : ℝ} (hk : 0 < k) {c : Circle} (hc : c.Valid) (hD : 0 < sqDist c.center I - c.radius ^ 2) :
    reflect (invV I k) (circ c) = circ (img I k c) := by
  have hs : 0 < √k := Real.sqrt_pos.2 hk
  have hs2 : √k ^ 2 = k := Real.sq_sqrt hk.le
  have r : 0 < c.radius := hc
  obtain ⟨s, hse⟩ : ∃ s, s = √k := ⟨_, rfl⟩
  rw [← hse] at hs hs2
  obtain ⟨D, hDe⟩ : ∃ D, D = sqDist c.center I - c.radius ^ 2 := ⟨_, rfl⟩
  rw [← hDe] at hD
  have hpr : pr (circ c) (circ ⟨I, s⟩) * (2 * c.radius * s) = s ^ 2 - D := by
    have := pr_circ hc (show (⟨I, s⟩ : Circle).Valid from hs)
    dsimp only at this
    rw [this, hDe]; ring
  have hq : 2 * pr (circ c) (circ ⟨I, s⟩) = (s ^ 2 - D) / (c.radius * s) := by
    rw [eq_div_iff (by positivity)]; linarith
  have hDx : D = (c.center.x - I.x) ^ 2 + (c.center.y - I.y) ^ 2 - c.radius ^ 2 := by rw [hDe]; rfl
  unfold invV
  rw [← hse]
  unfold reflect
  rw [hq]
  unfold img
  rw [← hDe, ← hs2]
  have hcx : c.center.x ^ 2 + c.center.y ^ 2 - c.radius ^ 2 = D + 2 * (c.center.x * I.x + c.center.y * I.y) - I.x ^ 2 - I.y ^ 2 := by
    rw [hDx]; ring
  ext i
  fin_cases i
  · change 1 / c.radius - (s ^ 2 - D) / (c.radius * s) * (1 / s) = 1 / (s ^ 2 / D * c.radius)
    field_simp
    ring
  · change (c.center.x ^ 2 + c.center.y ^ 2 - c.radius ^ 2) / c.radius - (s ^ 2 - D) / (c.radius * s) * ((I.x ^ 2 + I.y ^ 2 - s ^ 2) / s) =
      ((I + (s ^ 2 / D) • (c.center - I)).x ^ 2 + (I + (s ^ 2 / D) • (c.center - I)).y ^ 2 - (s ^ 2 / D * c.radius) ^ 2) / (s ^ 2 / D * c.radius)
    have e : (I + (s ^ 2 / D) • (c.center - I)).x ^ 2 + (I + (s ^ 2 / D) • (c.center - I)).y ^ 2 - (s ^ 2 / D * c.radius) ^ 2 =
        I.x ^ 2 + I.y ^ 2 + 2 * (s ^ 2 / D) * (c.center.x * I.x + c.center.y * I.y - I.x ^ 2 - I.y ^ 2) + (s ^ 2 / D) ^ 2 * D := by
      simp only [Pt.add_x, Pt.add_y, Pt.smul_x, Pt.smul_y, Pt.sub_x, Pt.sub_y]
      linear_combination (-(s ^ 2 / D) ^ 2) * hDx
    rw [e, hcx]
    field_simp
    ring
  · change c.center.x / c.radius - (s ^ 2 - D) / (c.radius * s) * (I.x / s) = (I + (s ^ 2 / D) • (c.center - I)).x / (s ^ 2 / D * c.radius)
    simp only [Pt.add_x, Pt.smul_x, Pt.sub_x]
    field_simp
    ring
  · change c.center.y / c.radius - (s ^ 2 - D) / (c.radius * s) * (I.y / s) = (I + (s ^ 2 / D) • (c.center - I)).y / (s ^ 2 / D * c.radius)
    simp only [Pt.add_y, Pt.smul_y, Pt.sub_y]
    field_simp
    ring

/-- A circle that the inversion fixes. -/
theorem reflect_orth {I : Pt} {k : ℝ} (hk : 0 < k) {c : Circle} (hc : c.Valid) (hD : sqDist c.center I - c.radius ^ 2 = k) :
    reflect (invV I k) (circ c) = circ c := by
  have hs : 0 < √k := Real.sqrt_pos.2 hk
  have r : 0 < c.radius := hc
  apply reflect_fix
  have e := pr_circ hc (show (⟨I, √k⟩ : Circle).Valid from hs)
  dsimp only at e
  rw [Real.sq_sqrt hk.le] at e
  have : pr (circ c) (circ ⟨I, √k⟩) * (2 * c.radius * √k) = 0 := by rw [e]; linarith
  rcases mul_eq_zero.1 this with h | h
  · exact h
  · have : 0 < 2 * c.radius * √k := by positivity
    linarith

end
end GV

namespace GV
noncomputable section
variable {n : ℕ} {O I : GV} {r m : ℕ → GV} {w : GV}

/-- The lists of first generations in the scripts. -/
theorem first_gen (h : Ring n O I r m w) (hm : ∀ i < n, m i 0 ≠ 0) {idx : ℕ → List ℕ} {ρ : ℕ → ℕ} {c' : ℕ → ℕ → Circle}
    (hnd : ∀ i < n, ((idx i).map ρ).Nodup) (hmem : ∀ i < n, ∀ k, k ∈ (idx i).map ρ ↔ k ≤ n ∧ (k ≠ i ∧ k ≠ (i + 1) % n))
    (hc : ∀ i < n, ∀ j ∈ idx i, (c' i j).Valid ∧ disc (c' i j) = region (reflect (m i) (ringV n I r (ρ j)))) :
    FirstGen n I r m ((List.range n).flatMap fun i => (idx i).map fun j => (c' i j, i)) := by
  refine ⟨?_, ?_, ?_⟩
  · intro p hp
    simp only [List.mem_flatMap, List.mem_range, List.mem_map] at hp
    obtain ⟨i, hi, j, hj, rfl⟩ := hp
    obtain ⟨h1, h2⟩ := (hmem i hi (ρ j)).1 (List.mem_map.2 ⟨j, hj, rfl⟩)
    obtain ⟨hv, hd⟩ := hc i hi j hj
    exact ⟨hv, i, hi, ρ j, h1, h2, rfl, hd⟩
  · intro i hi k hk hik
    obtain ⟨j, hj, rfl⟩ := List.mem_map.1 ((hmem i hi k).2 ⟨hk, hik⟩)
    refine ⟨c' i j, ?_, (hc i hi j hj).2⟩
    simp only [List.mem_flatMap, List.mem_range, List.mem_map]
    exact ⟨i, hi, j, hj, rfl⟩
  · rw [List.pairwise_flatMap]
    constructor
    · intro i hi
      rw [List.mem_range] at hi
      rw [List.pairwise_map]
      have hn := hnd i hi
      rw [List.Nodup, List.pairwise_map] at hn
      refine hn.imp_of_mem ?_
      intro j k hj hk hjk _
      dsimp only
      rw [(hc i hi j hj).2, (hc i hi k hk).2]
      have h1 := (hmem i hi (ρ j)).1 (List.mem_map.2 ⟨j, hj, rfl⟩)
      have h2 := (hmem i hi (ρ k)).1 (List.mem_map.2 ⟨k, hk, rfl⟩)
      refine ((h.opp_regions h1.1 h2.1 hjk).reflect (h.um i hi) (hm i hi)).ne ?_
      obtain ⟨p, hp⟩ := h.nonempty (ρ j)
      unfold NE
      rw [← image_gv (h.um i hi) (hm i hi)]
      exact ⟨_, p, hp, rfl⟩
    · refine List.Pairwise.imp ?_ (List.nodup_range (n := n))
      intro i k hik p hp q hq hpq
      obtain ⟨_, _, rfl⟩ := List.mem_map.1 hp
      obtain ⟨_, _, rfl⟩ := List.mem_map.1 hq
      exact absurd hpq hik

/-- What the tolerance of `invert_circle` needs: circles on the other side of the mirror, and away from the outer region, are far from the pole. -/
def FarFrom (O M : GV) : Prop := ∀ c : Circle, c.Valid → (∀ p ∈ (disc c).inside, 0 < xev M p) → (disc c).Apart (region O) →
  1 / 2 ^ 26 < sqDist c.center (inv M).pole - c.radius ^ 2

theorem far_disc {M : GV} (O : GV) (hM : pr M M = 1) (h0 : 0 < M 0) (hk : 1 / 2 ^ 26 ≤ (inv M).power) : FarFrom O M := by
  intro c hc hp _
  have ha : (disc c).Apart (mirrorDisc (inv M)) := by
    rw [← region_inv hM h0]
    refine Set.disjoint_left.2 ?_
    intro p hp1 hp2
    change xev M p < 0 at hp2
    have := hp p hp1
    linarith
  have := (image_apart (inv_power_pos h0.ne') hc ha).1
  linarith

theorem far_gap {M : GV} {c0 : Circle} (h0 : c0.Valid) (hgap : c0.radius + 1 / 2 ^ 13 ≤ Spec.dist (inv M).pole c0.center) : FarFrom (-circ c0) M := by
  intro c hc _ ha
  rw [region_neg_circ h0] at ha
  have := far_outside hc (inside_of_apart hc h0 ha) (by norm_num : (0 : ℝ) < 1 / 2 ^ 13) hgap
  norm_num at this ⊢
  linarith

/-- Inverting a circle of the ring in a mirror that does not fix it. -/
theorem ring_invert (h : Ring n O I r m w) (hm : ∀ i < n, m i 0 ≠ 0) (far : ∀ i < n, FarFrom O (m i)) {i j : ℕ} (hi : i < n)
    (hij : j ≠ i ∧ j ≠ (i + 1) % n) {c : Circle} (hc : c.Valid) (e : ringV n I r j = circ c) :
    ∃ c', (inv (m i)).invert_circle c = .ok (.circle c') ∧ c'.Valid ∧ disc c' = region (reflect (m i) (ringV n I r j)) := by
  have hopp := h.opp_mirror hi hij
  have hO := (h.opp_outer (j := j)).apart
  rw [e, region_circ hc] at hO
  have hfar := far i hi c hc (by
    intro p hp
    rw [← region_circ hc, ← e] at hp
    change xev (ringV n I r j) p < 0 at hp
    have := hopp p
    linarith) hO
  have hp26 : (0 : ℝ) < 1 / 2 ^ 26 := by norm_num
  obtain ⟨c', e', hv, -⟩ := C25_invert_circle (inv (m i)) (inv_power_pos (hm i hi)).ne' c hc (by rw [abs_of_pos (by linarith)]; exact hfar)
  have hd := (image_disc e').1 (by linarith)
  refine ⟨c', e', hv, ?_⟩
  rw [← hd, ← region_circ hc, ← e]
  exact image_gv (h.um i hi) (hm i hi) _

/-- Everything about the gasket of a ring. -/
theorem ring_packing (h : Ring n O I r m w) (hn : 3 ≤ n) (hm : ∀ i < n, m i 0 ≠ 0) (hw : w 0 ≠ 0) {C : List (Circle × ℕ)}
    (hC : FirstGen n I r m C) (far : ∀ i < n, FarFrom O (m i)) (farw : FarFrom O w) :
    ∃ L : ℕ → List (Circle × ℕ), ∀ d, generation (ringMirrors n m w) (C.map pairG) d = .ok ((L d).map pairG) ∧
      (L d).length = C.length * n ^ d ∧
      (∀ p ∈ L d, p.1.Valid ∧ (region O).Apart (disc p.1) ∧ ∀ j ≤ n, (region (ringV n I r j)).Apart (disc p.1)) ∧
      (L d).Pairwise (fun p q => (disc p.1).Apart (disc q.1)) ∧
      (∀ e < d, ∀ p ∈ L d, ∀ q ∈ L e, (disc p.1).Apart (disc q.1)) ∧
      ∀ p ∈ L d, ∃ q : Fin 3 → Region, Function.Injective q ∧ ∀ i, (disc p.1).Touches (q i) ∧
        (q i = region O ∨ (∃ j ≤ n, q i = region (ringV n I r j)) ∨ ∃ e ≤ d, ∃ p' ∈ L e, q i = disc p'.1) := by
  have hf : GasketFrame (ringMirrors n m w) (ringW n m w) (ringS n O I r) C := by
    refine h.frame hm hw hC ?_
    intro i k hi hk hki c hc hsub hap
    have hpos : ∀ p ∈ (disc c).inside, 0 < xev (ringM n m w i) p := by
      intro p hp
      have h1 := hsub hp
      rw [ringW_eq] at h1
      change xev (ringM n m w k) p < 0 at h1
      have := h.opp_mirrors hk hi hki p
      linarith
    unfold ringM at hpos ⊢
    by_cases hin : i < n
    · rw [if_pos hin] at hpos ⊢
      exact far i hin c hc hpos hap
    · rw [if_neg hin] at hpos ⊢
      exact farw c hc hpos hap
  choose L hL using hf.packing
  refine ⟨L, ?_⟩
  intro d
  obtain ⟨g1, g2, g3, g4, g5, g6⟩ := hL d
  refine ⟨g1, ?_, ?_, g4, ?_, ?_⟩
  · rw [g2, ringMirrors_length]; rfl
  · intro p hp
    exact ⟨(g3 p hp).1, (g5 p hp _ (Or.inl rfl)).symm, fun j hj => (g5 p hp _ (Or.inr ⟨j, hj, rfl⟩)).symm⟩
  · intro e he
    exact g6 e he (L e) (hL e).1
  · intro p hp
    obtain ⟨q, hq1, hq2⟩ := hf.touch 3 (h.touches_first hn hm hC hf) d (L d) g1 p hp
    refine ⟨q, hq1, ?_⟩
    intro i
    refine ⟨(hq2 i).2, ?_⟩
    rcases (hq2 i).1 with hS | ⟨e, he, L', hL', p', hp', hqe⟩
    · rcases hS with hS | ⟨j, hj, hS⟩
      · exact Or.inl hS
      · exact Or.inr (Or.inl ⟨j, hj, hS⟩)
    · right; right
      rw [(hL e).1] at hL'
      injection hL' with hL'
      obtain rfl := List.map_injective_iff.2 pairG_injective hL'
      exact ⟨e, he, p', hp', hqe⟩

end
end GV
