import Verif.Lemmas.SoddyGasket
import Verif.Model.MalfattiApollonian

/-! The inversions and the circles the scripts with Malfatti circles start from. -/

open Spec Real Classical MalfattiApollonian

namespace GV
noncomputable section

/-- `from_fixing_three_circles` finds the mirror. -/
theorem fixing_gv {m : GV} (hm : pr m m = 1) {c1 c2 c3 : Circle} (v1 : c1.Valid) (v2 : c2.Valid) (v3 : c3.Valid) (h1 : pr m (circ c1) = 0)
    (h2 : pr m (circ c2) = 0) (h3 : pr m (circ c3) = 0) {iota : Inversion} (hf : Inversion.from_fixing_three_circles c1 c2 c3 = .ok iota) :
    m 0 ≠ 0 ∧ iota = inv m := by
  unfold Inversion.from_fixing_three_circles at hf
  rw [Res.bind_ok] at hf
  obtain ⟨o, ho, hf⟩ := hf
  cases o with
  | none => cases hf
  | some R =>
    dsimp only at hf
    rw [Res.pure_ok] at hf
    have h0 : m 0 ≠ 0 := by
      intro h0
      have hnc := mt (C16_radical_center_none_iff _ _ _ _ ho).2 (by simp)
      apply hnc
      have lin : ∀ c : Circle, c.Valid → pr m (circ c) = 0 → m 2 * c.center.x + m 3 * c.center.y = m 1 / 2 := by
        intro c hc h
        have hr : 0 < c.radius := hc
        have : pr m (circ c) * c.radius = m 2 * c.center.x + m 3 * c.center.y - (m 0 * (c.center.x ^ 2 + c.center.y ^ 2 - c.radius ^ 2) + m 1) / 2 := by
          simp only [pr, circ, Matrix.cons_val_zero, Matrix.cons_val_one, Matrix.cons_val]
          field_simp
        rw [h, h0] at this
        linarith
      have l1 := lin _ v1 h1
      have l2 := lin _ v2 h2
      have l3 := lin _ v3 h3
      have hn : m 2 ^ 2 + m 3 ^ 2 = 1 := by unfold pr at hm; rw [h0] at hm; linarith
      simp only [Collinear, cross, Pt.sub_x, Pt.sub_y]
      have a2 : m 2 * (c2.center.x - c1.center.x) + m 3 * (c2.center.y - c1.center.y) = 0 := by linarith
      have a3 : m 2 * (c3.center.x - c1.center.x) + m 3 * (c3.center.y - c1.center.y) = 0 := by linarith
      obtain ⟨ux, hux⟩ : ∃ ux, ux = c2.center.x - c1.center.x := ⟨_, rfl⟩
      obtain ⟨uy, huy⟩ : ∃ uy, uy = c2.center.y - c1.center.y := ⟨_, rfl⟩
      obtain ⟨wx, hwx⟩ : ∃ wx, wx = c3.center.x - c1.center.x := ⟨_, rfl⟩
      obtain ⟨wy, hwy⟩ : ∃ wy, wy = c3.center.y - c1.center.y := ⟨_, rfl⟩
      rw [← hux, ← huy] at a2
      rw [← hwx, ← hwy] at a3
      rw [← hux, ← huy, ← hwx, ← hwy]
      linear_combination (-(ux * wy - uy * wx)) * hn + (m 2 * wy - m 3 * wx) * a2 + (m 3 * ux - m 2 * uy) * a3
    refine ⟨h0, ?_⟩
    obtain ⟨-, hu⟩ := C16_radical_center_three _ _ _ R ho
    have e1 := orth_power hm h0 v1 h1
    have e2 := orth_power hm h0 v2 h2
    have e3 := orth_power hm h0 v3 h3
    rw [sqDist_comm] at e1 e2 e3
    have hR : (inv m).pole = R := by
      apply hu
      · unfold specPower; linarith
      · unfold specPower; linarith
    rw [← hf, ← hR, power_eq]
    unfold specPower
    rw [e1]

/-- The image of a circle that is not turned inside out. -/
theorem new_disc {m : GV} (hm : pr m m = 1) (h0 : m 0 ≠ 0) {c c' : Circle} (hc : c.Valid) (e : (inv m).invert_circle c = .ok (.circle c')) :
    (XPt.inf ∉ (region (reflect m (circ c))).inside → disc c' = region (reflect m (circ c))) ∧
    (XPt.inf ∉ (region (reflect m (-circ c))).inside → disc c' = region (reflect m (-circ c))) := by
  rw [← image_gv hm h0, ← image_gv hm h0, region_circ hc, region_neg_circ hc]
  obtain ⟨i1, i2⟩ := image_disc e
  obtain ⟨D, hD, hD0, hcen, hrad, hval⟩ := invert_circle_explicit e
  have hk := (inv_power_pos h0).ne'
  rcases lt_trichotomy (c.radius ^ 2) (sqDist c.center (inv m).pole) with h | h | h
  · refine ⟨fun _ => (i1 h).symm, fun hi => absurd ?_ hi⟩
    have := image_outside hk hD (by linarith) hcen hrad
    unfold mirror
    rw [this]
    exact Or.inl rfl
  · exact absurd (by rw [hD, h]; ring) hD0
  · obtain ⟨j1, j2⟩ := i2 h
    refine ⟨fun hi => absurd ?_ hi, fun _ => j2.symm⟩
    unfold mirror
    rw [j1]
    exact Or.inl rfl

variable {c0 c1 c2 O : Circle}

theorem mir_self (h : Soddy c0 c1 c2 O) (i : Fin 4) : pr (mir (four c0 c1 c2 O) i) (mir (four c0 c1 c2 O) i) = 1 := by
  rw [(four_spec h).mir_mir, if_pos rfl]

/-- The mirrors are orthogonal to the other circles. -/
theorem mir_orth (h : Soddy c0 c1 c2 O) (i : Fin 4) :
    (i ≠ 0 → pr (mir (four c0 c1 c2 O) i) (circ c0) = 0) ∧ (i ≠ 1 → pr (mir (four c0 c1 c2 O) i) (circ c1) = 0) ∧
    (i ≠ 2 → pr (mir (four c0 c1 c2 O) i) (circ c2) = 0) ∧ (i ≠ 3 → pr (mir (four c0 c1 c2 O) i) (circ O) = 0) := by
  have hf := four_spec h
  refine ⟨?_, ?_, ?_, ?_⟩
  · intro hi
    have := hf.mir_v i 0
    rwa [if_neg hi] at this
  · intro hi
    have := hf.mir_v i 1
    rwa [if_neg hi] at this
  · intro hi
    have := hf.mir_v i 2
    rwa [if_neg hi] at this
  · intro hi
    have := hf.mir_v i 3
    rw [if_neg hi] at this
    change pr _ (-circ O) = 0 at this
    rw [pr_neg'] at this
    linarith

/-- The new regions do not contain the point at infinity. -/
theorem new_bounded (h : Soddy c0 c1 c2 O) (hm : ∀ i, mir (four c0 c1 c2 O) i 0 ≠ 0) (i : Fin 4) :
    XPt.inf ∉ (region (reflect (mir (four c0 c1 c2 O) i) (four c0 c1 c2 O i))).inside := by
  have hf := four_spec h
  have hn := mir_self h
  by_cases hi : i = 3
  · subst hi
    have r0 : 0 < 1 / c0.radius := one_div_pos.2 h.v0
    have r1 : 0 < 1 / c1.radius := one_div_pos.2 h.v1
    have r2 : 0 < 1 / c2.radius := one_div_pos.2 h.v2
    have rO : 0 < 1 / O.radius := one_div_pos.2 h.vO
    change ¬ (reflect (mir (four c0 c1 c2 O) 3) (four c0 c1 c2 O 3) 0 < 0)
    have e : pr (four c0 c1 c2 O 3) (mir (four c0 c1 c2 O) 3) = -2 := by rw [pr_comm, hf.mir_v, if_pos rfl]
    unfold reflect
    rw [e]
    change ¬ (-(1 / O.radius) - 2 * (-2) * ((1 / 2 : ℝ) * (1 / c0.radius + 1 / c1.radius + 1 / c2.radius + -(1 / O.radius)) - -(1 / O.radius)) < 0)
    linarith
  · intro hin
    have ha : (region (four c0 c1 c2 O i)).Apart (region (four c0 c1 c2 O 3)) := region_apart (hf.v_apart hi)
    have hiv : Function.Involutive (mirror (inv (mir (four c0 c1 c2 O) i))) := xinv_involutive _ (inv_power_pos (hm i)).ne'
    have h2 := Region.apart_image hiv ha
    rw [image_gv (hn i) (hm i), image_gv (hn i) (hm i), reflect_fix (X := four c0 c1 c2 O 3) (by rw [pr_comm, hf.mir_v, if_neg hi])] at h2
    refine Set.disjoint_left.1 h2 hin ?_
    rw [show region (four c0 c1 c2 O 3) = outside O from region_neg_circ h.vO]
    exact Or.inl rfl

/-- The new region touches the three regions it is made from. -/
theorem new_touches (h : Soddy c0 c1 c2 O) (hm : ∀ i, mir (four c0 c1 c2 O) i 0 ≠ 0) {i j : Fin 4} (hij : i ≠ j) :
    (region (reflect (mir (four c0 c1 c2 O) i) (four c0 c1 c2 O i))).Touches (region (four c0 c1 c2 O j)) := by
  have hf := four_spec h
  have hn := mir_self h
  have hiv : Function.Involutive (mirror (inv (mir (four c0 c1 c2 O) i))) := xinv_involutive _ (inv_power_pos (hm i)).ne'
  have h2 := Region.touches_image hiv (region_touches (hf.self i) (hf.self j) (hf.tangent i j hij) (hf.pos i j hij))
  rw [image_gv (hn i) (hm i), image_gv (hn i) (hm i), reflect_fix (X := four c0 c1 c2 O j) (by rw [pr_comm, hf.mir_v, if_neg hij])] at h2
  exact h2

/-- Everything the script has before it calls `gasket`. -/
theorem start_gv (h : Soddy c0 c1 c2 O) {i0 i1 i2 i3 : Inversion} {g0 g1 g2 g3 : Circle}
    (f0 : Inversion.from_fixing_three_circles O c1 c2 = .ok i0) (f1 : Inversion.from_fixing_three_circles O c0 c2 = .ok i1)
    (f2 : Inversion.from_fixing_three_circles O c0 c1 = .ok i2) (f3 : Inversion.from_fixing_three_circles c0 c1 c2 = .ok i3)
    (e0 : i0.invert_circle c0 = .ok (.circle g0)) (e1 : i1.invert_circle c1 = .ok (.circle g1))
    (e2 : i2.invert_circle c2 = .ok (.circle g2)) (e3 : i3.invert_circle O = .ok (.circle g3)) :
    (∀ i, mir (four c0 c1 c2 O) i 0 ≠ 0) ∧ [i0, i1, i2, i3] = Four.mirs (four c0 c1 c2 O) ∧
    ∀ i, (![g0, g1, g2, g3] i).Valid ∧ disc (![g0, g1, g2, g3] i) = region (reflect (mir (four c0 c1 c2 O) i) (four c0 c1 c2 O i)) := by
  have hn := mir_self h
  have ho := mir_orth h
  obtain ⟨m0, rfl⟩ := fixing_gv (hn 0) h.vO h.v1 h.v2 ((ho 0).2.2.2 (by decide)) ((ho 0).2.1 (by decide)) ((ho 0).2.2.1 (by decide)) f0
  obtain ⟨m1, rfl⟩ := fixing_gv (hn 1) h.vO h.v0 h.v2 ((ho 1).2.2.2 (by decide)) ((ho 1).1 (by decide)) ((ho 1).2.2.1 (by decide)) f1
  obtain ⟨m2, rfl⟩ := fixing_gv (hn 2) h.vO h.v0 h.v1 ((ho 2).2.2.2 (by decide)) ((ho 2).1 (by decide)) ((ho 2).2.1 (by decide)) f2
  obtain ⟨m3, rfl⟩ := fixing_gv (hn 3) h.v0 h.v1 h.v2 ((ho 3).1 (by decide)) ((ho 3).2.1 (by decide)) ((ho 3).2.2.1 (by decide)) f3
  have hm : ∀ i, mir (four c0 c1 c2 O) i 0 ≠ 0 := by
    intro i
    fin_cases i
    exacts [m0, m1, m2, m3]
  refine ⟨hm, rfl, ?_⟩
  intro i
  have hb := new_bounded h hm
  fin_cases i
  · exact ⟨(invert_circle_explicit e0).choose_spec.2.2.2.2, (new_disc (hn 0) m0 h.v0 e0).1 (hb 0)⟩
  · exact ⟨(invert_circle_explicit e1).choose_spec.2.2.2.2, (new_disc (hn 1) m1 h.v1 e1).1 (hb 1)⟩
  · exact ⟨(invert_circle_explicit e2).choose_spec.2.2.2.2, (new_disc (hn 2) m2 h.v2 e2).1 (hb 2)⟩
  · exact ⟨(invert_circle_explicit e3).choose_spec.2.2.2.2, (new_disc (hn 3) m3 h.vO e3).2 (hb 3)⟩

/-- The regions are distinct. -/
theorem four_injective (h : Soddy c0 c1 c2 O) : Function.Injective fun i => region (four c0 c1 c2 O i) := by
  have hf := four_spec h
  intro i j hij
  by_contra hne
  have ha : (region (four c0 c1 c2 O i)).Apart (region (four c0 c1 c2 O j)) := region_apart (hf.v_apart hne)
  dsimp only at hij
  rw [hij] at ha
  have hempty : (region (four c0 c1 c2 O j)).inside = ∅ := by
    ext p
    simp only [Set.mem_empty_iff_false, iff_false]
    intro hp
    exact Set.disjoint_left.1 ha hp hp
  have : ∃ p, p ∈ (region (four c0 c1 c2 O j)).inside := by
    have key : ∀ c : Circle, c.Valid → ∃ p, p ∈ (region (circ c)).inside := by
      intro c hc
      have hr : 0 < c.radius := hc
      refine ⟨.fin c.center, ?_⟩
      rw [region_circ hc, mem_disc_fin]
      have : sqDist c.center c.center = 0 := by unfold sqDist; ring
      rw [this]
      positivity
    fin_cases j
    · exact key c0 h.v0
    · exact key c1 h.v1
    · exact key c2 h.v2
    · refine ⟨.inf, ?_⟩
      change XPt.inf ∈ (region (four c0 c1 c2 O 3)).inside
      rw [show region (four c0 c1 c2 O 3) = outside O from region_neg_circ h.vO]
      exact Or.inl rfl
  rw [hempty] at this
  exact this.choose_spec

/-- Three of the four indices. -/
theorem three_others (i : Fin 4) : ∃ f : Fin 3 → Fin 4, Function.Injective f ∧ ∀ k, i ≠ f k := by
  fin_cases i
  · exact ⟨![1, 2, 3], by decide, by decide⟩
  · exact ⟨![0, 2, 3], by decide, by decide⟩
  · exact ⟨![0, 1, 3], by decide, by decide⟩
  · exact ⟨![0, 1, 2], by decide, by decide⟩

end
end GV

/-- The levels of the script are the generations. -/
theorem MalfattiApollonian.gasket_eq {mirrors : List Inversion} {C : List (Circle × ℕ)}
    (h : ∀ d, ∃ L : List (Circle × ℕ), Gasket.generation mirrors (C.map pairG) d = .ok (L.map pairG)) (d : ℕ) :
    gasket mirrors (C.map pairG) d = Gasket.generation mirrors (C.map pairG) d := by
  induction d with
  | zero => rfl
  | succ d ih =>
    obtain ⟨L, hL⟩ := h d
    obtain ⟨L', hL'⟩ := h (d + 1)
    rw [hL']
    unfold gasket
    rw [ih, hL, Res.ok_bind]
    have : Gasket.children mirrors (L.map pairG) = .ok (L'.map pairG) := by
      rw [← generation_succ hL, hL']
    rw [this, Res.ok_bind]
    have := mapM_ok (fun circle : GCircle × ℕ => do
      let c ← centered circle.1
      return (c, circle.2)) (fun p => p) (L'.map pairG) ?_
    · rw [List.map_id'] at this; exact this
    · intro p hp
      obtain ⟨q, -, rfl⟩ := List.mem_map.1 hp
      rfl
