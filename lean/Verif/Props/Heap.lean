import Verif.Model.Heap
import Verif.Lemmas.Basic

/-!
# C76: sharing of state with the caller's arrays
-/

open Classical

/-- The caller's arrays have been allocated. -/
def World.Wf (w : World) : Prop := ∀ a ∈ w.known, a < w.heap.next

theorem asarray_next_le (h : Heap) (v : HArg) : h.next ≤ (v.asarray h).2.next := by
  cases v <;> simp [HArg.asarray, Heap.alloc]

theorem asarray_get (h : Heap) (v : HArg) (a : ℕ) (ha : a < h.next) : (v.asarray h).2.get a = h.get a := by
  cases v with
  | arr b => rfl
  | seq l => simp [HArg.asarray, Heap.alloc, Function.update_of_ne (Nat.ne_of_lt ha)]

/-- What the constructors do to the memory: nothing below the old free address, and the free address does not go down. -/
theorem circle_init_frame (h : Heap) (v : HArg) (r : ℝ) (c : HCircle) (h' : Heap) (e : HCircle.init h v r = .ok (c, h')) :
    h.next ≤ h'.next ∧ (∀ a < h.next, h'.get a = h.get a) ∧ c.center = (v.asarray h).1 ∧ h' = (v.asarray h).2 ∧
      c.radius = r ∧ 0 < r ∧ (v.entries h).length = 2 := by
  unfold HCircle.init HArg.check at e
  by_cases hl : (v.entries h).length = 2
  · rw [if_neg (by simpa using hl), Res.ok_bind] at e
    by_cases hr : r ≤ 0
    · rw [if_pos hr] at e; cases e
    · rw [if_neg hr] at e
      injection e with e
      injection e with e1 e2
      subst e1 e2
      exact ⟨asarray_next_le h v, asarray_get h v, rfl, rfl, rfl, not_le.1 hr, hl⟩
  · rw [if_pos hl, Res.error_bind] at e
    cases e

theorem inversion_init_frame (h : Heap) (v : HArg) (k : ℝ) (i : HInversion) (h' : Heap)
    (e : HInversion.init h v k = .ok (i, h')) :
    h.next ≤ h'.next ∧ (∀ a < h.next, h'.get a = h.get a) ∧ i.pole = (v.asarray h).1 ∧ h' = (v.asarray h).2 ∧
      i.power = k ∧ (v.entries h).length = 2 := by
  unfold HInversion.init HArg.check at e
  by_cases hl : (v.entries h).length = 2
  · rw [if_neg (by simpa using hl), Res.ok_bind] at e
    injection e with e
    injection e with e1 e2
    subst e1 e2
    exact ⟨asarray_next_le h v, asarray_get h v, rfl, rfl, rfl, hl⟩
  · rw [if_pos hl, Res.error_bind] at e
    cases e

theorem line_init_frame (h : Heap) (v u : HArg) (x y : Bool) (l : HLine) (h' : Heap) (e : HLine.init h v u x y = .ok (l, h')) :
    h.next ≤ h'.next ∧ (∀ a < h.next, h'.get a = h.get a) ∧ l.A = (v.asarray h).1 ∧
      l.B = (u.asarray (v.asarray h).2).1 ∧ h' = (u.asarray (v.asarray h).2).2 ∧ (v.entries h).length = 2 ∧
      (u.entries h).length = 2 ∧ l.extendA = x ∧ l.extendB = y := by
  unfold HLine.init HArg.check at e
  by_cases hv : (v.entries h).length = 2
  · rw [if_neg (by simpa using hv), Res.ok_bind] at e
    by_cases hu : (u.entries h).length = 2
    · rw [if_neg (by simpa using hu), Res.ok_bind] at e
      dsimp only at e
      split at e
      · cases e
      · injection e with e
        injection e with e1 e2
        subst e1 e2
        refine ⟨(asarray_next_le h v).trans (asarray_next_le _ u), fun a ha => ?_, rfl, rfl, rfl, hv, hu, rfl, rfl⟩
        rw [asarray_get _ u a (ha.trans_le (asarray_next_le h v)), asarray_get h v a ha]
    · rw [if_pos hu, Res.error_bind] at e; cases e
  · rw [if_pos hv, Res.error_bind] at e; cases e

theorem pfa_frame (h : Heap) (e : Ellipse) (v : HArg) (d : Bool) :
    h.next ≤ (e.point_from_angleH h v d).2.next ∧
      ∀ a < h.next, (∀ b, v = .arr b → a ≠ b) → (e.point_from_angleH h v d).2.get a = h.get a := by
  unfold Ellipse.point_from_angleH
  cases v with
  | arr b =>
    refine ⟨?_, fun a ha hb => ?_⟩
    · cases d <;> simp [HArg.asarray, Heap.write]
    · have : a ≠ b := hb b rfl
      cases d <;> simp [HArg.asarray, Heap.write, Function.update_of_ne this]
  | seq l =>
    refine ⟨?_, fun a ha _ => ?_⟩
    · cases d <;> simp [HArg.asarray, Heap.write, Heap.alloc]
    · have : a ≠ h.next := Nat.ne_of_lt ha
      cases d <;> simp [HArg.asarray, Heap.write, Heap.alloc, Function.update_of_ne this]

/-- One event neither breaks the well-formedness nor changes an array that the caller has no reference to. -/
theorem step_frame (w : World) (hw : w.Wf) (ev : Ev) :
    (w.step ev).Wf ∧ w.heap.next ≤ (w.step ev).heap.next ∧
      ∀ a < w.heap.next, a ∉ w.known → (w.step ev).heap.get a = w.heap.get a ∧ a ∉ (w.step ev).known := by
  have keep : ∀ h : Heap, w.heap.next ≤ h.next → (∀ a < w.heap.next, a ∉ w.known → h.get a = w.heap.get a) →
      World.Wf ⟨h, w.known⟩ ∧ w.heap.next ≤ h.next ∧
        ∀ a < w.heap.next, a ∉ w.known → h.get a = w.heap.get a ∧ a ∉ w.known := by
    intro h hn hg
    exact ⟨fun a ha => (hw a ha).trans_le hn, hn, fun a ha hk => ⟨hg a ha hk, hk⟩⟩
  have same := keep w.heap le_rfl (fun _ _ _ => rfl)
  cases ev with
  | alloc l =>
    refine ⟨?_, by simp [World.step, Heap.alloc], ?_⟩
    · intro a ha
      rcases ha with rfl | ha
      · simp [World.step, Heap.alloc]
      · exact (hw a ha).trans (by simp [World.step, Heap.alloc])
    · intro a ha hk
      refine ⟨?_, ?_⟩
      · simp [World.step, Heap.alloc, Function.update_of_ne (Nat.ne_of_lt ha)]
      · simp only [World.step, Set.mem_insert_iff, not_or]
        exact ⟨Nat.ne_of_lt ha, hk⟩
  | write b l =>
    simp only [World.step]
    split
    · rename_i hb
      refine keep _ le_rfl fun a _ hk => ?_
      have : a ≠ b := fun h => hk (h ▸ hb)
      simp [Heap.write, Function.update_of_ne this]
    · exact same
  | newCircle v r =>
    simp only [World.step]
    split
    · split
      · rename_i e
        obtain ⟨h1, h2, -⟩ := circle_init_frame _ _ _ _ _ e
        exact keep _ h1 fun a ha _ => h2 a ha
      · exact same
    · exact same
  | newLine v u =>
    simp only [World.step]
    split
    · split
      · rename_i e
        obtain ⟨h1, h2, -⟩ := line_init_frame _ _ _ _ _ _ _ e
        exact keep _ h1 fun a ha _ => h2 a ha
      · exact same
    · exact same
  | newInversion v k =>
    simp only [World.step]
    split
    · split
      · rename_i e
        obtain ⟨h1, h2, -⟩ := inversion_init_frame _ _ _ _ _ e
        exact keep _ h1 fun a ha _ => h2 a ha
      · exact same
    · exact same
  | pointFromAngle e v d =>
    simp only [World.step]
    split
    · rename_i hv
      obtain ⟨h1, h2⟩ := pfa_frame w.heap e v d
      refine keep _ h1 fun a ha hk => h2 a ha ?_
      intro b hb hab
      subst hb
      exact hk (hab ▸ hv)
    · exact same

theorem run_frame (evs : List Ev) : ∀ w : World, w.Wf → ∀ a < w.heap.next, a ∉ w.known →
    (w.run evs).heap.get a = w.heap.get a := by
  induction evs with
  | nil => intro w _ a _ _; rfl
  | cons ev evs ih =>
    intro w hw a ha hk
    obtain ⟨h1, h2, h3⟩ := step_frame w hw ev
    obtain ⟨h4, h5⟩ := h3 a ha hk
    have := ih (w.step ev) h1 a (ha.trans_le h2) h5
    rw [← h4, ← this]
    rfl

/-- C76: an object constructed from tuples, lists or integer arrays keeps its attributes whatever the caller does
afterwards with their arrays (writes, new arrays, new objects, calls of `point_from_angle`) - for every finite history.
Missing: the claim is false for arguments that are float arrays (`C76_alias_counterexample`). -/
theorem C76_history_partial (w : World) (hw : w.Wf) (p q : List ℝ) (evs : List Ev) :
    (∀ r c h, HCircle.init w.heap (.seq p) r = .ok (c, h) →
      c.view ((World.mk h w.known).run evs).heap = ⟨⟨p.getD 0 0, p.getD 1 0⟩, r⟩) ∧
    (∀ k i h, HInversion.init w.heap (.seq p) k = .ok (i, h) →
      i.view ((World.mk h w.known).run evs).heap = ⟨⟨p.getD 0 0, p.getD 1 0⟩, k⟩) ∧
    (∀ x y l h, HLine.init w.heap (.seq p) (.seq q) x y = .ok (l, h) →
      l.view ((World.mk h w.known).run evs).heap = ⟨⟨p.getD 0 0, p.getD 1 0⟩, ⟨q.getD 0 0, q.getD 1 0⟩, x, y⟩) := by
  have nk : ∀ a, w.heap.next ≤ a → a ∉ w.known := fun a ha hk => absurd (hw a hk) (not_lt.2 ha)
  refine ⟨?_, ?_, ?_⟩
  · intro r c h e
    obtain ⟨h1, -, h3, h4, h5, -⟩ := circle_init_frame _ _ _ _ _ e
    have hW : World.Wf ⟨h, w.known⟩ := fun a ha => (hw a ha).trans_le h1
    have hc : c.center = w.heap.next := h3
    have hn : h.next = w.heap.next + 1 := by rw [h4]; rfl
    have hg : h.get w.heap.next = p := by rw [h4]; simp [HArg.asarray, Heap.alloc]
    have := run_frame evs _ hW w.heap.next (by simp [hn]) (nk _ le_rfl)
    simp [HCircle.view, Heap.pt, hc, this, hg, h5]
  · intro k i h e
    obtain ⟨h1, -, h3, h4, h5, -⟩ := inversion_init_frame _ _ _ _ _ e
    have hW : World.Wf ⟨h, w.known⟩ := fun a ha => (hw a ha).trans_le h1
    have hc : i.pole = w.heap.next := h3
    have hn : h.next = w.heap.next + 1 := by rw [h4]; rfl
    have hg : h.get w.heap.next = p := by rw [h4]; simp [HArg.asarray, Heap.alloc]
    have := run_frame evs _ hW w.heap.next (by simp [hn]) (nk _ le_rfl)
    simp [HInversion.view, Heap.pt, hc, this, hg, h5]
  · intro x y l h e
    obtain ⟨h1, -, h3, h4, h5, -, -, h6, h7⟩ := line_init_frame _ _ _ _ _ _ _ e
    have hW : World.Wf ⟨h, w.known⟩ := fun a ha => (hw a ha).trans_le h1
    have hA : l.A = w.heap.next := h3
    have hB : l.B = w.heap.next + 1 := h4
    have hn : h.next = w.heap.next + 2 := by rw [h5]; rfl
    have hgA : h.get w.heap.next = p := by rw [h5]; simp [HArg.asarray, Heap.alloc]
    have hgB : h.get (w.heap.next + 1) = q := by rw [h5]; simp [HArg.asarray, Heap.alloc]
    have e1 := run_frame evs _ hW w.heap.next (by simp [hn]) (nk _ le_rfl)
    have e2 := run_frame evs _ hW (w.heap.next + 1) (by simp [hn]) (nk _ (by omega))
    simp [HLine.view, Heap.pt, hA, hB, e1, e2, hgA, hgB, h6, h7]

/-- C76: the constructors do not change the arrays of the caller, and `point_from_angle` does not change the other arrays,
nor any array if the angles are given as a tuple or a list, or in radians. -/
theorem C76_no_write_partial (w : World) (hw : w.Wf) (a : ℕ) (ha : a ∈ w.known) (v u : HArg) (r : ℝ) (e : Ellipse) (d : Bool) :
    (w.step (.newCircle v r)).heap.get a = w.heap.get a ∧ (w.step (.newLine v u)).heap.get a = w.heap.get a ∧
    (w.step (.newInversion v r)).heap.get a = w.heap.get a ∧
    ((d = false ∨ ∀ b, v = .arr b → a ≠ b) → (w.step (.pointFromAngle e v d)).heap.get a = w.heap.get a) := by
  have han := hw a ha
  refine ⟨?_, ?_, ?_, ?_⟩
  · simp only [World.step]
    split
    · split
      · rename_i e
        exact (circle_init_frame _ _ _ _ _ e).2.1 a han
      · rfl
    · rfl
  · simp only [World.step]
    split
    · split
      · rename_i e
        exact (line_init_frame _ _ _ _ _ _ _ e).2.1 a han
      · rfl
    · rfl
  · simp only [World.step]
    split
    · split
      · rename_i e
        exact (inversion_init_frame _ _ _ _ _ e).2.1 a han
      · rfl
    · rfl
  · intro h
    simp only [World.step]
    split
    · rcases h with rfl | h
      · simp only [Ellipse.point_from_angleH, Bool.false_eq_true, if_false]
        exact asarray_get w.heap v a han
      · exact (pfa_frame w.heap e v d).2 a han h
    · rfl

/-- A world with one array `[5, 6]` of the caller: constructing a circle from it leaves it as it is. -/
example : ((World.mk ⟨fun _ => [5, 6], 1⟩ {0}).step (.newCircle (.arr 0) 3)).heap.get 0 = [5, 6] :=
  (C76_no_write_partial ⟨⟨fun _ => [5, 6], 1⟩, {0}⟩ (by
    intro a ha
    rw [Set.mem_singleton_iff.1 ha]
    exact Nat.one_pos) 0 rfl (.arr 0) (.arr 0) 3 ⟨⟨0, 0⟩, 2, 1, 0, true⟩ false).1

/-- C76 fails: for every circle constructed from a float array, a later write of the caller into this array moves the
circle. -/
theorem C76_alias_counterexample (w : World) (a : ℕ) (ha : a ∈ w.known) (r : ℝ) (hr : 0 < r)
    (hl : (w.heap.get a).length = 2) (x y : ℝ) :
    ∃ c h, HCircle.init w.heap (.arr a) r = .ok (c, h) ∧
      c.view ((World.mk h w.known).run [.write a [x, y]]).heap = ⟨⟨x, y⟩, r⟩ := by
  refine ⟨⟨a, r⟩, w.heap, ?_, ?_⟩
  · unfold HCircle.init HArg.check
    rw [if_neg (by simpa [HArg.entries] using hl), Res.ok_bind, if_neg (not_le.2 hr)]
    rfl
  · simp [World.run, World.step, ha, HCircle.view, Heap.pt, Heap.write]

/-- C76 fails: `point_from_angle` multiplies the float array of angles given by the caller by `pi/180`. -/
theorem C76_mutation_counterexample (w : World) (a : ℕ) (ha : a ∈ w.known) (e : Ellipse) :
    (w.step (.pointFromAngle e (.arr a) true)).heap.get a = (w.heap.get a).map (· * (Real.pi / 180)) := by
  have h : (HArg.arr a).In w.known := ha
  simp [World.step, h, Ellipse.point_from_angleH, HArg.asarray, Heap.write]

/-- C76 fails: the array returned by `iota.invert(inf)` is the pole of the inversion, a write into it moves the pole;
`as_ellipse` makes the circle and the ellipse share their center. -/
theorem C76_shared_result_counterexample (h : Heap) (i : HInversion) (c : HCircle) (x y : ℝ) :
    i.view (h.write i.invert_inf [x, y]) = ⟨⟨x, y⟩, i.power⟩ ∧
    c.view ((c.as_ellipse_center h).2.write (c.as_ellipse_center h).1 [x, y]) = ⟨⟨x, y⟩, c.radius⟩ := by
  constructor
  · simp [HInversion.view, HInversion.invert_inf, Heap.pt, Heap.write]
  · simp [HCircle.view, HCircle.as_ellipse_center, HArg.asarray, Heap.pt, Heap.write]

/-- The points computed by `point_from_angle` on a vector are those of the scalar model, in both units. -/
theorem C76_point_from_angle_vector (h : Heap) (e : Ellipse) (v : HArg) (d : Bool) :
    (e.point_from_angleH h v d).1 =
      (v.entries h).map fun t => e.point_from_angle (if d = true then t * (Real.pi / 180) else t) false := by
  cases v <;> cases d <;>
    simp [Ellipse.point_from_angleH, HArg.asarray, HArg.entries, Heap.write, Heap.alloc, Function.comp_def]

/-- A world with one array of the caller, a circle constructed from a tuple, and a history. -/
example : ∃ w : World, w.Wf ∧ 0 ∈ w.known ∧ (w.heap.get 0).length = 2 ∧
    ∃ c h, HCircle.init w.heap (.seq [1, 2]) 3 = .ok (c, h) := by
  refine ⟨⟨⟨fun _ => [5, 6], 1⟩, {0}⟩, ?_, rfl, rfl, ?_⟩
  · intro a ha
    rw [Set.mem_singleton_iff.1 ha]
    exact Nat.one_pos
  · unfold HCircle.init HArg.check
    rw [if_neg (by simp [HArg.entries]), Res.ok_bind, if_neg (by norm_num)]
    exact ⟨_, _, rfl⟩
