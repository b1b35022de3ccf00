import Verif.Lemmas.SchottkyCircle
import Verif.Props.SchottkyWords

/-!
# C105: examples/Schottky.py

For the angles `-π/2 < θ < 0` with `3 - sin θ < 4 cos θ` (the script has `θ = -0.5`) the four circles touch or are apart, the transformations exchange them, and
every reduced word of at least two letters has a circle: the circles of one generation are different, their insides are disjoint and the insides of the next
generation are in them.  The script means to draw the circles of generation `n`, but composes the transformations in the wrong order: it draws the circles of the
cyclically reduced words only, and some circles of generation `n - 1`.
-/

open Spec Real Classical

namespace Schottky

/-- The circle of a word as a set of points: the transformations `e` of the letters but the last applied to the circle of the last letter. -/
def wordSet (D : Data) (e : Letter → Equiv.Perm XPt) (t : List Letter) : Set XPt := genSet (fun x => e x) (fun x => gset (D.circ x)) t

/-- Not in the repository: the composition with `left=False`. -/
noncomputable def composeFixed : List Mobius → Res Mobius
  | [] => .error .typeError
  | m :: ms => .ok (ms.foldl (fun M1 M2 => M1.compose M2 false) m)

/-- Not in the repository: `circle` with the other order of composition. -/
noncomputable def circleFixed (D : Data) (n : ℕ) (g : FreeGroup Gen) : Res GCircle := do
  let seq := transfo2seq g
  let mobius ← composeFixed ((seq.map D.mob).take (n - 1))
  match seq.getLast? with
  | some x => applyTo mobius (D.circ x)
  | none => .error .typeError

theorem composeFixed_spec {X R : ℝ} (hR : 1 < R) {e : Letter → Equiv.Perm XPt} (he : Acts (dataOf X R) e) {u : List Letter} (hu : u ≠ []) :
    ∃ f, composeFixed (u.map (dataOf X R).mob) = .ok f ∧ 1 ≤ ‖Matrix.det f.M‖ ∧ ∀ P, f.transform P = .ok ((u.map e).prod P) := by
  have key : ∀ (v : List Letter) (f : Mobius) (E : Equiv.Perm XPt), 1 ≤ ‖Matrix.det f.M‖ → (∀ P, f.transform P = .ok (E P)) →
      1 ≤ ‖Matrix.det ((v.map (dataOf X R).mob).foldl (fun M1 M2 => M1.compose M2 false) f).M‖ ∧
      ∀ P, ((v.map (dataOf X R).mob).foldl (fun M1 M2 => M1.compose M2 false) f).transform P = .ok ((E * (v.map e).prod) P) := by
    intro v
    induction v with
    | nil => intro f E hf hE; exact ⟨hf, fun P => by simpa using hE P⟩
    | cons y v ih =>
      intro f E hf hE
      have hy := det_mob (X := X) hR y
      have hc := C49_compose f ((dataOf X R).mob y) (ne_zero_of_norm hf) (ne_zero_of_norm hy)
      obtain ⟨i1, i2⟩ := ih (f.compose ((dataOf X R).mob y) false) (E * e y)
        (by
          show 1 ≤ ‖Matrix.det (f.M * ((dataOf X R).mob y).M)‖
          rw [Matrix.det_mul, norm_mul]
          exact one_le_mul_of_one_le_of_one_le hf hy)
        (by
          intro P
          rw [(hc P).2.1, he, Res.ok_bind, hE]
          rfl)
      refine ⟨i1, ?_⟩
      intro P
      rw [List.map_cons, List.foldl_cons, i2, List.map_cons, List.prod_cons, mul_assoc]
  cases u with
  | nil => exact absurd rfl hu
  | cons x v =>
    obtain ⟨k1, k2⟩ := key v ((dataOf X R).mob x) (e x) (det_mob hR x) (he x)
    exact ⟨_, rfl, k1, k2⟩

theorem data_good {θ : ℝ} (h1 : -(π / 2) < θ) (h2 : θ < 0) (h3 : 3 - sin θ < 4 * cos θ) {D : Data} (hD : data θ = .ok D) :
    ∃ X R, D = dataOf X R ∧ Good X R := by
  obtain ⟨X, R, e, hX, hR, eX, eR⟩ := data_eq h1 h2
  obtain ⟨r1, r2⟩ := key_relation h1 h2 eX eR
  rw [e, Except.ok.injEq] at hD
  exact ⟨X, R, hD.symm, hX, hR, r1, r2.2 h3⟩

theorem reduced_reverse {w : List Letter} (h : Reduced w) : Reduced w.reverse := by
  unfold Reduced at h ⊢
  rw [List.isChain_reverse]
  refine h.imp ?_
  intro x y hxy hc
  apply hxy
  rw [hc, invLetter_invLetter]

theorem reduced_append {w : List Letter} {x : Letter} (hw : w ≠ []) : Reduced (w ++ [x]) ↔ Reduced w ∧ x ≠ invLetter (w.getLast hw) := by
  unfold Reduced
  rw [List.isChain_append]
  simp only [List.isChain_singleton, List.head?_cons, Option.mem_def, Option.some.injEq, forall_eq', true_and]
  rw [List.getLast?_eq_some_getLast hw]
  simp

end Schottky
open Schottky

/-- C105: the four curves of the script.  The line `Ca` is the axis; the circles `Cb` and `CB` are below it, touch it and touch the circle `CA`; the
condition on the angle says that they have no common point. -/
theorem C105_data {θ : ℝ} (h1 : -(π / 2) < θ) (h2 : θ < 0) :
    ∃ D, data θ = .ok D ∧ (∀ P, OnLine D.Ca.A D.Ca.B P ↔ P.y = 0) ∧ D.CA.Valid ∧ D.Cb.Valid ∧ D.CB.Valid ∧
      D.CA.center.y + D.CA.radius < 0 ∧ D.Cb.center.y + D.Cb.radius = 0 ∧ D.CB.center.y + D.CB.radius = 0 ∧
      Spec.dist D.CA.center D.Cb.center = D.CA.radius + D.Cb.radius ∧ Spec.dist D.CA.center D.CB.center = D.CA.radius + D.CB.radius ∧
      (D.Cb.radius + D.CB.radius < Spec.dist D.Cb.center D.CB.center ↔ 3 - sin θ < 4 * cos θ) := by
  obtain ⟨X, R, e, hX, hR, eX, eR⟩ := data_eq h1 h2
  obtain ⟨r1, r2⟩ := key_relation h1 h2 eX eR
  have hq := sqrt2_sq
  have hq0 := sqrt2_pos
  have hl : ∀ P, OnLine (⟨-1, 0⟩ : Pt) ⟨1, 0⟩ P ↔ P.y = 0 := by
    intro P
    rw [onLine_iff_cross (by intro h; have := congrArg Pt.x h; norm_num at this)]
    simp only [cross, Pt.sub_x, Pt.sub_y]
    constructor <;> intro h <;> linarith
  obtain ⟨v1, v2, v3⟩ := circ_valid (X := X) hR
  refine ⟨_, e, hl, v1, v2, v3, ?_, ?_, ?_, ?_, ?_, ?_⟩
  · show -3 * √2 / 4 + √2 / 4 < 0
    linarith
  · show -R + R = 0
    ring
  · show -R + R = 0
    ring
  · show Spec.dist (⟨0, -3 * √2 / 4⟩ : Pt) ⟨X, -R⟩ = √2 / 4 + R
    rw [dist_eq_iff (by positivity)]
    simp only [sqDist]
    linear_combination r1 + 1 / 2 * hq
  · show Spec.dist (⟨0, -3 * √2 / 4⟩ : Pt) ⟨-X, -R⟩ = √2 / 4 + R
    rw [dist_eq_iff (by positivity)]
    simp only [sqDist]
    linear_combination r1 + 1 / 2 * hq
  · rw [← r2]
    show R + R < Spec.dist (⟨X, -R⟩ : Pt) ⟨-X, -R⟩ ↔ R < X
    have : Spec.dist (⟨X, -R⟩ : Pt) ⟨-X, -R⟩ = 2 * X := by
      rw [dist_eq_iff (by positivity)]
      simp only [sqDist]
      ring
    rw [this]
    constructor <;> intro h <;> linarith

/-- The angle of the script. -/
theorem script_angle : -(π / 2) < (-(1 / 2) : ℝ) ∧ (-(1 / 2) : ℝ) < 0 ∧ 3 - sin (-(1 / 2)) < 4 * cos (-(1 / 2)) := by
  refine ⟨by linarith [pi_gt_three], by norm_num, ?_⟩
  rw [sin_neg, cos_neg]
  have := sin_lt (by norm_num : (0 : ℝ) < 1 / 2)
  have := one_sub_sq_div_two_le_cos (x := 1 / 2)
  linarith

example : ∃ D, data (-(1 / 2)) = .ok D ∧ D.Cb.radius + D.CB.radius < Spec.dist D.Cb.center D.CB.center := by
  obtain ⟨D, h, -, -, -, -, -, -, -, -, -, i⟩ := C105_data script_angle.1 script_angle.2.1
  exact ⟨D, h, i.2 script_angle.2.2⟩

/-- C105: the transformations of the script are bijections of the completed plane, those of inverse letters are inverse, and the transformation of a letter
sends the circle of the inverse letter to the circle of the letter. -/
theorem C105_action {θ : ℝ} (h1 : -(π / 2) < θ) (h2 : θ < 0) (h3 : 3 - sin θ < 4 * cos θ) {D : Data} (hD : data θ = .ok D) :
    ∃ e : Letter → Equiv.Perm XPt, (∀ x P, (D.mob x).transform P = .ok (e x P)) ∧ (∀ x P, e (invLetter x) (e x P) = P) ∧
      ∀ x, e x '' gset (D.circ (invLetter x)) = gset (D.circ x) := by
  obtain ⟨X, R, rfl, h⟩ := data_good h1 h2 h3 hD
  obtain ⟨e, he⟩ := exists_acts (X := X) h.R1
  refine ⟨e, he, ?_, (pingPong h he).swap⟩
  rintro ⟨x, s⟩ P
  cases s
  · exact (acts_inv h.R1 he x P).2
  · exact (acts_inv h.R1 he x P).1

/-- C105: the generations of circles.  A reduced word of at least two letters has a circle; different words have different circles; the insides of the circles
of two words, none a prefix of the other, are disjoint; the inside of the circle of a longer word is in the inside of the circle of the shorter one. -/
theorem C105_generations {θ : ℝ} (h1 : -(π / 2) < θ) (h2 : θ < 0) (h3 : 3 - sin θ < 4 * cos θ) {D : Data} (hD : data θ = .ok D)
    {e : Letter → Equiv.Perm XPt} (he : ∀ x P, (D.mob x).transform P = .ok (e x P)) :
    (∀ t, Reduced t → 2 ≤ t.length → ∃ c : Circle, c.Valid ∧ gset (.circle c) = wordSet D e t) ∧
    (∀ t t', Reduced t → Reduced t' → t ≠ [] → t' ≠ [] → wordSet D e t = wordSet D e t' → t = t') ∧
    (∀ t t', Reduced t → Reduced t' → 2 ≤ t.length → 2 ≤ t'.length → ¬ t <+: t' → ¬ t' <+: t → ∀ c c' : Circle, c.Valid → c'.Valid →
      gset (.circle c) = wordSet D e t → gset (.circle c') = wordSet D e t' → (Spec.disc c).Apart (Spec.disc c')) ∧
    ∀ t u, Reduced (t ++ u) → 2 ≤ t.length → ∀ c c' : Circle, c.Valid → c'.Valid →
      gset (.circle c) = wordSet D e t → gset (.circle c') = wordSet D e (t ++ u) → (Spec.disc c').inside ⊆ (Spec.disc c).inside := by
  obtain ⟨X, R, rfl, h⟩ := data_good h1 h2 h3 hD
  have hp := pingPong h he
  refine ⟨?_, ?_, ?_, ?_⟩
  · intro t ht hl
    have h0 : t ≠ [] := by rintro rfl; simp at hl
    obtain ⟨O, hO⟩ := gen_bounded h he hp.sub ht hl
    obtain ⟨u, x, rfl⟩ : ∃ u x, t = u ++ [x] := ⟨_, _, (List.dropLast_append_getLast h0).symm⟩
    have hu : u ≠ [] := by rintro rfl; simp at hl
    obtain ⟨f, -, hf, hE⟩ := composeFixed_spec h.R1 he hu
    rw [genSet_append] at hO
    obtain ⟨c, -, k1, k2⟩ := image_circle h.R1 hf hE x hO
    refine ⟨c, k1, ?_⟩
    rw [k2, wordSet, genSet_append]
  · intro t t' ht ht' h0 h0' heq
    exact hp.gen_injective ht ht' h0 h0' heq
  · intro t t' ht ht' hl hl' n1 n2 c c' hc hc' e1 e2
    unfold Region.Apart
    rw [word_inside h he ht hl hc e1, word_inside h he ht' hl' hc' e2]
    exact hp.disc_disjoint ht ht' n1 n2
  · intro t u ht hl c c' hc hc' e1 e2
    have ht0 : Reduced t := List.IsChain.left_of_append ht
    rw [word_inside h he ht0 hl hc e1, word_inside h he ht (by rw [List.length_append]; omega) hc' e2]
    exact hp.disc_nested (by rintro rfl; simp at hl) ht

/-- The script, generation 6: the words `abAbab` and `abABab` have circles with disjoint insides. -/
example {D : Data} (hD : data (-(1 / 2)) = .ok D) {e : Letter → Equiv.Perm XPt} (he : ∀ x P, (D.mob x).transform P = .ok (e x P)) {c c' : Circle}
    (hc : c.Valid) (hc' : c'.Valid) (h : gset (.circle c) = wordSet D e [(.a, true), (.b, true), (.a, false), (.b, true), (.a, true), (.b, true)])
    (h' : gset (.circle c') = wordSet D e [(.a, true), (.b, true), (.a, false), (.b, false), (.a, true), (.b, true)]) :
    (Spec.disc c).Apart (Spec.disc c') := by
  refine (C105_generations script_angle.1 script_angle.2.1 script_angle.2.2 hD he).2.2.1 _ _ ?_ ?_ ?_ ?_ ?_ ?_ c c' hc hc' h h'
  · simp [Reduced, invLetter]
  · simp [Reduced, invLetter]
  · simp
  · simp
  · simp
  · simp

/-- C105: the circle drawn for a group element is the circle of the word with all letters but the last in the opposite order (which may be no reduced word: then
it is the circle of a shorter word). -/
theorem C105_drawn {θ : ℝ} (h1 : -(π / 2) < θ) (h2 : θ < 0) (h3 : 3 - sin θ < 4 * cos θ) {D : Data} (hD : data θ = .ok D)
    {e : Letter → Equiv.Perm XPt} (he : ∀ x P, (D.mob x).transform P = .ok (e x P)) {g : FreeGroup Schottky.Gen} {x y : Letter} {m : List Letter}
    (hg : transfo2seq g = x :: m ++ [y]) :
    ∃ c, Schottky.circle D (m.length + 2) g = .ok (.circle c) ∧ c.Valid ∧ gset (.circle c) = wordSet D e (m.reverse ++ [x, y]) ∧
      (y ≠ invLetter x → Reduced (m.reverse ++ [x, y])) ∧
      (y = invLetter x → Reduced (m.reverse ++ [x]) ∧ m ≠ [] ∧ gset (.circle c) = wordSet D e (m.reverse ++ [x])) := by
  obtain ⟨X, R, rfl, h⟩ := data_good h1 h2 h3 hD
  have hp := pingPong h he
  have hr : Reduced (x :: m ++ [y]) := by rw [← hg, transfo2seq_eq]; exact reduced_toWord g
  have hr1 := ((reduced_append (by simp)).1 hr).1
  have hr2 : Reduced (m.reverse ++ [x]) := by
    have := reduced_reverse hr1
    rwa [List.reverse_cons] at this
  have hw := hp.wrong_order x y m
  have hm : y = invLetter x → m ≠ [] := by
    rintro rfl rfl
    have := ((reduced_append (by simp)).1 hr).2
    exact this rfl
  have hr3 : y ≠ invLetter x → Reduced (m.reverse ++ [x, y]) := by
    intro hy
    rw [show m.reverse ++ [x, y] = (m.reverse ++ [x]) ++ [y] by simp, reduced_append (by simp)]
    refine ⟨hr2, ?_⟩
    rwa [List.getLast_append_singleton]
  have hset : ((x :: m).reverse.map e).prod '' gset ((dataOf X R).circ y) = wordSet (dataOf X R) e (m.reverse ++ [x, y]) := by
    unfold wordSet
    rw [show m.reverse ++ [x, y] = (x :: m).reverse ++ [y] by simp, genSet_append]
  have hO : ∃ O : Pt, ∀ P ∈ ((x :: m).reverse.map e).prod '' gset ((dataOf X R).circ y), ∃ Q, P = .fin Q ∧ sqDist Q O ≤ 10 ^ 2 := by
    by_cases hy : y = invLetter x
    · rw [hw.2 hy]
      refine gen_bounded h he hp.sub hr2 ?_
      have := List.length_pos_iff.2 (hm hy)
      rw [List.length_append, List.length_reverse, List.length_singleton]
      omega
    · rw [hw.1 hy]
      exact gen_bounded h he hp.sub (hr3 hy) (by simp)
  obtain ⟨O, hO⟩ := hO
  obtain ⟨f, ef, hf, hE⟩ := composeAll_spec h.R1 he (u := x :: m) (by simp)
  obtain ⟨c, k0, k1, k2⟩ := image_circle h.R1 hf hE y hO
  refine ⟨c, ?_, k1, k2.trans hset, hr3, ?_⟩
  · unfold Schottky.circle
    dsimp only
    rw [hg, List.map_append, show m.length + 2 - 1 = ((x :: m).map (dataOf X R).mob).length by simp, List.take_left, ef, Res.ok_bind,
      List.getLast?_append_of_ne_nil _ (by simp)]
    exact k0
  · intro hy
    exact ⟨hr2, hm hy, k2.trans (hw.2 hy)⟩

/-- C105: what the script draws for `n ≥ 2`.  It finishes with `4 · 3ⁿ⁻¹` circles, each a circle of generation `n` or `n - 1`, and a circle of generation `n` is
drawn exactly when its word is cyclically reduced. -/
theorem C105_exact {θ : ℝ} (h1 : -(π / 2) < θ) (h2 : θ < 0) (h3 : 3 - sin θ < 4 * cos θ) {D : Data} (hD : data θ = .ok D)
    {e : Letter → Equiv.Perm XPt} (he : ∀ x P, (D.mob x).transform P = .ok (e x P)) {n : ℕ} (hn : 2 ≤ n) :
    ∃ cs, drawn D n = .ok cs ∧ cs.length = 4 * 3 ^ (n - 1) ∧
      (∀ c ∈ cs, c.Valid ∧ ∃ t, Reduced t ∧ (t.length = n ∨ t.length + 1 = n) ∧ gset (.circle c) = wordSet D e t) ∧
      ∀ (t : List Letter) (h0 : t ≠ []), Reduced t → t.length = n →
        ((∃ c ∈ cs, gset (.circle c) = wordSet D e t) ↔ t.getLast h0 ≠ invLetter (t.head h0)) := by
  obtain ⟨gs, g1, -, g3, g4, g5, g6⟩ := C105_words (n := n) (by omega)
  have split : ∀ {t : List Letter}, t.length = n → ∃ x m y, t = x :: m ++ [y] ∧ m.length + 2 = n := by
    intro t ht
    match t, ht with
    | [], h => simp at h; omega
    | [x], h => simp at h; omega
    | x :: y :: u, h =>
      refine ⟨x, (y :: u).dropLast, (y :: u).getLast (by simp), ?_, ?_⟩
      · rw [List.cons_append, List.dropLast_append_getLast]
      · rw [List.length_dropLast]
        simp at h ⊢
        omega
  have each : ∀ g ∈ gs, ∃ c, (do asCircle (← Schottky.circle D n g)) = .ok c ∧ c.Valid ∧ ∃ x m y, transfo2seq g = x :: m ++ [y] ∧ m.length + 2 = n ∧
      gset (.circle c) = wordSet D e (m.reverse ++ [x, y]) ∧ (y ≠ invLetter x → Reduced (m.reverse ++ [x, y])) ∧
      (y = invLetter x → Reduced (m.reverse ++ [x]) ∧ m ≠ [] ∧ gset (.circle c) = wordSet D e (m.reverse ++ [x])) := by
    intro g hg
    obtain ⟨x, m, y, hw, hl⟩ := split ((g4 g).1 hg)
    obtain ⟨c, k0, k1, k2, k3, k4⟩ := C105_drawn h1 h2 h3 hD he hw
    rw [hl] at k0
    exact ⟨c, by rw [k0]; rfl, k1, x, m, y, hw, hl, k2, k3, k4⟩
  haveI : Nonempty Circle := ⟨⟨⟨0, 0⟩, 1⟩⟩
  choose! φ hφ hv hw using each
  have hdr : drawn D n = .ok (gs.map φ) := by
    unfold drawn
    rw [g1, Res.ok_bind]
    exact mapM_ok _ _ _ hφ
  obtain ⟨X, R, rfl, h⟩ := data_good h1 h2 h3 hD
  have hp := pingPong h he
  have inj : ∀ {t t'}, Reduced t → Reduced t' → t ≠ [] → t' ≠ [] → wordSet (dataOf X R) e t = wordSet (dataOf X R) e t' → t = t' :=
    fun ht ht' h0 h0' heq => hp.gen_injective ht ht' h0 h0' heq
  refine ⟨gs.map φ, hdr, by rw [List.length_map, g3], ?_, ?_⟩
  · intro c hc
    obtain ⟨g, hg, rfl⟩ := List.mem_map.1 hc
    refine ⟨hv g hg, ?_⟩
    obtain ⟨x, m, y, -, hl, k2, k3, k4⟩ := hw g hg
    by_cases hy : y = invLetter x
    · obtain ⟨i1, -, i3⟩ := k4 hy
      exact ⟨_, i1, Or.inr (by simp; omega), i3⟩
    · exact ⟨_, k3 hy, Or.inl (by simp; omega), k2⟩
  · intro t h0 ht hl
    constructor
    · rintro ⟨c, hc, hs⟩
      obtain ⟨g, hg, rfl⟩ := List.mem_map.1 hc
      obtain ⟨x, m, y, hword, hl', k2, k3, k4⟩ := hw g hg
      by_cases hy : y = invLetter x
      · exfalso
        obtain ⟨i1, -, i3⟩ := k4 hy
        have := inj i1 ht (by simp) h0 (i3.symm.trans hs)
        rw [← this] at hl
        simp at hl
        omega
      · obtain rfl := inj (k3 hy) ht (by simp) h0 (k2.symm.trans hs)
        have hr := g6 g hg
        rw [hword, reduced_append (by simp)] at hr
        have e1 : (m.reverse ++ [x, y]).getLast h0 = y := by simp
        have e2 : (m.reverse ++ [x, y]).head h0 = (x :: m).getLast (by simp) := by
          have : m.reverse ++ [x, y] = (x :: m).reverse ++ [y] := by simp
          simp only [this]
          rw [List.head_append_of_ne_nil (by simp), List.head_reverse]
        rw [e1, e2]
        exact hr.2
    · intro hc
      obtain ⟨z, k, y, rfl, hl'⟩ := split hl
      simp only [List.cons_append, List.head_cons] at hc
      rw [show (z :: (k ++ [y])).getLast (by simp) = y by simp] at hc
      -- the word drawing it
      obtain ⟨ht1, ht2⟩ := (reduced_append (by simp)).1 ht
      have hs : Reduced ((z :: k).reverse ++ [y]) := by
        rw [reduced_append (by simp)]
        refine ⟨reduced_reverse ht1, ?_⟩
        rw [List.getLast_reverse]
        exact hc
      obtain ⟨g, ⟨hg, hword⟩, -⟩ := g5 _ hs (by simp; omega)
      refine ⟨φ g, List.mem_map.2 ⟨g, hg, rfl⟩, ?_⟩
      obtain ⟨x, m, y', hword', -, k2, -⟩ := hw g hg
      rw [hword'] at hword
      obtain ⟨e1, e2⟩ := List.append_inj' hword rfl
      rw [k2]
      have e3 : m.reverse ++ [x, y'] = z :: k ++ [y] := by
        rw [show m.reverse ++ [x, y'] = (x :: m).reverse ++ [y'] by simp, e1, List.reverse_reverse, e2]
      rw [e3]

/-- C105: the script as written (`θ = -0.5`, `n = 6`) does not draw the circle of the word `abbbbA` of generation 6. -/
theorem C105_script_counterexample :
    ∃ D cs, data (-(1 / 2)) = .ok D ∧ drawn D 6 = .ok cs ∧ cs.length = 972 ∧ ∃ t c, Reduced t ∧ t.length = 6 ∧ c.Valid ∧
      (∀ e : Letter → Equiv.Perm XPt, (∀ x P, (D.mob x).transform P = .ok (e x P)) → gset (.circle c) = wordSet D e t) ∧ c ∉ cs := by
  obtain ⟨s1, s2, s3⟩ := script_angle
  obtain ⟨D, hD, -⟩ := C105_data s1 s2
  obtain ⟨e, he, -⟩ := C105_action s1 s2 s3 hD
  obtain ⟨cs, k1, k2, -, k3⟩ := C105_exact s1 s2 s3 hD he (n := 6) (by norm_num)
  have hr : Reduced [((.a, true) : Letter), (.b, true), (.b, true), (.b, true), (.b, true), (.a, false)] := by simp [Reduced, invLetter]
  obtain ⟨c, hc, hs⟩ := (C105_generations s1 s2 s3 hD he).1 _ hr (by simp)
  refine ⟨D, cs, hD, k1, k2, _, c, hr, rfl, hc, ?_, ?_⟩
  · intro e' he'
    have : e' = e := by
      funext x
      ext P
      have h1 := he' x P
      rw [he x P, Except.ok.injEq] at h1
      exact h1.symm
    rw [this, hs]
  · intro hmem
    have := (k3 _ (by simp) hr rfl).1 ⟨c, hmem, hs⟩
    simp [invLetter] at this

/-- C105: with `compose(…, left=False)` the circle drawn for a group element is the circle of its word, for every `n ≥ 2`. -/
theorem C105_corrected {θ : ℝ} (h1 : -(π / 2) < θ) (h2 : θ < 0) (h3 : 3 - sin θ < 4 * cos θ) {D : Data} (hD : data θ = .ok D)
    {e : Letter → Equiv.Perm XPt} (he : ∀ x P, (D.mob x).transform P = .ok (e x P)) {n : ℕ} (hn : 2 ≤ n) {g : FreeGroup Schottky.Gen}
    (hg : (transfo2seq g).length = n) :
    ∃ c, circleFixed D n g = .ok (.circle c) ∧ c.Valid ∧ gset (.circle c) = wordSet D e (transfo2seq g) := by
  obtain ⟨X, R, rfl, h⟩ := data_good h1 h2 h3 hD
  have hp := pingPong h he
  have hr : Reduced (transfo2seq g) := by rw [transfo2seq_eq]; exact reduced_toWord g
  unfold circleFixed
  dsimp only
  obtain ⟨t, ht⟩ : ∃ t, t = transfo2seq g := ⟨_, rfl⟩
  rw [← ht] at hr hg ⊢
  have h0 : t ≠ [] := by rintro rfl; simp at hg; omega
  obtain ⟨O, hO⟩ := gen_bounded h he hp.sub hr (by omega)
  obtain ⟨u, x, rfl⟩ : ∃ u x, t = u ++ [x] := ⟨_, _, (List.dropLast_append_getLast h0).symm⟩
  have hu : u ≠ [] := by rintro rfl; simp at hg; omega
  obtain ⟨f, ef, hf, hE⟩ := composeFixed_spec h.R1 he hu
  rw [genSet_append] at hO
  obtain ⟨c, k0, k1, k2⟩ := image_circle h.R1 hf hE x hO
  refine ⟨c, ?_, k1, ?_⟩
  · rw [List.map_append, show n - 1 = (u.map (dataOf X R).mob).length by rw [← hg]; simp, List.take_left, ef, Res.ok_bind,
      List.getLast?_append_of_ne_nil _ (by simp)]
    exact k0
  · rw [k2, wordSet, genSet_append]

/-- C105: the twelve circles drawn before the loop are the circles of the second generation. -/
theorem C105_second {θ : ℝ} (h1 : -(π / 2) < θ) (h2 : θ < 0) (h3 : 3 - sin θ < 4 * cos θ) {D : Data} (hD : data θ = .ok D)
    {e : Letter → Equiv.Perm XPt} (he : ∀ x P, (D.mob x).transform P = .ok (e x P)) :
    ∃ cs : List Circle, second D = .ok (cs.map .circle) ∧ cs.length = 12 ∧
      ∀ t, Reduced t → t.length = 2 → ∃ c ∈ cs, c.Valid ∧ gset (.circle c) = wordSet D e t := by
  obtain ⟨X, R, rfl, h⟩ := data_good h1 h2 h3 hD
  have hp := pingPong h he
  have each : ∀ p : Letter × Letter, p.2 ≠ invLetter p.1 → ∃ c, applyTo ((dataOf X R).mob p.1) ((dataOf X R).circ p.2) = .ok (.circle c) ∧ c.Valid ∧
      gset (.circle c) = wordSet (dataOf X R) e [p.1, p.2] := by
    rintro ⟨x, y⟩ hxy
    have hr : Reduced [x, y] := List.isChain_pair.2 hxy
    obtain ⟨O, hO⟩ := gen_bounded h he hp.sub hr (by simp)
    exact image_circle h.R1 (det_mob h.R1 x) (he x) y hO
  haveI : Nonempty Circle := ⟨⟨⟨0, 0⟩, 1⟩⟩
  choose! φ h4 h5 h6 using each
  unfold second
  obtain ⟨L, hL⟩ : ∃ L : List (Letter × Letter), L = [((.a, false), (.a, false)), ((.a, false), (.b, false)), ((.a, false), (.b, true)),
   ((.a, true), (.a, true)), ((.a, true), (.b, false)), ((.a, true), (.b, true)),
   ((.b, true), (.a, true)), ((.b, true), (.b, true)), ((.b, true), (.a, false)),
   ((.b, false), (.a, true)), ((.b, false), (.a, false)), ((.b, false), (.b, false))] := ⟨_, rfl⟩
  have hne : ∀ p ∈ L, p.2 ≠ invLetter p.1 := by rw [hL]; decide
  have hlen : L.length = 12 := by rw [hL]; rfl
  have hall : ∀ x y : Letter, y ≠ invLetter x → (x, y) ∈ L := by
    rw [hL]
    rintro ⟨_ | _, _ | _⟩ ⟨_ | _, _ | _⟩ <;> simp [invLetter]
  rw [← hL]
  refine ⟨L.map φ, ?_, by rw [List.length_map, hlen], ?_⟩
  · rw [List.map_map]
    exact mapM_ok _ _ _ fun p hp => h4 p (hne p hp)
  · intro t ht hl
    obtain ⟨x, y, rfl⟩ := List.length_eq_two.1 hl
    have hxy : y ≠ invLetter x := (List.isChain_cons_cons.1 ht).1
    exact ⟨φ (x, y), List.mem_map.2 ⟨_, hall x y hxy, rfl⟩, h5 (x, y) hxy, h6 (x, y) hxy⟩

/-- The twelve circles of the second generation for the angle `-1/2`. -/
example : ∃ (D : Data) (cs : List Circle), data (-(1 / 2)) = .ok D ∧ second D = .ok (cs.map GCircle.circle) ∧ cs.length = 12 := by
  obtain ⟨s1, s2, s3⟩ := script_angle
  obtain ⟨D, hD, -⟩ := C105_data s1 s2
  obtain ⟨e, he, -⟩ := C105_action s1 s2 s3 hD
  obtain ⟨cs, h1, h2, -⟩ := C105_second s1 s2 s3 hD he
  exact ⟨D, cs, hD, h1, h2⟩

namespace Schottky

/-- The number of reduced words of `n + 1` letters with given first and last letter. -/
theorem count_ends (n : ℕ) (x y : Letter) :
    4 * (((wordsFrom n x).countP fun t => decide (t.getLast? = some y) : ℕ) : ℤ) =
      if y = x then 3 ^ n + 2 + (-1) ^ n else if y = invLetter x then 3 ^ n - 2 + (-1) ^ n else 3 ^ n - (-1) ^ n := by
  induction n generalizing x with
  | zero =>
    rcases x with ⟨_ | _, _ | _⟩ <;> rcases y with ⟨_ | _, _ | _⟩ <;> simp [wordsFrom, invLetter]
  | succ n ih =>
    have hne : ∀ z, ∀ t ∈ wordsFrom n z, t ≠ [] := by
      rintro z t ht rfl
      have := (mem_wordsFrom.1 ht).2.1
      simp at this
    have step : ∀ z, ((wordsFrom n z).map fun t => x :: t).countP (fun t => decide (t.getLast? = some y)) =
        (wordsFrom n z).countP fun t => decide (t.getLast? = some y) := by
      intro z
      rw [List.countP_map]
      refine List.countP_congr ?_
      intro t ht
      obtain ⟨u, a, rfl⟩ : ∃ u a, t = u ++ [a] := ⟨_, _, (List.dropLast_append_getLast (hne z t ht)).symm⟩
      rw [Function.comp_apply, ← List.cons_append, List.getLast?_concat, List.getLast?_concat]
    rw [wordsFrom, List.countP_flatMap]
    simp only [Function.comp_def, step]
    have hs := fun z => ih z
    have h1 := hs (.a, true)
    have h2 := hs (.a, false)
    have h3 := hs (.b, true)
    have h4 := hs (.b, false)
    rcases x with ⟨_ | _, _ | _⟩ <;> rcases y with ⟨_ | _, _ | _⟩ <;> simp [invLetter, letters, pow_succ] at h1 h2 h3 h4 ⊢ <;> linarith

end Schottky

/-- C105: the number of circles of generation `n ≥ 2` which the script does not draw. -/
theorem C105_missing {θ : ℝ} (h1 : -(π / 2) < θ) (h2 : θ < 0) (h3 : 3 - sin θ < 4 * cos θ) {D : Data} (hD : data θ = .ok D)
    {e : Letter → Equiv.Perm XPt} (he : ∀ x P, (D.mob x).transform P = .ok (e x P)) {n : ℕ} (hn : 2 ≤ n) {cs : List Circle}
    (hcs : drawn D n = .ok cs) :
    ∃ ts : List (List Letter), ts.Nodup ∧ (ts.length : ℤ) = 3 ^ (n - 1) - 2 + (-1) ^ (n - 1) ∧
      ∀ t, t ∈ ts ↔ Reduced t ∧ t.length = n ∧ ∀ c ∈ cs, gset (.circle c) ≠ wordSet D e t := by
  obtain ⟨cs', k1, -, -, k⟩ := C105_exact h1 h2 h3 hD he hn
  rw [hcs, Except.ok.injEq] at k1
  subst k1
  obtain ⟨k0, rfl⟩ : ∃ k0, n = k0 + 2 := ⟨n - 2, by omega⟩
  refine ⟨letters.flatMap fun x => (wordsFrom (k0 + 1) x).filter fun t => decide (t.getLast? = some (invLetter x)), ?_, ?_, ?_⟩
  · rw [List.nodup_flatMap]
    refine ⟨fun y _ => (wordsFrom_nodup _ y).filter _, ?_⟩
    have hn : letters.Nodup := by decide
    refine hn.imp ?_
    intro y z hyz
    rw [Function.onFun, List.disjoint_left]
    intro t h1 h2
    have := (mem_wordsFrom.1 (List.mem_filter.1 h1).1).2.2.symm.trans (mem_wordsFrom.1 (List.mem_filter.1 h2).1).2.2
    exact hyz (by simpa using this)
  · rw [List.length_flatMap]
    simp only [← List.countP_eq_length_filter]
    have hc := fun x => count_ends (k0 + 1) x (invLetter x)
    have c1 := hc (.a, true)
    have c2 := hc (.a, false)
    have c3 := hc (.b, true)
    have c4 := hc (.b, false)
    rw [if_neg (invLetter_ne _), if_pos rfl] at c1 c2 c3 c4
    simp only [letters, List.map_cons, List.map_nil, List.sum_cons, List.sum_nil]
    push_cast
    linarith
  · intro t
    rw [List.mem_flatMap]
    have key : ∀ h0 : t ≠ [], (t.getLast h0 ≠ invLetter (t.head h0) ↔ t.getLast? ≠ some (invLetter (t.head h0))) := by
      intro h0
      rw [List.getLast?_eq_some_getLast h0]
      simp
    constructor
    · rintro ⟨x, -, hx⟩
      obtain ⟨w1, w2⟩ := List.mem_filter.1 hx
      obtain ⟨w3, w4, w5⟩ := mem_wordsFrom.1 w1
      have h0 : t ≠ [] := by rintro rfl; simp at w4
      refine ⟨w3, w4, ?_⟩
      intro c hc hs
      have := (key h0).1 ((k t h0 w3 w4).1 ⟨c, hc, hs⟩)
      rw [List.head?_eq_some_head h0, Option.some.injEq] at w5
      rw [w5] at this
      exact this (by simpa using w2)
    · rintro ⟨w3, w4, w5⟩
      have h0 : t ≠ [] := by rintro rfl; simp at w4
      refine ⟨t.head h0, mem_letters _, List.mem_filter.2 ⟨mem_wordsFrom.2 ⟨w3, w4, List.head?_eq_some_head h0⟩, ?_⟩⟩
      have : ¬ t.getLast h0 ≠ invLetter (t.head h0) := by
        rw [← k t h0 w3 w4]
        rintro ⟨c, hc, hs⟩
        exact w5 c hc hs
      rw [key h0] at this
      simpa using this

/-- The script: of the 972 circles of generation 6, 240 are not drawn. -/
example : ∃ D cs e, data (-(1 / 2)) = .ok D ∧ drawn D 6 = .ok cs ∧ (∀ x P, (D.mob x).transform P = .ok ((e : Letter → Equiv.Perm XPt) x P)) ∧
    ∃ ts : List (List Letter), ts.Nodup ∧ ts.length = 240 ∧
      ∀ t, t ∈ ts ↔ Reduced t ∧ t.length = 6 ∧ ∀ c ∈ cs, gset (.circle c) ≠ wordSet D e t := by
  obtain ⟨s1, s2, s3⟩ := script_angle
  obtain ⟨D, hD, -⟩ := C105_data s1 s2
  obtain ⟨e, he, -⟩ := C105_action s1 s2 s3 hD
  obtain ⟨cs, k1, -⟩ := C105_exact s1 s2 s3 hD he (n := 6) (by norm_num)
  obtain ⟨ts, t1, t2, t3⟩ := C105_missing s1 s2 s3 hD he (n := 6) (by norm_num) k1
  refine ⟨D, cs, e, hD, k1, he, ts, t1, ?_, t3⟩
  norm_num at t2
  exact_mod_cast t2
