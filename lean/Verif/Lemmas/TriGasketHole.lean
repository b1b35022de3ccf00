import Verif.Lemmas.TriGasketCorner

/-! The holes of the triangular gasket as sets of points, and what filling one of them does. -/

open Spec Real Classical GV

namespace TriGasket

/-- The circles and sides of a hole are tangent as they should, `W` are these walls, and `R` is the set of points of the hole. -/
def HoleIs : Hole → List GV → Set Pt → Prop
  | .ccc c1 c2 c3, W, R => c1.Valid ∧ c2.Valid ∧ c3.Valid ∧ ∃ D, Triple (circ c1) (circ c2) (circ c3) D ∧ W = [circ c1, circ c2, circ c3] ∧
      R = hole (circ c1) (circ c2) (circ c3) D
  | .ccl cA cB A B, W, R => cA.Valid ∧ cB.Valid ∧ A ≠ B ∧ ∃ n D, dot n n = 1 ∧ dot n (B - A) = 0 ∧ Triple (circ cA) (circ cB) (half n A) D ∧
      W = [circ cA, circ cB, half n A] ∧ R = hole (circ cA) (circ cB) (half n A) D
  | .cll A B C circle, W, R => ∃ u w σ γ β κ m, Corner A B C u w σ γ β κ ∧ 0 < m ∧ circle = ⟨A + ((1 + σ) * m) • u, σ * ((1 + σ) * m)⟩ ∧
      W = [circ circle, half (σ • u + γ • w) A, half (σ • u + γ • -w) A] ∧
      R = hole (circ circle) (half (σ • u + γ • w) A) (half (σ • u + γ • -w) A) (circ ⟨A, γ * ((1 + σ) * m)⟩)

/-- What a step should do to a hole `R` with walls `W`: the circle is drawn inside, touches the walls, and the three new holes are parts of what
remains, without common points. -/
def StepIs (W : List GV) (R : Set Pt) (st : Step) : Prop :=
  st.drawn.Valid ∧ (∀ P, ev (circ st.drawn) P < 0 → P ∈ R) ∧
  (∃ h1 h2 h3 W1 W2 W3 R1 R2 R3, st.holes = [h1, h2, h3] ∧ HoleIs h1 W1 R1 ∧ HoleIs h2 W2 R2 ∧ HoleIs h3 W3 R3 ∧ R1 ⊆ R ∧ R2 ⊆ R ∧ R3 ⊆ R ∧
    (∀ P ∈ R1, 0 < ev (circ st.drawn) P) ∧ (∀ P ∈ R2, 0 < ev (circ st.drawn) P) ∧ (∀ P ∈ R3, 0 < ev (circ st.drawn) P) ∧
    (∀ P ∈ R1, P ∉ R2) ∧ (∀ P ∈ R1, P ∉ R3) ∧ (∀ P ∈ R2, P ∉ R3) ∧
    ∀ K, (K ∈ W1 ∨ K ∈ W2 ∨ K ∈ W3) → K = circ st.drawn ∨ K ∈ W) ∧
  ∀ K ∈ W, pr (circ st.drawn) K = -1

theorem circ_pos {c : Circle} (h : c.Valid) : 0 ≤ circ c 0 := by
  have : 0 < c.radius := h
  rw [circ_zero]; positivity

/-- The new holes when the three walls are mutually tangent. -/
theorem triple_step {K₁ K₂ K₃ D c : GV} (t : Triple K₁ K₂ K₃ D) (b1 : 0 ≤ K₁ 0) (b2 : 0 ≤ K₂ 0) (b3 : 0 ≤ K₃ 0) (n : pr c c = 1)
    (h1 : pr c K₁ = -1) (h2 : pr c K₂ = -1) (h3 : pr c K₃ = -1) (h0 : K₁ 0 + K₂ 0 + K₃ 0 < c 0) :
    (∀ P, ev c P < 0 → P ∈ hole K₁ K₂ K₃ D) ∧ Triple c K₁ K₂ (D + K₁ + K₂) ∧ Triple c K₂ K₃ (D + K₂ + K₃) ∧ Triple c K₁ K₃ (D + K₁ + K₃) ∧
    hole c K₁ K₂ (D + K₁ + K₂) ⊆ hole K₁ K₂ K₃ D ∧ hole c K₂ K₃ (D + K₂ + K₃) ⊆ hole K₁ K₂ K₃ D ∧ hole c K₁ K₃ (D + K₁ + K₃) ⊆ hole K₁ K₂ K₃ D ∧
    (∀ P ∈ hole c K₁ K₂ (D + K₁ + K₂), P ∉ hole c K₂ K₃ (D + K₂ + K₃)) ∧
    (∀ P ∈ hole c K₁ K₂ (D + K₁ + K₂), P ∉ hole c K₁ K₃ (D + K₁ + K₃)) ∧
    (∀ P ∈ hole c K₂ K₃ (D + K₂ + K₃), P ∉ hole c K₁ K₃ (D + K₁ + K₃)) := by
  have e1 := t.inner n h1 h2 h3 h0
  have e2 := t.rotate.inner n h2 h3 h1 (by linarith)
  have e3 := t.swap.rotate.inner n h1 h3 h2 (by linarith)
  have ev1 : ∀ P, ev c P = ev K₁ P + ev K₂ P + ev K₃ P + 2 * ev D P := by
    intro P; rw [e1]; simp only [ev_add, ev_smul]
  refine ⟨?_, ?_, ?_, ?_, ?_, ?_, ?_, ?_, ?_, ?_⟩
  · intro P hP
    rw [e1] at hP
    exact inner_in_hole t b1 b2 b3 hP
  · have := t.child b1 b2; rwa [← e1] at this
  · have := t.rotate.child b2 b3; rwa [← e2] at this
  · have := t.swap.rotate.child b1 b3; rwa [← e3] at this
  all_goals
    intro P hP
    obtain ⟨q0, q1, q2, q3⟩ := hP
    have q4 := ev1 P
    simp only [ev_add] at q3
  · exact ⟨q1, q2, by linarith, by linarith⟩
  · exact ⟨by linarith, q1, q2, by linarith⟩
  · exact ⟨q1, by linarith, q2, by linarith⟩
  all_goals
    rintro ⟨-, r1, r2, r3⟩
    simp only [ev_add] at r3
    linarith

theorem fill_ccc {c1 c2 c3 : Circle} {W : List GV} {R : Set Pt} (h : HoleIs (.ccc c1 c2 c3) W R) :
    ∃ st, fill (.ccc c1 c2 c3) = .ok st ∧ StepIs W R st := by
  obtain ⟨v1, v2, v3, D, t, rfl, rfl⟩ := h
  obtain ⟨c, e, v, p1, p2, p3, p4⟩ := soddy_ok v1 v2 v3 t.t12 t.t13 t.t23
  refine ⟨_, e, v, ?_⟩
  obtain ⟨s0, s1, s2, s3, s4, s5, s6, s7, s8, s9⟩ := triple_step t (circ_pos v1) (circ_pos v2) (circ_pos v3) (pr_circ_self v) p1 p2 p3 p4
  refine ⟨s0, ⟨_, _, _, _, _, _, _, _, _, rfl, ⟨v, v1, v2, _, s1, rfl, rfl⟩, ⟨v, v2, v3, _, s2, rfl, rfl⟩, ⟨v, v1, v3, _, s3, rfl, rfl⟩, s4, s5, s6,
    fun P h => h.1, fun P h => h.1, fun P h => h.1, s7, s8, s9, ?_⟩, ?_⟩
  · intro K
    simp only [List.mem_cons, List.not_mem_nil, or_false]
    tauto
  · simp only [List.mem_cons, List.not_mem_nil, or_false, forall_eq_or_imp, forall_eq]
    exact ⟨p1, p2, p3⟩

theorem fill_ccl {cA cB : Circle} {A B : Pt} {W : List GV} {R : Set Pt} (h : HoleIs (.ccl cA cB A B) W R) :
    ∃ st, fill (.ccl cA cB A B) = .ok st ∧ StepIs W R st := by
  obtain ⟨v1, v2, hAB, n, D, hn, ho, t, rfl, rfl⟩ := h
  obtain ⟨c, e, v, p1, p2, p3, p4⟩ := side_ok v1 v2 hAB hn ho t.t12 t.t13 t.t23
  have hb := half_shift ho
  have ho' : dot n (A - B) = 0 := by simp only [dot, Pt.sub_x, Pt.sub_y] at *; linear_combination -ho
  have p4' : circ cA 0 + circ cB 0 + half n A 0 < circ c 0 := by rw [half_zero]; linarith
  obtain ⟨s0, s1, s2, s3, s4, s5, s6, s7, s8, s9⟩ :=
    triple_step t (circ_pos v1) (circ_pos v2) (half_zero n A).ge (pr_circ_self v) p1 p2 p3 p4'
  rcases e with e | e
  · refine ⟨_, e, v, s0, ⟨_, _, _, _, _, _, _, _, _, rfl, ⟨v, v1, v2, _, s1, rfl, rfl⟩, ⟨v1, v, hAB, n, _, hn, ho, s3.swap, rfl, rfl⟩,
      ⟨v, v2, hAB, n, _, hn, ho, s2, rfl, rfl⟩,
      s4, by rw [hole_swap (circ c)]; exact s6, s5, fun P h => h.1, fun P h => h.2.1, fun P h => h.1, by rw [hole_swap (circ c)]; exact s8, s7, ?_, ?_⟩, ?_⟩
    · rw [hole_swap (circ c)]
      intro P a b
      exact s9 P b a
    · intro K
      simp only [List.mem_cons, List.not_mem_nil, or_false]
      tauto
    · simp only [List.mem_cons, List.not_mem_nil, or_false, forall_eq_or_imp, forall_eq]
      exact ⟨p1, p2, p3⟩
  · obtain ⟨q0, q1, q2, q3, q4, q5, q6, q7, q8, q9⟩ :=
      triple_step t.swap (circ_pos v2) (circ_pos v1) (half_zero n A).ge (pr_circ_self v) p2 p1 p3 (by linarith)
    rw [hole_swap (circ cA) (circ cB)] at q0 q4 q5 q6
    refine ⟨_, e, v, s0, ⟨_, _, _, _, _, _, _, _, _, rfl, ⟨v, v2, v1, _, q1, rfl, rfl⟩, ⟨v2, v, hAB.symm, n, _, hn, ho', by rw [hb]; exact q3.swap, rfl, rfl⟩,
      ⟨v, v1, hAB.symm, n, _, hn, ho', by rw [hb]; exact q2, rfl, rfl⟩, q4, by rw [hole_swap (circ c), hb]; exact q6, by rw [hb]; exact q5,
      fun P h => h.1, fun P h => h.2.1, fun P h => h.1, by rw [hole_swap (circ c), hb]; exact q8, by rw [hb]; exact q7, ?_, ?_⟩, ?_⟩
    · rw [hole_swap (circ c), hb]
      intro P a b
      exact q9 P b a
    · intro K
      rw [hb]
      simp only [List.mem_cons, List.not_mem_nil, or_false]
      tauto
    · simp only [List.mem_cons, List.not_mem_nil, or_false, forall_eq_or_imp, forall_eq]
      exact ⟨p1, p2, p3⟩

/-! ### The corner -/

/-- Value at `P` in the frame of a corner. -/
theorem ev_frame {A B C u w : Pt} {σ γ β κ : ℝ} (h : Corner A B C u w σ γ β κ) {O P : Pt} {a b r : ℝ} (hr : 0 < r) (hO : O = A + a • u + b • w) :
    ev (circ ⟨O, r⟩) P = (sqDist P A - 2 * (a * dot u (P - A) + b * dot w (P - A)) + a ^ 2 + b ^ 2 - r ^ 2) / r := by
  have hv : (⟨O, r⟩ : Circle).Valid := hr
  have := ev_circ hv P
  rw [eq_div_iff hr.ne', this]
  have uu := h.uu
  have ww := h.ww
  have uw := h.uw
  dsimp only
  rw [hO]
  simp only [dot, sqDist, Pt.add_x, Pt.add_y, Pt.smul_x, Pt.smul_y, Pt.sub_x, Pt.sub_y] at *
  linear_combination a ^ 2 * uu + b ^ 2 * ww + 2 * a * b * uw

theorem sqDist_frame {A B C u w : Pt} {σ γ β κ : ℝ} (h : Corner A B C u w σ γ β κ) (P : Pt) :
    sqDist P A = dot u (P - A) ^ 2 + dot w (P - A) ^ 2 := by
  obtain ⟨s, hs, wx, wy⟩ := h.frame
  have uu := h.uu
  simp only [dot, sqDist, Pt.sub_x, Pt.sub_y, wx, wy] at *
  linear_combination (-((P.x - A.x) ^ 2 + (P.y - A.y) ^ 2)) * uu - (-u.y * (P.x - A.x) + u.x * (P.y - A.y)) ^ 2 * hs

theorem sqDist_two {A B C u w : Pt} {σ γ β κ : ℝ} (h : Corner A B C u w σ γ β κ) {O O' : Pt} {a b a' b' : ℝ} (hO : O = A + a • u + b • w)
    (hO' : O' = A + a' • u + b' • w) : sqDist O O' = (a - a') ^ 2 + (b - b') ^ 2 := by
  have uu := h.uu
  have ww := h.ww
  have uw := h.uw
  rw [hO, hO']
  simp only [dot, sqDist, Pt.add_x, Pt.add_y, Pt.smul_x, Pt.smul_y] at *
  linear_combination (a - a') ^ 2 * uu + (b - b') ^ 2 * ww + 2 * (a - a') * (b - b') * uw

theorem dot_frame {A B C u w : Pt} {σ γ β κ : ℝ} (h : Corner A B C u w σ γ β κ) {O : Pt} {a b p q : ℝ} (hO : O = A + a • u + b • w) :
    dot (p • u + q • w) (O - A) = p * a + q * b := by
  have uu := h.uu
  have ww := h.ww
  have uw := h.uw
  rw [hO]
  simp only [dot, Pt.add_x, Pt.add_y, Pt.smul_x, Pt.smul_y, Pt.sub_x, Pt.sub_y] at *
  linear_combination p * a * uu + q * b * ww + (p * b + q * a) * uw

/-- The hole between the two circles of a corner and the first side. -/
theorem corner_triple {A B C u w : Pt} {σ γ β κ : ℝ} (h : Corner A B C u w σ γ β κ) {m : ℝ} (hm : 0 < m) :
    Triple (circ ⟨A + ((1 + σ) * m) • u, σ * ((1 + σ) * m)⟩) (circ ⟨A + ((1 - σ) * m) • u, σ * ((1 - σ) * m)⟩) (half (σ • u + γ • w) A)
      (circ ⟨A + (γ * m) • (γ • u - σ • w), γ * (σ * m)⟩) := by
  have hσ := h.hσ
  have hγ := h.hγ
  have sq := h.sq
  have h1 := h.σ_lt
  have h1' : 0 < 1 - σ := by linarith
  have v1 : (⟨A + ((1 + σ) * m) • u, σ * ((1 + σ) * m)⟩ : Circle).Valid := by unfold Circle.Valid; positivity
  have v2 : (⟨A + ((1 - σ) * m) • u, σ * ((1 - σ) * m)⟩ : Circle).Valid := by unfold Circle.Valid; positivity
  have v3 : (⟨A + (γ * m) • (γ • u - σ • w), γ * (σ * m)⟩ : Circle).Valid := by unfold Circle.Valid; positivity
  have o1 : A + ((1 + σ) * m) • u = A + ((1 + σ) * m) • u + (0 : ℝ) • w := by ext <;> simp
  have o2 : A + ((1 - σ) * m) • u = A + ((1 - σ) * m) • u + (0 : ℝ) • w := by ext <;> simp
  have o3 : A + (γ * m) • (γ • u - σ • w) = A + (γ * m * γ) • u + (-(γ * m * σ)) • w := by ext <;> simp <;> ring
  have hn : dot (σ • u + γ • w) (σ • u + γ • w) = 1 := by
    have := dot_frame h (O := A + σ • u + γ • w) (p := σ) (q := γ) rfl
    rw [show A + σ • u + γ • w - A = σ • u + γ • w by ext <;> simp <;> ring] at this
    rw [this]; linear_combination sq
  have key : ∀ {c d : Circle}, c.Valid → d.Valid → sqDist c.center d.center = c.radius ^ 2 + d.radius ^ 2 → pr (circ c) (circ d) = 0 := by
    intro c d hc hd e
    have := pr_circ hc hd
    rw [e] at this
    have hr : 0 < c.radius := hc
    have hr' : 0 < d.radius := hd
    have h2 : (2 * c.radius * d.radius) ≠ 0 := by positivity
    apply mul_right_cancel₀ h2
    rw [this]; ring
  have keyh : ∀ {c : Circle} (k : ℝ), c.Valid → dot (σ • u + γ • w) (c.center - A) = -k * c.radius → pr (circ c) (half (σ • u + γ • w) A) = k := by
    intro c k hc e
    have := pr_circ_half hc (σ • u + γ • w) A
    rw [e] at this
    exact mul_right_cancel₀ (ne_of_gt hc) (by rw [this]; ring)
  refine ⟨pr_circ_self v1, pr_circ_self v2, by rw [pr_half, hn], ?_, ?_, ?_, pr_circ_self v3, ?_, ?_, ?_, ?_⟩
  · rw [pr_circ_tangent v1 v2]; dsimp only; rw [sqDist_two h o1 o2]; ring
  · apply keyh _ v1; dsimp only; rw [dot_frame h o1]; ring
  · apply keyh _ v2; dsimp only; rw [dot_frame h o2]; ring
  · apply key v3 v1; dsimp only; rw [sqDist_two h o3 o1]; linear_combination m ^ 2 * (γ ^ 2 - 1 - 2 * σ - σ ^ 2) * sq
  · apply key v3 v2; dsimp only; rw [sqDist_two h o3 o2]; linear_combination m ^ 2 * (γ ^ 2 - 1 + 2 * σ - σ ^ 2) * sq
  · apply keyh _ v3; dsimp only; rw [dot_frame h o3]; ring
  · rw [circ_zero]; dsimp only; positivity

set_option maxHeartbeats 1000000 in
theorem fill_cll {A B C : Pt} {circle : Circle} {W : List GV} {R : Set Pt} (h : HoleIs (.cll A B C circle) W R) {st : Step}
    (hf : fill (.cll A B C circle) = .ok st) : StepIs W R st := by
  obtain ⟨u, w, σ, γ, β, κ, m, h, hm, rfl, rfl, rfl⟩ := h
  have hσ := h.hσ
  have hγ := h.hγ
  have sq := h.sq
  have h1 := h.σ_lt
  have h1' : 0 < 1 - σ := by linarith
  have hst := corner_ok h (by positivity) hf
  have hlam : (1 - σ) / (1 + σ) * ((1 + σ) * m) = (1 - σ) * m := by field_simp
  rw [hlam] at hst
  subst hst
  have t1 := corner_triple h hm
  have t2 := corner_triple h.mirror hm
  have o0 : A = A + (0 : ℝ) • u + (0 : ℝ) • w := by ext <;> simp
  have o1 : A + ((1 + σ) * m) • u = A + ((1 + σ) * m) • u + (0 : ℝ) • w := by ext <;> simp
  have o2 : A + ((1 - σ) * m) • u = A + ((1 - σ) * m) • u + (0 : ℝ) • w := by ext <;> simp
  have o3 : A + (γ * m) • (γ • u - σ • w) = A + (γ * m * γ) • u + (-(γ * m * σ)) • w := by ext <;> simp <;> ring
  have o4 : A + (γ * m) • (γ • u - σ • -w) = A + (γ * m * γ) • u + (γ * m * σ) • w := by ext <;> simp <;> ring
  have v1 : (⟨A + ((1 + σ) * m) • u, σ * ((1 + σ) * m)⟩ : Circle).Valid := by unfold Circle.Valid; positivity
  have v2 : (⟨A + ((1 - σ) * m) • u, σ * ((1 - σ) * m)⟩ : Circle).Valid := by unfold Circle.Valid; positivity
  have eK := fun P => ev_frame h (P := P) (r := σ * ((1 + σ) * m)) (by positivity) o1
  have ec := fun P => ev_frame h (P := P) (r := σ * ((1 - σ) * m)) (by positivity) o2
  have eD := fun P => ev_frame h (P := P) (r := γ * ((1 + σ) * m)) (by positivity) o0
  have eD' := fun P => ev_frame h (P := P) (r := γ * ((1 - σ) * m)) (by positivity) o0
  have eB := fun P => ev_frame h (P := P) (r := γ * (σ * m)) (by positivity) o3
  have eC := fun P => ev_frame h (P := P) (r := γ * (σ * m)) (by positivity) o4
  have lB : ∀ P, ev (half (σ • u + γ • w) A) P = 2 * (σ * dot u (P - A) + γ * dot w (P - A)) := by
    intro P
    rw [ev_half]
    simp only [dot, Pt.add_x, Pt.add_y, Pt.smul_x, Pt.smul_y]
    ring
  have lC : ∀ P, ev (half (σ • u + γ • -w) A) P = 2 * (σ * dot u (P - A) - γ * dot w (P - A)) := by
    intro P
    rw [ev_half]
    simp only [dot, Pt.add_x, Pt.add_y, Pt.smul_x, Pt.smul_y, Pt.neg_x, Pt.neg_y]
    ring
  have hq := fun P => sqDist_frame h P
  obtain ⟨K, hK⟩ : ∃ K, K = circ ⟨A + ((1 + σ) * m) • u, σ * ((1 + σ) * m)⟩ := ⟨_, rfl⟩
  obtain ⟨c, hc⟩ : ∃ c, c = circ ⟨A + ((1 - σ) * m) • u, σ * ((1 - σ) * m)⟩ := ⟨_, rfl⟩
  obtain ⟨D, hD⟩ : ∃ D, D = circ ⟨A, γ * ((1 + σ) * m)⟩ := ⟨_, rfl⟩
  obtain ⟨D', hD'⟩ : ∃ D, D = circ ⟨A, γ * ((1 - σ) * m)⟩ := ⟨_, rfl⟩
  obtain ⟨DB, hDB⟩ : ∃ D, D = circ ⟨A + (γ * m) • (γ • u - σ • w), γ * (σ * m)⟩ := ⟨_, rfl⟩
  obtain ⟨DC, hDC⟩ : ∃ D, D = circ ⟨A + (γ * m) • (γ • u - σ • -w), γ * (σ * m)⟩ := ⟨_, rfl⟩
  obtain ⟨LB, hLB⟩ : ∃ D, D = half (σ • u + γ • w) A := ⟨_, rfl⟩
  obtain ⟨LC, hLC⟩ : ∃ D, D = half (σ • u + γ • -w) A := ⟨_, rfl⟩
  rw [← hK] at eK t1 t2
  rw [← hc] at ec t1 t2
  rw [← hD] at eD
  rw [← hD'] at eD'
  rw [← hDB] at eB t1
  rw [← hDC] at eC t2
  rw [← hLB] at lB t1
  rw [← hLC] at lC t2
  -- linear relations
  have eK' : ∀ P, ev K P * (σ * ((1 + σ) * m)) = sqDist P A - 2 * ((1 + σ) * m * dot u (P - A)) + ((1 + σ) * m) ^ 2 - (σ * ((1 + σ) * m)) ^ 2 := by
    intro P; rw [eK, div_mul_cancel₀ _ (by positivity)]; ring
  have ec' : ∀ P, ev c P * (σ * ((1 - σ) * m)) = sqDist P A - 2 * ((1 - σ) * m * dot u (P - A)) + ((1 - σ) * m) ^ 2 - (σ * ((1 - σ) * m)) ^ 2 := by
    intro P; rw [ec, div_mul_cancel₀ _ (by positivity)]; ring
  have f1 : ∀ P, ev D P * (γ * ((1 + σ) * m)) = sqDist P A - (γ * ((1 + σ) * m)) ^ 2 := by
    intro P; rw [eD, div_mul_cancel₀ _ (by positivity)]; ring
  have f2 : ∀ P, ev D' P * (γ * ((1 - σ) * m)) = sqDist P A - (γ * ((1 - σ) * m)) ^ 2 := by
    intro P; rw [eD', div_mul_cancel₀ _ (by positivity)]; ring
  have f3 : ∀ P, ev DB P * (γ * (σ * m)) = sqDist P A - 2 * (γ * m * (γ * dot u (P - A) - σ * dot w (P - A))) + (γ ^ 2 * m) ^ 2 := by
    intro P; rw [eB, div_mul_cancel₀ _ (by positivity)]; ring
  have f4 : ∀ P, ev DC P * (γ * (σ * m)) = sqDist P A - 2 * (γ * m * (γ * dot u (P - A) + σ * dot w (P - A))) + (γ ^ 2 * m) ^ 2 := by
    intro P; rw [eC, div_mul_cancel₀ _ (by positivity)]; ring
  clear eK ec eD eD' eB eC
  have z1 : σ * m ≠ 0 := by positivity
  have z2 : σ * (1 + σ) * m ≠ 0 := by positivity
  have z3 : σ * (1 - σ) * m ≠ 0 := by positivity
  have z4 : γ * σ * m ≠ 0 := by positivity
  have r1 : ∀ P, ev LC P = γ ^ 2 * (ev K P + ev c P) + ev LB P - 2 * γ * ev DB P := by
    intro P; apply mul_left_cancel₀ z1; rw [lC, lB]
    linear_combination (-(1 - σ)) * eK' P - (1 + σ) * ec' P + 2 * f3 P + (-(σ * m * (ev K P + ev c P)) - 4 * m * dot u (P - A) + 2 * m ^ 2 * (γ ^ 2 + 1 - σ ^ 2)) * sq
  have r2 : ∀ P, ev LB P = γ ^ 2 * (ev K P + ev c P) + ev LC P - 2 * γ * ev DC P := by
    intro P; apply mul_left_cancel₀ z1; rw [lC, lB]
    linear_combination (-(1 - σ)) * eK' P - (1 + σ) * ec' P + 2 * f4 P + (-(σ * m * (ev K P + ev c P)) - 4 * m * dot u (P - A) + 2 * m ^ 2 * (γ ^ 2 + 1 - σ ^ 2)) * sq
  have r3 : ∀ P, γ * ev D P = γ * ev DB P - (ev K P + ev LB P) := by
    intro P; apply mul_left_cancel₀ z2; rw [lB]
    linear_combination σ * f1 P - (1 + σ) * f3 P + eK' P + (2 * (1 + σ) * m * dot u (P - A) - (1 + σ) * m ^ 2 * (γ ^ 2 + 1 + σ)) * sq
  have r4 : ∀ P, γ * ev D P = γ * ev DC P - (ev K P + ev LC P) := by
    intro P; apply mul_left_cancel₀ z2; rw [lC]
    linear_combination σ * f1 P - (1 + σ) * f4 P + eK' P + (2 * (1 + σ) * m * dot u (P - A) - (1 + σ) * m ^ 2 * (γ ^ 2 + 1 + σ)) * sq
  have r5 : ∀ P, γ * (ev D' P + ev DB P) = ev c P + ev LB P := by
    intro P; apply mul_left_cancel₀ z3; rw [lB]
    linear_combination σ * f2 P + (1 - σ) * f3 P - ec' P + (-(2 * (1 - σ) * m * dot u (P - A)) + (1 - σ) * m ^ 2 * (γ ^ 2 + 1 - σ)) * sq
  have r6 : ∀ P, γ * (ev D' P + ev DC P) = ev c P + ev LC P := by
    intro P; apply mul_left_cancel₀ z3; rw [lC]
    linear_combination σ * f2 P + (1 - σ) * f4 P - ec' P + (-(2 * (1 - σ) * m * dot u (P - A)) + (1 - σ) * m ^ 2 * (γ ^ 2 + 1 - σ)) * sq
  have r7 : ∀ P, ev DB P + ev DC P = γ * (ev K P + ev c P) := by
    intro P; apply mul_left_cancel₀ z4
    linear_combination f3 P + f4 P - (1 - σ) * eK' P - (1 + σ) * ec' P + (-(σ * m * (ev K P + ev c P)) - 4 * m * dot u (P - A) + 2 * m ^ 2 * (γ ^ 2 + 1 - σ ^ 2)) * sq
  have hneg : ∀ {x k : ℝ}, 0 < k → (x * k < 0 ↔ x < 0) := fun hk => ⟨fun h => by by_contra h'; push Not at h'; nlinarith [mul_nonneg h' hk.le], fun h => mul_neg_of_neg_of_pos h hk⟩
  have hnu : dot (σ • u + γ • w) (σ • u + γ • w) = 1 := by rw [hLB] at t1; rw [← pr_half _ A _ A]; exact t1.n3
  have hnv : dot (σ • u + γ • -w) (σ • u + γ • -w) = 1 := by rw [hLC] at t2; rw [← pr_half _ A _ A]; exact t2.n3
  have hAB : A ≠ B := by
    intro e
    have := sqDist_two h (O := B) (O' := A) (a := β * γ) (b := -(β * σ)) (by rw [h.hB]; ext <;> simp <;> ring) o0
    rw [← e] at this
    have z : sqDist A A = 0 := by unfold sqDist; ring
    have hβ := h.hβ
    have : 0 < (β * γ - 0) ^ 2 := by rw [sub_zero]; positivity
    nlinarith [sq_nonneg (-(β * σ) - 0)]
  have hAC : A ≠ C := by
    intro e
    have := sqDist_two h (O := C) (O' := A) (a := κ * γ) (b := κ * σ) (by rw [h.hC]; ext <;> simp <;> ring) o0
    rw [← e] at this
    have z : sqDist A A = 0 := by unfold sqDist; ring
    have hκ := h.hκ
    have : 0 < (κ * γ - 0) ^ 2 := by rw [sub_zero]; positivity
    nlinarith [sq_nonneg (κ * σ - 0)]
  have hoB : dot (σ • u + γ • w) (B - A) = 0 := by
    rw [dot_frame h (a := β * γ) (b := -(β * σ)) (by rw [h.hB]; ext <;> simp <;> ring)]; ring
  have hoC : dot (σ • u + γ • -w) (C - A) = 0 := by
    rw [dot_frame h.mirror (a := κ * γ) (b := -(κ * σ)) (by rw [h.hC]; ext <;> simp <;> ring)]; ring
  have m' : (1 + σ) * ((1 - σ) * m / (1 + σ)) = (1 - σ) * m := by field_simp
  refine ⟨v2, ?_, ⟨_, _, _, [c, LB, LC], [K, c, LB], [K, c, LC], hole c LB LC D', hole K c LB DB, hole K c LC DC, rfl, ?_,
    ⟨v1, v2, hAB, _, DB, hnu, hoB, ?_, ?_, ?_⟩, ⟨v1, v2, hAC, _, DC, hnv, hoC, ?_, ?_, ?_⟩, ?_, ?_, ?_, ?_, ?_, ?_, ?_, ?_, ?_, ?_⟩, ?_⟩
  · intro P hP
    rw [← hc] at hP
    rw [← hK, ← hLB, ← hLC, ← hD]
    have k0 : 0 < K 0 := by rw [hK, circ_zero]; dsimp only; positivity
    have c0 : 0 < c 0 := by rw [hc, circ_zero]; dsimp only; positivity
    have b0 : LB 0 = 0 := by rw [hLB, half_zero]
    have d0 : LC 0 = 0 := by rw [hLC, half_zero]
    have q1 := tangent_nonneg t1.n1 t1.n2 t1.t12 (by linarith) P
    have q2 := tangent_nonneg t1.n2 t1.n3 t1.t23 (by linarith) P
    have q3 := tangent_nonneg t2.n2 t2.n3 t2.t23 (by linarith) P
    refine ⟨by linarith, by linarith, by linarith, (hneg (k := γ * ((1 + σ) * m)) (by positivity)).1 ?_⟩
    rw [f1]
    have e1 := ec' P
    have e2 : ev c P * (σ * ((1 - σ) * m)) < 0 := mul_neg_of_neg_of_pos hP (by positivity)
    have e3 := hq P
    generalize dot u (P - A) = v at *
    generalize dot w (P - A) = z at *
    have hl : 0 < (1 - σ) * m := by positivity
    have hv : v < (1 + σ) * ((1 - σ) * m) := by
      have : (v - (1 - σ) * m) ^ 2 < (σ * ((1 - σ) * m)) ^ 2 := by nlinarith [sq_nonneg z]
      have := abs_lt_of_sq_lt_sq this (by positivity)
      have := (abs_lt.1 this).2
      nlinarith
    have : sqDist P A < 2 * ((1 - σ) * m) * ((1 + σ) * ((1 - σ) * m)) - ((1 - σ) * m) ^ 2 * (1 - σ ^ 2) := by nlinarith
    have g : γ ^ 2 = 1 - σ ^ 2 := by linarith
    have : (γ * ((1 + σ) * m)) ^ 2 = (1 - σ ^ 2) * ((1 + σ) * m) ^ 2 := by rw [mul_pow, g]
    have h2 : 2 * ((1 - σ) * m) * ((1 + σ) * ((1 - σ) * m)) - ((1 - σ) * m) ^ 2 * (1 - σ ^ 2) = (1 - σ ^ 2) * m ^ 2 * ((1 - σ) * (1 + σ)) := by ring
    have h3 : (1 - σ ^ 2) * ((1 + σ) * m) ^ 2 - (1 - σ ^ 2) * m ^ 2 * ((1 - σ) * (1 + σ)) = 2 * σ * (1 + σ) * (γ ^ 2 * m ^ 2) := by rw [g]; ring
    have h4 : 0 < 2 * σ * (1 + σ) * (γ ^ 2 * m ^ 2) := by positivity
    linarith
  · exact ⟨u, w, σ, γ, β, κ, (1 - σ) * m / (1 + σ), h, by positivity, by rw [m'], by rw [hc, hLB, hLC], by rw [m', ← hc, ← hLB, ← hLC, ← hD']⟩
  · rw [← hK, ← hc, ← hLB]; exact t1
  · rw [← hK, ← hc, ← hLB]
  · rw [← hK, ← hc, ← hLB]
  · rw [← hK, ← hc, ← hLC]; exact t2
  · rw [← hK, ← hc, ← hLC]
  · rw [← hK, ← hc, ← hLC]
  · rintro P ⟨q1, q2, q3, q4⟩
    rw [← hK, ← hLB, ← hLC, ← hD]
    have e1 : ev D' P * (γ * ((1 - σ) * m)) < 0 := mul_neg_of_neg_of_pos q4 (by positivity)
    rw [f2] at e1
    have e2 := eK' P
    have e3 := hq P
    refine ⟨?_, q2, q3, (hneg (k := γ * ((1 + σ) * m)) (by positivity)).1 ?_⟩
    · by_contra hn
      push Not at hn
      have e4 : ev K P * (σ * ((1 + σ) * m)) ≤ 0 := mul_nonpos_of_nonpos_of_nonneg hn (by positivity)
      generalize dot u (P - A) = v at *
      generalize dot w (P - A) = z at *
      have hv : v < γ * ((1 - σ) * m) := by
        have : v ^ 2 < (γ * ((1 - σ) * m)) ^ 2 := by nlinarith [sq_nonneg z]
        exact (abs_lt.1 (abs_lt_of_sq_lt_sq this (by positivity))).2
      have g : γ ^ 2 = 1 - σ ^ 2 := by linarith
      have hγ1 : γ < 1 := by nlinarith
      have k1 : v ^ 2 - 2 * ((1 + σ) * m * v) + γ ^ 2 * ((1 + σ) * m) ^ 2 ≤ 0 := by rw [g]; nlinarith [sq_nonneg z]
      have k2 : (γ * ((1 - σ) * m)) ^ 2 - 2 * ((1 + σ) * m * (γ * ((1 - σ) * m))) + γ ^ 2 * ((1 + σ) * m) ^ 2 = 2 * γ ^ 2 * m ^ 2 * (1 + σ ^ 2 - γ) := by
        linear_combination (2 * m ^ 2 * γ) * sq
      have k3 : 0 < 2 * γ ^ 2 * m ^ 2 * (1 + σ ^ 2 - γ) := by
        have : 0 < 1 + σ ^ 2 - γ := by nlinarith [sq_nonneg σ]
        positivity
      have k4 : 0 < γ * ((1 - σ) * m) - v := by linarith
      have k5 : 0 < 2 * ((1 + σ) * m) - v - γ * ((1 - σ) * m) := by
        have : γ * ((1 - σ) * m) < (1 + σ) * m := by nlinarith [mul_pos hγ hm, mul_pos hσ hm]
        linarith
      nlinarith [mul_pos k4 k5]
    · rw [f1]
      have : (γ * ((1 - σ) * m)) ^ 2 ≤ (γ * ((1 + σ) * m)) ^ 2 := by
        apply pow_le_pow_left₀ (by positivity)
        apply mul_le_mul_of_nonneg_left _ hγ.le
        nlinarith
      linarith
  · rintro P ⟨q1, q2, q3, q4⟩
    rw [← hK, ← hLB, ← hLC, ← hD]
    have a1 := r1 P
    have a2 := r3 P
    have g2 : 0 < γ ^ 2 := by positivity
    refine ⟨q1, q3, ?_, ?_⟩
    · nlinarith [mul_pos g2 (add_pos q1 q2), mul_neg_of_pos_of_neg hγ q4]
    · have : ev D P * γ < 0 := by nlinarith [mul_neg_of_pos_of_neg hγ q4]
      exact (hneg hγ).1 this
  · rintro P ⟨q1, q2, q3, q4⟩
    rw [← hK, ← hLB, ← hLC, ← hD]
    have a1 := r2 P
    have a2 := r4 P
    have g2 : 0 < γ ^ 2 := by positivity
    refine ⟨q1, ?_, q3, ?_⟩
    · nlinarith [mul_pos g2 (add_pos q1 q2), mul_neg_of_pos_of_neg hγ q4]
    · have : ev D P * γ < 0 := by nlinarith [mul_neg_of_pos_of_neg hγ q4]
      exact (hneg hγ).1 this
  · rintro P ⟨q1, q2, q3, q4⟩; dsimp only; rwa [← hc]
  · rintro P ⟨q1, q2, q3, q4⟩; dsimp only; rwa [← hc]
  · rintro P ⟨q1, q2, q3, q4⟩; dsimp only; rwa [← hc]
  · rintro P ⟨q1, q2, q3, q4⟩ ⟨p1, p2, p3, p4⟩
    have := r5 P
    nlinarith [mul_neg_of_pos_of_neg hγ (add_neg q4 p4)]
  · rintro P ⟨q1, q2, q3, q4⟩ ⟨p1, p2, p3, p4⟩
    have := r6 P
    nlinarith [mul_neg_of_pos_of_neg hγ (add_neg q4 p4)]
  · rintro P ⟨q1, q2, q3, q4⟩ ⟨p1, p2, p3, p4⟩
    have := r7 P
    nlinarith [mul_pos hγ (add_pos q1 q2)]
  · intro X
    dsimp only
    rw [← hK, ← hc, ← hLB, ← hLC]
    simp only [List.mem_cons, List.not_mem_nil, or_false]
    tauto
  · dsimp only
    rw [← hK, ← hc, ← hLB, ← hLC]
    simp only [List.mem_cons, List.not_mem_nil, or_false, forall_eq_or_imp, forall_eq]
    exact ⟨(pr_comm _ _).trans t1.t12, t1.t23, t2.t23⟩

/-- A hole that is filled without error is filled as it should. -/
theorem fill_ok {h : Hole} {W : List GV} {R : Set Pt} (hh : HoleIs h W R) {st : Step} (hf : fill h = .ok st) : StepIs W R st := by
  cases h with
  | ccc c1 c2 c3 =>
    obtain ⟨st', e, s⟩ := fill_ccc hh
    rw [e] at hf
    exact Except.ok.inj hf ▸ s
  | ccl cA cB A B =>
    obtain ⟨st', e, s⟩ := fill_ccl hh
    rw [e] at hf
    exact Except.ok.inj hf ▸ s
  | cll A B C c => exact fill_cll hh hf

end TriGasket
