import Verif.Lemmas.TriGasketMalfatti

/-!
# C101: the gasket of a triangle drawn by `triangularApollonianGasket.py`
-/

open Spec Real Classical GV TriGasket

namespace TriGasket

theorem ev_circ_zero {c : Circle} (hc : c.Valid) (P : Pt) : ev (circ c) P = 0 ↔ OnCircle c.center c.radius P := by
  have e := ev_circ hc P
  have hr : 0 < c.radius := hc
  unfold OnCircle
  constructor
  · intro h; rw [h, zero_mul] at e; linarith
  · intro h
    rw [h, sub_self] at e
    exact (mul_eq_zero.1 e).resolve_right hr.ne'

/-- Every new circle touches three walls at three points. -/
theorem leans_of {A B C : Pt} {a b c : GV} {L : List Circle} {d : Circle} (la : ∀ P, ev a P = 0 ↔ OnLine B C P) (lb : ∀ P, ev b P = 0 ↔ OnLine C A P)
    (lc : ∀ P, ev c P = 0 ↔ OnLine A B P) (hv : ∀ e ∈ L, e.Valid) (hd : d.Valid) (h : Leans3 [a, b, c] L d) : Leans d (walls A B C L) := by
  obtain ⟨W, ⟨K1, K2, K3, rfl, n1, n2, n3, p12, p13, p23, z1, z2, z3⟩, hW⟩ := h
  simp only [List.mem_cons, List.not_mem_nil, or_false, forall_eq_or_imp, forall_eq] at hW
  obtain ⟨⟨w1, t1⟩, ⟨w2, t2⟩, ⟨w3, t3⟩⟩ := hW
  have hr : 0 < d.radius := hd
  have d0 : 0 < circ d 0 := by rw [circ_zero]; positivity
  have nd := pr_circ_self hd
  have curve : ∀ {K}, Known [a, b, c] L K → ∃ S ∈ walls A B C L, ∀ P, P ∈ S ↔ ev K P = 0 := by
    rintro K (hK | ⟨e, he, rfl⟩)
    · simp only [List.mem_cons, List.not_mem_nil, or_false] at hK
      rcases hK with rfl | rfl | rfl
      · exact ⟨lineSet B C, .inr (.inl rfl), fun P => (la P).symm⟩
      · exact ⟨lineSet C A, .inr (.inr (.inl rfl)), fun P => (lb P).symm⟩
      · exact ⟨lineSet A B, .inl rfl, fun P => (lc P).symm⟩
    · exact ⟨circleSet e, .inr (.inr (.inr ⟨e, he, rfl⟩)), fun P => (ev_circ_zero (hv e he) P).symm⟩
  obtain ⟨S1, m1, s1⟩ := curve w1
  obtain ⟨S2, m2, s2⟩ := curve w2
  obtain ⟨S3, m3, s3⟩ := curve w3
  obtain ⟨P1, u1, x1, y1, q1⟩ := contact nd n1 t1 (by linarith)
  obtain ⟨P2, u2, x2, y2, q2⟩ := contact nd n2 t2 (by linarith)
  obtain ⟨P3, u3, x3, y3, q3⟩ := contact nd n3 t3 (by linarith)
  have one : ∀ {K S P}, (∀ Q, Q ∈ S ↔ ev K Q = 0) → (∀ Q, ev (circ d) Q = 0 ∧ ev K Q = 0 ↔ Q = P) → circleSet d ∩ S = {P} := by
    intro K S P hS hP
    ext Q
    rw [Set.mem_inter_iff, Set.mem_singleton_iff, hS, ← hP, ev_circ_zero hd]
    rfl
  exact ⟨S1, m1, S2, m2, S3, m3, P1, P2, P3, contact_ne nd t1 t2 p12 x1 y1 q1 x2 y2 q2, contact_ne nd t1 t3 p13 x1 y1 q1 x3 y3 q3,
    contact_ne nd t2 t3 p23 x2 y2 q2 x3 y3 q3, one s1 u1, one s2 u2, one s3 u3⟩

theorem Inv.three {T : Set Pt} {S : List GV} {first drawn : List Circle} {Hs : List Hole} (h : Inv T S first drawn Hs) {sts : List Step}
    (hs : List.Forall₂ (fun h st => fill h = .ok st) Hs sts) : (sts.flatMap Step.holes).length = 3 * sts.length := by
  obtain ⟨⟨L, l1, -, -⟩, -, -, -⟩ := h
  induction hs generalizing L with
  | nil => rfl
  | cons a b ih =>
    cases l1 with
    | cons p q =>
      obtain ⟨-, -, ⟨h1, h2, h3, -, -, -, -, -, -, e, -⟩, -⟩ := fill_ok p a
      rw [List.flatMap_cons, List.length_append, ih _ q, e, List.length_cons]
      simp only [List.length_cons, List.length_nil]
      ring

/-- The loop keeps the state as it should be. -/
theorem passes_inv {T : Set Pt} {S : List GV} {first : List Circle} {d : ℕ} : ∀ {drawn : List Circle} {sts : List Step} {L : List Circle},
    Inv T S first drawn (sts.flatMap Step.holes) → (sts.flatMap Step.holes).length = 3 * sts.length → passes d (first ++ drawn) sts = .ok L →
    ∃ drawn' Hs, L = first ++ drawn' ∧ Inv T S first drawn' Hs ∧ 2 * drawn'.length + 3 * sts.length = 2 * drawn.length + 3 ^ (d + 1) * sts.length := by
  induction d with
  | zero =>
    intro drawn sts L h h3 hp
    rw [passes] at hp
    rw [← Res.pure_ok.1 hp]
    exact ⟨drawn, _, rfl, h, by ring⟩
  | succ d ih =>
    intro drawn sts L h h3 hp
    rw [passes] at hp
    obtain ⟨Hs, e, hp⟩ := Res.bind_ok.1 hp
    have f := forall2_of_mapM e
    have h' := h.step f
    have t := h.three f
    rw [List.append_assoc] at hp
    obtain ⟨drawn', Hs', e1, e2, e3⟩ := ih h' t hp
    refine ⟨drawn', Hs', e1, e2, ?_⟩
    have len := f.length_eq
    rw [h3] at len
    rw [List.length_append, List.length_map, ← len] at e3
    rw [pow_succ 3 (d + 1)]
    linarith

end TriGasket

/-- C101: for every non-flat triangle and every depth, when the script finishes it has drawn three circles, then seven, then three times more at each
pass; the first three are the Malfatti circles; the discs are inside the triangle and have no common points; every circle after the first three touches
three different curves among the sides of the triangle and the drawn circles, at three different points. -/
theorem C101_gasket (A B C : Pt) (depth : ℕ) (L : List Circle) (h : ¬ Collinear A B C) (hr : drawTriangularGasket A B C depth = .ok L) :
    2 * L.length + 1 = 7 * 3 ^ (depth + 1) ∧
    (∃ cA cB cC TA TB TC rest, L = cA :: cB :: cC :: rest ∧
      MalfattiConfig A B C cA.center cA.radius cB.center cB.radius cC.center cC.radius TA TB TC ∧ ∀ c ∈ rest, Leans c (walls A B C L)) ∧
    (∀ c ∈ L, 0 < c.radius ∧ ∀ P, sqDist P c.center < c.radius ^ 2 → InTriangle A B C P) ∧
    L.Pairwise fun c d => (disc c).Apart (disc d) := by
  obtain ⟨m, em, M⟩ := C43_malfatti ⟨A, B, C⟩ h
  unfold drawTriangularGasket at hr
  rw [em, Res.ok_bind] at hr
  dsimp only at hr M
  obtain ⟨sts, e, hr⟩ := Res.bind_ok.1 hr
  obtain ⟨a, b, c, -, la, lb, lc, inv⟩ := start h M
  have f : List.Forall₂ (fun h st => fill h = .ok st) [.ccl m.cA m.cB A B, .ccl m.cB m.cC B C, .ccl m.cC m.cA C A, .ccc m.cA m.cB m.cC, .cll A B C m.cA,
      .cll B A C m.cB, .cll C A B m.cC] sts := by
    unfold first at e
    obtain ⟨s1, e1, e⟩ := Res.bind_ok.1 e
    obtain ⟨s2, e2, e⟩ := Res.bind_ok.1 e
    obtain ⟨s3, e3, e⟩ := Res.bind_ok.1 e
    obtain ⟨s4, e4, e⟩ := Res.bind_ok.1 e
    obtain ⟨s5, e5, e⟩ := Res.bind_ok.1 e
    obtain ⟨s6, e6, e⟩ := Res.bind_ok.1 e
    obtain ⟨s7, e7, e⟩ := Res.bind_ok.1 e
    rw [← Res.pure_ok.1 e]
    exact .cons e1 (.cons e2 (.cons e3 (.cons e4 (.cons e5 (.cons e6 (.cons e7 .nil))))))
  have inv1 := inv.step f
  have t := inv.three f
  obtain ⟨drawn', Hs, rfl, inv2, cnt⟩ := passes_inv inv1 t hr
  have len := f.length_eq
  rw [List.nil_append, List.length_map, ← len] at cnt
  have hv : ∀ c ∈ [m.cA, m.cB, m.cC] ++ drawn', c.Valid := fun c hc => (inv2.inside c hc).1
  refine ⟨?_, ⟨m.cA, m.cB, m.cC, m.TA, m.TB, m.TC, drawn', rfl, M, fun d hd => leans_of la lb lc hv (hv d (List.mem_append_right _ hd)) (inv2.leans d hd)⟩,
    fun d hd => ⟨hv d hd, fun P hP => (inv2.inside d hd).2 ((ev_circ_neg (hv d hd) P).2 hP)⟩, ?_⟩
  · rw [List.length_append]
    simp only [List.length_cons, List.length_nil] at cnt ⊢
    linarith
  · have key := inv2.apart
    rw [List.pairwise_iff_getElem] at key ⊢
    intro i j hi hj hij
    have k := key i j hi hj hij
    have vi := hv _ (List.getElem_mem hi)
    have vj := hv _ (List.getElem_mem hj)
    unfold Region.Apart
    rw [Set.disjoint_left] at k ⊢
    rintro X ⟨P, rfl, p1⟩ ⟨Q, e, p2⟩
    cases e
    exact k ((ev_circ_neg vi P).2 p1) ((ev_circ_neg vj P).2 p2)
