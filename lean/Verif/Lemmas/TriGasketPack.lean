import Verif.Lemmas.TriGasketHole
import Verif.Lemmas.TriGasketStart
import Verif.Spec.TriGasket

/-! The passes of the triangular gasket. -/

open Spec Real Classical GV

namespace GV

/-- The contact point of two tangent discs or half-planes. -/
theorem contact {X Y : GV} (hX : pr X X = 1) (hY : pr Y Y = 1) (h : pr X Y = -1) (h0 : 0 < X 0 + Y 0) :
    ∃ P : Pt, (∀ Q, ev X Q = 0 ∧ ev Y Q = 0 ↔ Q = P) ∧ X 2 + Y 2 = (X 0 + Y 0) * P.x ∧ X 3 + Y 3 = (X 0 + Y 0) * P.y ∧
      X 1 + Y 1 = (X 0 + Y 0) * (P.x ^ 2 + P.y ^ 2) := by
  have hn : (X 2 + Y 2) ^ 2 + (X 3 + Y 3) ^ 2 = (X 0 + Y 0) * (X 1 + Y 1) := by
    unfold pr at hX hY h
    linear_combination hX + hY + 2 * h
  have e2 : X 2 + Y 2 = (X 0 + Y 0) * ((X 2 + Y 2) / (X 0 + Y 0)) := by field_simp
  have e3 : X 3 + Y 3 = (X 0 + Y 0) * ((X 3 + Y 3) / (X 0 + Y 0)) := by field_simp
  have e1 : X 1 + Y 1 = (X 0 + Y 0) * (((X 2 + Y 2) / (X 0 + Y 0)) ^ 2 + ((X 3 + Y 3) / (X 0 + Y 0)) ^ 2) := by
    field_simp; linear_combination -hn
  refine ⟨⟨(X 2 + Y 2) / (X 0 + Y 0), (X 3 + Y 3) / (X 0 + Y 0)⟩, ?_, e2, e3, e1⟩
  intro Q
  generalize (X 2 + Y 2) / (X 0 + Y 0) = p at *
  generalize (X 3 + Y 3) / (X 0 + Y 0) = q at *
  constructor
  · rintro ⟨a1, a2⟩
    have s : (X 0 + Y 0) * ((Q.x - p) ^ 2 + (Q.y - q) ^ 2) = 0 := by
      unfold ev at a1 a2
      linear_combination a1 + a2 - e1 + 2 * Q.x * e2 + 2 * Q.y * e3
    have s' : (Q.x - p) ^ 2 + (Q.y - q) ^ 2 = 0 := (mul_eq_zero.1 s).resolve_left h0.ne'
    have s1 : Q.x - p = 0 := by nlinarith [sq_nonneg (Q.x - p), sq_nonneg (Q.y - q)]
    have s2 : Q.y - q = 0 := by nlinarith [sq_nonneg (Q.x - p), sq_nonneg (Q.y - q)]
    ext
    · dsimp only; linarith
    · dsimp only; linarith
  · rintro rfl
    have key : ∀ Z : GV, pr Z (X + Y) = -(X 0 + Y 0) / 2 * ev Z ⟨p, q⟩ := by
      intro Z
      unfold pr ev
      simp only [Pi.add_apply]
      linear_combination Z 2 * e2 + Z 3 * e3 - Z 0 / 2 * e1
    have k1 := key X
    have k2 := key Y
    rw [pr_add', hX, h] at k1
    rw [pr_add', pr_comm Y X, hY, h] at k2
    constructor
    · have : -(X 0 + Y 0) / 2 ≠ 0 := by linarith
      exact (mul_eq_zero.1 (by rw [← k1]; norm_num : -(X 0 + Y 0) / 2 * ev X ⟨p, q⟩ = 0)).resolve_left this
    · have : -(X 0 + Y 0) / 2 ≠ 0 := by linarith
      exact (mul_eq_zero.1 (by rw [← k2]; norm_num : -(X 0 + Y 0) / 2 * ev Y ⟨p, q⟩ = 0)).resolve_left this

/-- The points of contact with two walls are different. -/
theorem contact_ne {X Y Z : GV} (hX : pr X X = 1) (h1 : pr X Y = -1) (h2 : pr X Z = -1) (hYZ : pr Y Z < 1) {P Q : Pt}
    (a2 : X 2 + Y 2 = (X 0 + Y 0) * P.x) (a3 : X 3 + Y 3 = (X 0 + Y 0) * P.y) (a1 : X 1 + Y 1 = (X 0 + Y 0) * (P.x ^ 2 + P.y ^ 2))
    (b2 : X 2 + Z 2 = (X 0 + Z 0) * Q.x) (b3 : X 3 + Z 3 = (X 0 + Z 0) * Q.y) (b1 : X 1 + Z 1 = (X 0 + Z 0) * (Q.x ^ 2 + Q.y ^ 2)) : P ≠ Q := by
  rintro rfl
  have e : pr (X + Y) (X + Z) = 0 := by
    unfold pr
    simp only [Pi.add_apply]
    rw [a1, a2, a3, b1, b2, b3]
    ring
  rw [pr_add, pr_add', pr_add', hX, h2, pr_comm Y X, h1] at e
  linarith

end GV

namespace TriGasket

/-- The points of a disc. -/
def dset (c : Circle) : Set Pt := {P | ev (circ c) P < 0}

/-- Three walls. -/
def Walls3 (W : List GV) : Prop :=
  ∃ K L M, W = [K, L, M] ∧ pr K K = 1 ∧ pr L L = 1 ∧ pr M M = 1 ∧ pr K L < 1 ∧ pr K M < 1 ∧ pr L M < 1 ∧ 0 ≤ K 0 ∧ 0 ≤ L 0 ∧ 0 ≤ M 0

theorem holeIs_walls {h : Hole} {W : List GV} {R : Set Pt} (hh : HoleIs h W R) : Walls3 W := by
  cases h with
  | ccc c1 c2 c3 =>
    obtain ⟨v1, v2, v3, D, t, rfl, -⟩ := hh
    exact ⟨_, _, _, rfl, t.n1, t.n2, t.n3, by rw [t.t12]; norm_num, by rw [t.t13]; norm_num, by rw [t.t23]; norm_num, circ_pos v1, circ_pos v2, circ_pos v3⟩
  | ccl cA cB A B =>
    obtain ⟨v1, v2, -, n, D, -, -, t, rfl, -⟩ := hh
    exact ⟨_, _, _, rfl, t.n1, t.n2, t.n3, by rw [t.t12]; norm_num, by rw [t.t13]; norm_num, by rw [t.t23]; norm_num, circ_pos v1, circ_pos v2,
      (half_zero _ _).ge⟩
  | cll A B C c =>
    obtain ⟨u, w, σ, γ, β, κ, m, h, hm, rfl, rfl, -⟩ := hh
    have hσ := h.hσ
    have hγ := h.hγ
    have v1 : (⟨A + ((1 + σ) * m) • u, σ * ((1 + σ) * m)⟩ : Circle).Valid := by unfold Circle.Valid; positivity
    have t1 := corner_triple h hm
    have t2 := corner_triple h.mirror hm
    refine ⟨_, _, _, rfl, t1.n1, t1.n3, t2.n3, by rw [t1.t13]; norm_num, by rw [t2.t13]; norm_num, ?_, circ_pos v1, (half_zero _ _).ge, (half_zero _ _).ge⟩
    rw [pr_half]
    have uu := h.uu
    have ww := h.ww
    have uw := h.uw
    have sq := h.sq
    have : dot (σ • u + γ • w) (σ • u + γ • -w) = σ ^ 2 - γ ^ 2 := by
      simp only [dot, Pt.add_x, Pt.add_y, Pt.smul_x, Pt.smul_y, Pt.neg_x, Pt.neg_y] at *
      linear_combination σ ^ 2 * uu - γ ^ 2 * ww
    rw [this]
    nlinarith [sq_pos_of_pos hγ]

/-- A hole with its walls and its points. -/
abbrev WR := List GV × Set Pt

/-- What filling all the holes of a list gives. -/
theorem spread {L : List WR} {sts : List Step} (h : List.Forall₂ (fun wr st => StepIs wr.1 wr.2 st) L sts) (hd : L.Pairwise fun x y => Disjoint x.2 y.2) :
    ∃ L' : List WR, List.Forall₂ (fun h wr => HoleIs h wr.1 wr.2) (sts.flatMap Step.holes) L' ∧ (L'.Pairwise fun x y => Disjoint x.2 y.2) ∧
      (∀ y ∈ L', ∃ x ∈ L, y.2 ⊆ x.2 ∧ ∀ K ∈ y.1, K ∈ x.1 ∨ ∃ st ∈ sts, K = circ st.drawn) ∧ (∀ y ∈ L', ∀ st ∈ sts, Disjoint y.2 (dset st.drawn)) ∧
      ((sts.map Step.drawn).Pairwise fun c d => Disjoint (dset c) (dset d)) ∧
      ∀ st ∈ sts, st.drawn.Valid ∧ ∃ x ∈ L, dset st.drawn ⊆ x.2 ∧ ∀ K ∈ x.1, pr (circ st.drawn) K = -1 := by
  induction h with
  | nil => exact ⟨[], by simp, by simp, by simp, by simp, by simp, by simp⟩
  | @cons x st L sts h0 hl ih =>
    rw [List.pairwise_cons] at hd
    obtain ⟨hx, hd'⟩ := hd
    obtain ⟨L', i1, i2, i3, i4, i5, i6⟩ := ih hd'
    obtain ⟨v, ins, ⟨h1, h2, h3, W1, W2, W3, R1, R2, R3, eh, q1, q2, q3, s1, s2, s3, o1, o2, o3, d12, d13, d23, hw⟩, ht⟩ := h0
    have ins' : dset st.drawn ⊆ x.2 := fun P hP => ins P hP
    have dd : ∀ {R : Set Pt}, (∀ P ∈ R, 0 < ev (circ st.drawn) P) → Disjoint R (dset st.drawn) := by
      intro R hR
      rw [Set.disjoint_left]
      intro P p1 p2
      have a := hR P p1
      have b : ev (circ st.drawn) P < 0 := p2
      linarith
    have far : ∀ {R S : Set Pt}, R ⊆ x.2 → ∀ y ∈ L', Disjoint R y.2 := by
      intro R S hR y hy
      obtain ⟨z, hz, hyz, -⟩ := i3 y hy
      exact (hx z hz).mono hR hyz
    have cfar : ∀ {R : Set Pt}, R ⊆ x.2 → ∀ t ∈ sts, Disjoint R (dset t.drawn) := by
      intro R hR t ht
      obtain ⟨-, z, hz, hyz, -⟩ := i6 t ht
      exact (hx z hz).mono hR hyz
    refine ⟨(W1, R1) :: (W2, R2) :: (W3, R3) :: L', ?_, ?_, ?_, ?_, ?_, ?_⟩
    · rw [List.flatMap_cons, eh]
      exact .cons q1 (.cons q2 (.cons q3 i1))
    · simp only [List.pairwise_cons, List.mem_cons, forall_eq_or_imp]
      exact ⟨⟨Set.disjoint_left.2 d12, Set.disjoint_left.2 d13, far (S := ∅) s1⟩, ⟨Set.disjoint_left.2 d23, far (S := ∅) s2⟩, far (S := ∅) s3, i2⟩
    · simp only [List.mem_cons, forall_eq_or_imp]
      have conv : ∀ K, (K ∈ W1 ∨ K ∈ W2 ∨ K ∈ W3) → K ∈ x.1 ∨ ∃ t, (t = st ∨ t ∈ sts) ∧ K = circ t.drawn := by
        intro K hK
        rcases hw K hK with e | e
        · exact .inr ⟨st, .inl rfl, e⟩
        · exact .inl e
      refine ⟨⟨x, .inl rfl, s1, fun K hK => conv K (.inl hK)⟩, ⟨x, .inl rfl, s2, fun K hK => conv K (.inr (.inl hK))⟩,
        ⟨x, .inl rfl, s3, fun K hK => conv K (.inr (.inr hK))⟩, ?_⟩
      intro y hy
      obtain ⟨z, hz, hyz, hk⟩ := i3 y hy
      refine ⟨z, .inr hz, hyz, fun K hK => ?_⟩
      rcases hk K hK with e | ⟨t, ht, e⟩
      · exact .inl e
      · exact .inr ⟨t, .inr ht, e⟩
    · simp only [List.mem_cons, forall_eq_or_imp]
      refine ⟨⟨dd o1, cfar s1⟩, ⟨dd o2, cfar s2⟩, ⟨dd o3, cfar s3⟩, ?_⟩
      intro y hy
      exact ⟨(far (S := ∅) ins' y hy).symm, i4 y hy⟩
    · rw [List.map_cons, List.pairwise_cons]
      refine ⟨?_, i5⟩
      intro d hd
      obtain ⟨t, ht, rfl⟩ := List.mem_map.1 hd
      exact cfar ins' t ht
    · simp only [List.mem_cons, forall_eq_or_imp]
      refine ⟨⟨v, x, .inl rfl, ins', ht⟩, ?_⟩
      intro t ht
      obtain ⟨v', z, hz, a, b⟩ := i6 t ht
      exact ⟨v', z, .inr hz, a, b⟩

/-- The wall is one of the sides or one of the circles. -/
def Known (S : List GV) (drawn : List Circle) (K : GV) : Prop := K ∈ S ∨ ∃ d ∈ drawn, K = circ d

theorem Known.mono {S : List GV} {L L' : List Circle} {K : GV} (h : Known S L K) (hl : ∀ c ∈ L, c ∈ L') : Known S L' K := by
  rcases h with h | ⟨d, hd, e⟩
  · exact .inl h
  · exact .inr ⟨d, hl d hd, e⟩

/-- A circle touching three of the walls. -/
def Leans3 (S : List GV) (drawn : List Circle) (c : Circle) : Prop := ∃ W, Walls3 W ∧ ∀ K ∈ W, Known S drawn K ∧ pr (circ c) K = -1

/-- The state of the drawing: circles drawn and holes. -/
structure Inv (T : Set Pt) (S : List GV) (first drawn : List Circle) (Hs : List Hole) : Prop where
  holes : ∃ L : List WR, List.Forall₂ (fun h wr => HoleIs h wr.1 wr.2) Hs L ∧ (L.Pairwise fun x y => Disjoint x.2 y.2) ∧
    ∀ x ∈ L, x.2 ⊆ T ∧ (∀ c ∈ first ++ drawn, Disjoint x.2 (dset c)) ∧ ∀ K ∈ x.1, Known S (first ++ drawn) K
  apart : (first ++ drawn).Pairwise fun c d => Disjoint (dset c) (dset d)
  inside : ∀ c ∈ first ++ drawn, c.Valid ∧ dset c ⊆ T
  leans : ∀ c ∈ drawn, Leans3 S (first ++ drawn) c

theorem Inv.step {T : Set Pt} {S : List GV} {first drawn : List Circle} {Hs : List Hole} (h : Inv T S first drawn Hs) {sts : List Step}
    (hs : List.Forall₂ (fun h st => fill h = .ok st) Hs sts) : Inv T S first (drawn ++ sts.map Step.drawn) (sts.flatMap Step.holes) := by
  obtain ⟨⟨L, l1, l2, l3⟩, ap, ins, le⟩ := h
  have l4 : List.Forall₂ (fun wr st => StepIs wr.1 wr.2 st) L sts := by
    clear l2 l3
    induction hs generalizing L with
    | nil => cases l1; exact .nil
    | cons a b ih =>
      cases l1 with
      | cons p q => exact .cons (fill_ok p a) (ih _ q)
  have l5 : ∀ x ∈ L, Walls3 x.1 := by
    intro x hx
    obtain ⟨i, hi, rfl⟩ := List.getElem_of_mem hx
    exact holeIs_walls (l1.get (by rw [l1.length_eq]; exact hi) hi)
  obtain ⟨L', i1, i2, i3, i4, i5, i6⟩ := spread l4 l2
  have sub : ∀ c ∈ first ++ drawn, c ∈ first ++ (drawn ++ sts.map Step.drawn) := by
    intro c hc
    rw [← List.append_assoc]
    exact List.mem_append_left _ hc
  have newk : ∀ st ∈ sts, st.drawn ∈ first ++ (drawn ++ sts.map Step.drawn) := by
    intro st hst
    rw [← List.append_assoc]
    exact List.mem_append_right _ (List.mem_map_of_mem hst)
  have split : ∀ c ∈ first ++ (drawn ++ sts.map Step.drawn), c ∈ first ++ drawn ∨ ∃ st ∈ sts, c = st.drawn := by
    intro c hc
    rw [← List.append_assoc] at hc
    rcases List.mem_append.1 hc with hc | hc
    · exact .inl hc
    · obtain ⟨st, a, b⟩ := List.mem_map.1 hc
      exact .inr ⟨st, a, b.symm⟩
  refine ⟨⟨L', i1, i2, ?_⟩, ?_, ?_, ?_⟩
  · intro y hy
    obtain ⟨x, hx, hyx, hk⟩ := i3 y hy
    obtain ⟨m1, m2, m3⟩ := l3 x hx
    refine ⟨hyx.trans m1, ?_, ?_⟩
    · intro c hc
      rcases split c hc with hc | ⟨st, hst, rfl⟩
      · exact (m2 c hc).mono_left hyx
      · exact i4 y hy st hst
    · intro K hK
      rcases hk K hK with e | ⟨st, hst, e⟩
      · exact (m3 K e).mono sub
      · exact .inr ⟨_, newk st hst, e⟩
  · rw [← List.append_assoc, List.pairwise_append]
    refine ⟨ap, i5, ?_⟩
    intro c hc d hd
    obtain ⟨st, hst, rfl⟩ := List.mem_map.1 hd
    obtain ⟨-, x, hx, hdx, -⟩ := i6 st hst
    exact ((l3 x hx).2.1 c hc).symm.mono_right hdx
  · intro c hc
    rcases split c hc with hc | ⟨st, hst, rfl⟩
    · exact ins c hc
    · obtain ⟨v, x, hx, hdx, -⟩ := i6 st hst
      exact ⟨v, hdx.trans (l3 x hx).1⟩
  · intro c hc
    rcases List.mem_append.1 hc with hc | hc
    · obtain ⟨W, w1, w2⟩ := le c hc
      exact ⟨W, w1, fun K hK => ⟨(w2 K hK).1.mono sub, (w2 K hK).2⟩⟩
    · obtain ⟨st, hst, rfl⟩ := List.mem_map.1 hc
      obtain ⟨v, x, hx, -, hk⟩ := i6 st hst
      exact ⟨x.1, l5 x hx, fun K hK => ⟨((l3 x hx).2.2 K hK).mono sub, hk K hK⟩⟩

/-- A loop over a list of lists. -/
theorem forall2_of_mapM {sts : List Step} {Hs : List (List Step)} (h : sts.mapM new_holes = .ok Hs) :
    List.Forall₂ (fun h st => fill h = .ok st) (sts.flatMap Step.holes) Hs.flatten := by
  have key : ∀ (l : List Hole) (r : List Step), l.mapM fill = .ok r → List.Forall₂ (fun h st => fill h = .ok st) l r := by
    intro l
    induction l with
    | nil => intro r hr; rw [List.mapM_nil] at hr; rw [← Res.pure_ok.1 hr.symm.symm]; exact .nil
    | cons a l ih =>
      intro r hr
      rw [List.mapM_cons] at hr
      obtain ⟨x, e1, hr⟩ := Res.bind_ok.1 hr
      obtain ⟨y, e2, hr⟩ := Res.bind_ok.1 hr
      rw [← Res.pure_ok.1 hr]
      exact .cons e1 (ih y e2)
  induction sts generalizing Hs with
  | nil => rw [List.mapM_nil] at h; rw [← Res.pure_ok.1 h]; exact .nil
  | cons a l ih =>
    rw [List.mapM_cons] at h
    obtain ⟨x, e1, h⟩ := Res.bind_ok.1 h
    obtain ⟨y, e2, h⟩ := Res.bind_ok.1 h
    rw [← Res.pure_ok.1 h, List.flatMap_cons, List.flatten_cons]
    exact List.rel_append (key _ _ e1) (ih e2)

end TriGasket
