import Verif.Lemmas.Gasket

/-! Gaskets grown by inversions, in general: each inversion has a region, the regions do not overlap, and an inversion sends the circles in the
regions of the others into its own region. -/

open Spec Real Classical Gasket

/-- The inversion as a map of the plane with the point at infinity. -/
noncomputable abbrev Spec.mirror (iota : Inversion) : XPt → XPt := xinv iota.pole iota.power

/-- What a gasket starts from: mirrors, a region `W j` for each of them, regions `S`, and the first generation `C` of circles, each with the number
of the mirror that made it. -/
structure GasketFrame (mirrors : List Inversion) (W : ℕ → Region) (S : Set Region) (C : List (Circle × ℕ)) : Prop where
  power : ∀ iota ∈ mirrors, iota.power ≠ 0
  /-- the regions of the mirrors do not overlap -/
  apart : ∀ i j : ℕ, i < mirrors.length → j < mirrors.length → i ≠ j → (W i).Apart (W j)
  /-- a circle of the first generation is the image of a starting region in its mirror and is inside the region of the mirror -/
  first : ∀ p ∈ C, p.1.Valid ∧ ∃ iota, mirrors[p.2]? = some iota ∧ (disc p.1).inside ⊆ (W p.2).inside ∧
    ∃ s ∈ S, disc p.1 = s.image (mirror iota)
  /-- the image of a starting region in a mirror is a starting region or a circle of the first generation -/
  closed : ∀ (j : ℕ) (iota : Inversion), mirrors[j]? = some iota → ∀ s ∈ S, s.image (mirror iota) ∈ S ∨ ∃ c, (c, j) ∈ C ∧ s.image (mirror iota) = disc c
  /-- the circles of the first generation do not overlap -/
  apartC : C.Pairwise fun p q => (disc p.1).Apart (disc q.1)
  /-- nor do they overlap the starting regions -/
  apartS : ∀ p ∈ C, ∀ s ∈ S, (disc p.1).Apart s
  /-- `invert_circle` sends a circle in the region of another mirror, and away from the starting regions, to a circle in the region of the mirror -/
  step : ∀ (j k : ℕ) (iota : Inversion), mirrors[j]? = some iota → k < mirrors.length → k ≠ j → ∀ c : Circle, c.Valid →
    (disc c).inside ⊆ (W k).inside → (∀ s ∈ S, (disc c).Apart s) →
    ∃ c', iota.invert_circle c = .ok (.circle c') ∧ c'.Valid ∧ disc c' = (disc c).image (mirror iota) ∧ (disc c').inside ⊆ (W j).inside

/-- A pair of a circle and a number as it is in the lists of the script. -/
def pairG (p : Circle × ℕ) : GCircle × ℕ := (.circle p.1, p.2)

theorem pairG_injective : Function.Injective pairG := by
  rintro ⟨c, k⟩ ⟨c', k'⟩ h
  unfold pairG at h
  simp only [Prod.mk.injEq, GCircle.circle.injEq] at h
  rw [h.1, h.2]

/-- The circle is inside the region of its mirror and does not overlap the starting regions. -/
def Tagged (mirrors : List Inversion) (W : ℕ → Region) (S : Set Region) (p : Circle × ℕ) : Prop :=
  p.1.Valid ∧ p.2 < mirrors.length ∧ (disc p.1).inside ⊆ (W p.2).inside ∧ ∀ s ∈ S, (disc p.1).Apart s

/-- `q` is the mirror image of `p` in the mirror number `q.2`, which is not the one of `p`. -/
def ChildOf (mirrors : List Inversion) (p q : Circle × ℕ) : Prop :=
  q.2 ≠ p.2 ∧ ∃ iota, mirrors[q.2]? = some iota ∧ disc q.1 = (disc p.1).image (mirror iota)

section
variable {mirrors : List Inversion} {W : ℕ → Region} {S : Set Region} {C : List (Circle × ℕ)}

theorem tagged_apart (H : GasketFrame mirrors W S C) {p q : Circle × ℕ} (hp : Tagged mirrors W S p) (hq : Tagged mirrors W S q) (hne : p.2 ≠ q.2) :
    (disc p.1).Apart (disc q.1) :=
  Set.disjoint_of_subset hp.2.2.1 hq.2.2.1 (H.apart _ _ hp.2.1 hq.2.1 hne)

theorem first_tagged (H : GasketFrame mirrors W S C) {p : Circle × ℕ} (hp : p ∈ C) : Tagged mirrors W S p := by
  obtain ⟨h1, iota, h2, h3, -⟩ := H.first p hp
  exact ⟨h1, (List.getElem?_eq_some_iff.1 h2).1, h3, H.apartS p hp⟩

/-- Inverting a tagged circle in another mirror gives a tagged circle. -/
theorem child_exists (H : GasketFrame mirrors W S C) {p : Circle × ℕ} (hp : Tagged mirrors W S p) {j : ℕ} {iota : Inversion}
    (hj : mirrors[j]? = some iota) (hne : j ≠ p.2) :
    ∃ c, invertG iota (.circle p.1) = .ok (.circle c) ∧ Tagged mirrors W S (c, j) ∧ ChildOf mirrors p (c, j) := by
  obtain ⟨hc, hk, hsub, hs⟩ := id hp
  obtain ⟨c', e, v, hd, hin⟩ := H.step j p.2 iota hj hk (Ne.symm hne) p.1 hc hsub hs
  have hjl : j < mirrors.length := (List.getElem?_eq_some_iff.1 hj).1
  refine ⟨c', e, ⟨v, hjl, hin, ?_⟩, hne, iota, hj, hd⟩
  intro s hsS
  have hinv := xinv_involutive iota.pole (H.power _ (List.mem_of_getElem? hj))
  rw [← Region.image_image hinv s, hd]
  refine Region.apart_image hinv ?_
  rcases H.closed _ iota hj s hsS with h | ⟨c, hc, hci⟩
  · exact hs _ h
  · rw [hci]
    exact tagged_apart H (q := (c, j)) hp (first_tagged H hc) (Ne.symm hne)

theorem childrenOf_ok (H : GasketFrame mirrors W S C) {p : Circle × ℕ} (hp : Tagged mirrors W S p) :
    ∀ l : List (Inversion × ℕ), (∀ x ∈ l, mirrors[x.2]? = some x.1) →
      ∃ M : List (Circle × ℕ), childrenOf (.circle p.1) p.2 l = .ok (M.map pairG) ∧
        M.map Prod.snd = (l.map Prod.snd).filter (· ≠ p.2) ∧ ∀ q ∈ M, Tagged mirrors W S q ∧ ChildOf mirrors p q := by
  intro l
  induction l with
  | nil => intro _; exact ⟨[], rfl, rfl, by simp⟩
  | cons x l ih =>
    obtain ⟨iota, j⟩ := x
    intro hl
    obtain ⟨M, e, hM, hq⟩ := ih fun x hx => hl x (List.mem_cons_of_mem _ hx)
    have hj := hl _ List.mem_cons_self
    dsimp only at hj
    by_cases hne : j ≠ p.2
    · obtain ⟨c, e1, ht, hch⟩ := child_exists H hp hj hne
      refine ⟨(c, j) :: M, ?_, ?_, ?_⟩
      · rw [childrenOf, if_pos hne, e1, e]; rfl
      · simp only [List.map_cons]
        rw [List.filter_cons_of_pos (by simpa using hne), hM]
      · intro q hqm
        rcases List.mem_cons.1 hqm with rfl | h
        · exact ⟨ht, hch⟩
        · exact hq q h
    · refine ⟨M, ?_, ?_, hq⟩
      · rw [childrenOf, if_neg hne, e]
      · simp only [List.map_cons]
        rw [List.filter_cons_of_neg (by simpa using hne), hM]

theorem count_ne (m k : ℕ) (h : k < m) : ((List.range m).filter (· ≠ k)).length = m - 1 := by
  have h1 : (List.range m).filter (· ≠ k) = (List.range m).erase k := by
    rw [List.nodup_range.erase_eq_filter]
    congr 1
    funext x
    rw [Bool.eq_iff_iff]
    simp
  rw [h1, List.length_erase_of_mem (List.mem_range.2 h), List.length_range]

theorem children_ok (H : GasketFrame mirrors W S C) : ∀ L : List (Circle × ℕ), (∀ p ∈ L, Tagged mirrors W S p) →
    ∃ N : List (Circle × ℕ), children mirrors (L.map pairG) = .ok (N.map pairG) ∧ N.length = L.length * (mirrors.length - 1) ∧
      (∀ q ∈ N, Tagged mirrors W S q ∧ ∃ p ∈ L, ChildOf mirrors p q) ∧
      (∀ p ∈ L, ∀ j, j < mirrors.length → j ≠ p.2 → ∃ q ∈ N, q.2 = j ∧ ChildOf mirrors p q) ∧
      (L.Pairwise (fun p q => (disc p.1).Apart (disc q.1)) → N.Pairwise fun p q => (disc p.1).Apart (disc q.1)) := by
  intro L
  induction L with
  | nil => intro _; exact ⟨[], rfl, by simp, by simp, by simp, by simp⟩
  | cons p L ih =>
    intro hL
    obtain ⟨N, e, hlen, hN, hall, hpw⟩ := ih fun q hq => hL q (List.mem_cons_of_mem _ hq)
    have hp := hL p List.mem_cons_self
    obtain ⟨M, eM, hM, hq⟩ := childrenOf_ok H hp mirrors.zipIdx (by
      rintro ⟨x, i⟩ hx
      rw [List.mem_zipIdx_iff_getElem?] at hx
      exact hx)
    have hsnd : mirrors.zipIdx.map Prod.snd = List.range mirrors.length := by
      rw [List.zipIdx_map_snd, List.range_eq_range']
    rw [hsnd] at hM
    have hk : p.2 < mirrors.length := hp.2.1
    refine ⟨M ++ N, ?_, ?_, ?_, ?_, ?_⟩
    · rw [List.map_cons, List.map_append]
      have : children mirrors (pairG p :: L.map pairG) = (do
        let here ← childrenOf (.circle p.1) p.2 mirrors.zipIdx
        let more ← children mirrors (L.map pairG)
        return here ++ more) := rfl
      rw [this, eM, e]
      rfl
    · have hl : M.length = mirrors.length - 1 := by
        rw [← List.length_map (f := Prod.snd), hM, count_ne _ _ hk]
      rw [List.length_append, hlen, hl, List.length_cons]
      ring
    · intro q hqm
      rcases List.mem_append.1 hqm with h | h
      · exact ⟨(hq q h).1, p, List.mem_cons_self, (hq q h).2⟩
      · obtain ⟨h1, p', hp', h2⟩ := hN q h
        exact ⟨h1, p', List.mem_cons_of_mem _ hp', h2⟩
    · intro p' hp' j hj hne
      rcases List.mem_cons.1 hp' with rfl | h
      · have : j ∈ M.map Prod.snd := by
          rw [hM, List.mem_filter]
          exact ⟨List.mem_range.2 hj, by simpa using hne⟩
        obtain ⟨q, hqM, rfl⟩ := List.mem_map.1 this
        exact ⟨q, List.mem_append_left _ hqM, rfl, (hq q hqM).2⟩
      · obtain ⟨q, hqN, h1, h2⟩ := hall p' h j hj hne
        exact ⟨q, List.mem_append_right _ hqN, h1, h2⟩
    · intro hpair
      rw [List.pairwise_cons] at hpair
      rw [List.pairwise_append]
      refine ⟨?_, hpw hpair.2, ?_⟩
      · have hnd : (M.map Prod.snd).Nodup := by rw [hM]; exact List.nodup_range.filter _
        rw [List.Nodup, List.pairwise_map] at hnd
        refine hnd.imp_of_mem ?_
        intro a b ha hb hab
        exact tagged_apart H (hq a ha).1 (hq b hb).1 hab
      · intro a ha b hb
        by_cases hab : a.2 = b.2
        · obtain ⟨-, iota, hi, hia⟩ := (hq a ha).2
          obtain ⟨-, p', hp', -, iota', hi', hib⟩ := hN b hb
          rw [← hab, hi] at hi'
          cases hi'
          rw [hia, hib]
          exact Region.apart_image (xinv_involutive _ (H.power _ (List.mem_of_getElem? hi))) (hpair.1 p' hp')
        · exact tagged_apart H (hq a ha).1 (hN b hb).1 hab

theorem generation_succ {d : ℕ} {L : List (Circle × ℕ)} (h : generation mirrors (C.map pairG) d = .ok (L.map pairG)) :
    generation mirrors (C.map pairG) (d + 1) = children mirrors (L.map pairG) := by
  rw [generation, h]; rfl

/-- Everything about one generation, by induction. -/
theorem generation_ok (H : GasketFrame mirrors W S C) : ∀ d, ∃ L : List (Circle × ℕ),
    generation mirrors (C.map pairG) d = .ok (L.map pairG) ∧ L.length = C.length * (mirrors.length - 1) ^ d ∧
      (∀ p ∈ L, Tagged mirrors W S p) ∧ L.Pairwise (fun p q => (disc p.1).Apart (disc q.1)) := by
  intro d
  induction d with
  | zero => exact ⟨C, rfl, by simp, fun p hp => first_tagged H hp, H.apartC⟩
  | succ d ih =>
    obtain ⟨L, e, hlen, ht, hp⟩ := ih
    obtain ⟨N, e', hlen', hN, -, hpw⟩ := children_ok H L ht
    exact ⟨N, by rw [generation_succ e, e'], by rw [hlen', hlen, pow_succ]; ring, fun q hq => (hN q hq).1, hpw hp⟩

theorem generation_unique {d : ℕ} {L L' : List (Circle × ℕ)}
    (h : generation mirrors (C.map pairG) d = .ok (L.map pairG)) (h' : generation mirrors (C.map pairG) d = .ok (L'.map pairG)) : L = L' := by
  rw [h] at h'
  injection h' with h'
  exact List.map_injective_iff.2 pairG_injective h'

theorem generation_tagged (H : GasketFrame mirrors W S C) {d : ℕ} {L : List (Circle × ℕ)}
    (h : generation mirrors (C.map pairG) d = .ok (L.map pairG)) : ∀ p ∈ L, Tagged mirrors W S p := by
  obtain ⟨L', e, -, ht, -⟩ := generation_ok H d
  obtain rfl := generation_unique h e
  exact ht

/-- A circle of a later generation comes from a circle of the previous generation. -/
theorem generation_parent (H : GasketFrame mirrors W S C) (d : ℕ) (L : List (Circle × ℕ))
    (h : generation mirrors (C.map pairG) (d + 1) = .ok (L.map pairG)) (q : Circle × ℕ) (hq : q ∈ L) :
    ∃ iota, mirrors[q.2]? = some iota ∧ ∃ L' : List (Circle × ℕ), generation mirrors (C.map pairG) d = .ok (L'.map pairG) ∧ ∃ p ∈ L', p.2 ≠ q.2 ∧
      disc q.1 = (disc p.1).image (mirror iota) := by
  obtain ⟨L', e', -, ht, -⟩ := generation_ok H d
  obtain ⟨N, eN, -, hN, -, -⟩ := children_ok H L' ht
  rw [generation_succ e', eN] at h
  injection h with h
  obtain rfl := List.map_injective_iff.2 pairG_injective h
  obtain ⟨-, p, hp, hne, iota, hi, hd⟩ := hN q hq
  exact ⟨iota, hi, L', e', p, hp, Ne.symm hne, hd⟩

/-- Circles of different generations do not overlap. -/
theorem generations_apart (H : GasketFrame mirrors W S C) : ∀ (d : ℕ) (L : List (Circle × ℕ)),
    generation mirrors (C.map pairG) d = .ok (L.map pairG) → ∀ e < d, ∀ L' : List (Circle × ℕ),
      generation mirrors (C.map pairG) e = .ok (L'.map pairG) → ∀ p ∈ L, ∀ q ∈ L', (disc p.1).Apart (disc q.1) := by
  intro d
  induction d with
  | zero => intro L _ e he; omega
  | succ d ih =>
    intro L h e he L' h' p hp q hq
    by_cases hpq : p.2 = q.2
    · obtain ⟨iota, hi, Ld, eLd, p0, hp0, -, hpd⟩ := generation_parent H d L h p hp
      have hinv := xinv_involutive iota.pole (H.power _ (List.mem_of_getElem? hi))
      rw [hpd]
      cases e with
      | zero =>
        have h0 : generation mirrors (C.map pairG) 0 = .ok (C.map pairG) := rfl
        obtain rfl := generation_unique h0 h'
        obtain ⟨-, iota', hi', -, s, hs, hqs⟩ := H.first q hq
        rw [← hpq, hi] at hi'
        cases hi'
        rw [hqs]
        refine Region.apart_image hinv ?_
        exact (generation_tagged H eLd p0 hp0).2.2.2 s hs
      | succ e =>
        obtain ⟨iota', hi', Le, eLe, q0, hq0, -, hqd⟩ := generation_parent H e L' h' q hq
        rw [← hpq, hi] at hi'
        cases hi'
        rw [hqd]
        exact Region.apart_image hinv (ih Ld eLd e (by omega) Le eLe p0 hp0 q0 hq0)
    · exact tagged_apart H (generation_tagged H h p hp) (generation_tagged H h' q hq) hpq

/-- Nothing overlaps. -/
theorem GasketFrame.packing (H : GasketFrame mirrors W S C) (d : ℕ) :
    ∃ L : List (Circle × ℕ), generation mirrors (C.map pairG) d = .ok (L.map pairG) ∧
      L.length = C.length * (mirrors.length - 1) ^ d ∧
      (∀ p ∈ L, p.1.Valid ∧ p.2 < mirrors.length ∧ (disc p.1).inside ⊆ (W p.2).inside) ∧
      L.Pairwise (fun p q => (disc p.1).Apart (disc q.1)) ∧
      (∀ p ∈ L, ∀ s ∈ S, (disc p.1).Apart s) ∧
      ∀ e < d, ∀ L' : List (Circle × ℕ), generation mirrors (C.map pairG) e = .ok (L'.map pairG) →
        ∀ p ∈ L, ∀ q ∈ L', (disc p.1).Apart (disc q.1) := by
  obtain ⟨L, e, h1, h2, h3⟩ := generation_ok H d
  exact ⟨L, e, h1, fun p hp => ⟨(h2 p hp).1, (h2 p hp).2.1, (h2 p hp).2.2.1⟩, h3, fun p hp => (h2 p hp).2.2.2, generations_apart H d L e⟩

end

/-- The regions of the gasket up to generation `d`. -/
def Spec.GasketRegions (mirrors : List Inversion) (S : Set Region) (C : List (Circle × ℕ)) (d : ℕ) : Set Region :=
  {A | A ∈ S ∨ ∃ e ≤ d, ∃ L : List (Circle × ℕ), generation mirrors (C.map pairG) e = .ok (L.map pairG) ∧ ∃ p ∈ L, A = disc p.1}

/-- Contacts are inherited. -/
theorem GasketFrame.touch {mirrors : List Inversion} {W : ℕ → Region} {S : Set Region} {C : List (Circle × ℕ)} (H : GasketFrame mirrors W S C) (n : ℕ)
    (h1 : ∀ p ∈ C, ∃ q : Fin n → Region, Function.Injective q ∧ ∀ i, q i ∈ GasketRegions mirrors S C 0 ∧ (disc p.1).Touches (q i))
    (d : ℕ) (L : List (Circle × ℕ)) (h : generation mirrors (C.map pairG) d = .ok (L.map pairG)) :
    ∀ p ∈ L, ∃ q : Fin n → Region, Function.Injective q ∧ ∀ i, q i ∈ GasketRegions mirrors S C d ∧ (disc p.1).Touches (q i) := by
  induction d generalizing L with
  | zero =>
    have h0 : generation mirrors (C.map pairG) 0 = .ok (C.map pairG) := rfl
    obtain rfl := generation_unique h0 h
    exact h1
  | succ d ih =>
    intro p hp
    obtain ⟨iota, hi, Ld, eLd, p0, hp0, -, hpd⟩ := generation_parent H d L h p hp
    have hk := H.power _ (List.mem_of_getElem? hi)
    have hinv := xinv_involutive iota.pole hk
    obtain ⟨q, hqi, hq⟩ := ih Ld eLd p0 hp0
    refine ⟨fun i => (q i).image (mirror iota), ?_, ?_⟩
    · intro i j hij
      apply hqi
      have := congrArg (Region.image (mirror iota)) hij
      simpa only [Region.image_image hinv] using this
    · intro i
      refine ⟨?_, by rw [hpd]; exact Region.touches_image hinv (hq i).2⟩
      rcases (hq i).1 with hs | ⟨e, he, Le, eLe, r, hr, hqr⟩
      · rcases H.closed _ iota hi _ hs with h' | ⟨c, hc, hci⟩
        · exact Or.inl h'
        · exact Or.inr ⟨0, by omega, C, rfl, _, hc, hci⟩
      · by_cases hrp : r.2 = p.2
        · cases e with
          | zero =>
            have h0 : generation mirrors (C.map pairG) 0 = .ok (C.map pairG) := rfl
            obtain rfl := generation_unique h0 eLe
            obtain ⟨-, iota', hi', -, s, hs, hrs⟩ := H.first r hr
            rw [hrp, hi] at hi'
            cases hi'
            left
            dsimp only
            rw [hqr, hrs, Region.image_image hinv]
            exact hs
          | succ e =>
            obtain ⟨iota', hi', Le', eLe', r0, hr0, -, hrd⟩ := generation_parent H e Le eLe r hr
            rw [hrp, hi] at hi'
            cases hi'
            right
            refine ⟨e, by omega, Le', eLe', r0, hr0, ?_⟩
            dsimp only
            rw [hqr, hrd, Region.image_image hinv]
        · right
          obtain ⟨N, eN, -, -, hall, -⟩ := children_ok H Le (generation_tagged H eLe)
          obtain ⟨x, hx, hx2, -, iota', hi', hxd⟩ := hall r hr p.2 (List.getElem?_eq_some_iff.1 hi).1 (Ne.symm hrp)
          rw [hx2, hi] at hi'
          cases hi'
          refine ⟨e + 1, by omega, N, by rw [generation_succ eLe, eN], x, hx, ?_⟩
          dsimp only
          rw [hqr, hxd]
