import Verif.Lemmas.GasketFrame

/-! C97: the gaskets of the examples are packings at every depth. -/

open Spec Real Classical Gasket

/-- The disc bounded by the circle of an inversion of positive power. -/
noncomputable def Spec.mirrorDisc (iota : Inversion) : Region := disc ⟨iota.pole, √iota.power⟩

/-- What a gasket starts from: mirrors whose discs do not overlap, regions `S`, and the first generation `C` of circles, each with the number of the
mirror that made it. -/
structure Spec.GasketData (mirrors : List Inversion) (S : Set Region) (C : List (Circle × ℕ)) : Prop where
  /-- the mirrors are not tiny -/
  power : ∀ iota ∈ mirrors, 1 / 2 ^ 26 ≤ iota.power
  /-- the discs of the mirrors do not overlap -/
  apart : ∀ (i j : ℕ) (a b : Inversion), mirrors[i]? = some a → mirrors[j]? = some b → i ≠ j → (mirrorDisc a).Apart (mirrorDisc b)
  /-- a circle of the first generation is the image of a starting region in its mirror and is inside the disc of the mirror -/
  first : ∀ p ∈ C, p.1.Valid ∧ ∃ iota, mirrors[p.2]? = some iota ∧ (disc p.1).inside ⊆ (mirrorDisc iota).inside ∧
    ∃ s ∈ S, disc p.1 = s.image (mirror iota)
  /-- the image of a starting region in a mirror is a starting region or a circle of the first generation -/
  closed : ∀ (j : ℕ) (iota : Inversion), mirrors[j]? = some iota → ∀ s ∈ S, s.image (mirror iota) ∈ S ∨ ∃ c, (c, j) ∈ C ∧ s.image (mirror iota) = disc c
  /-- the circles of the first generation do not overlap -/
  apartC : C.Pairwise fun p q => (disc p.1).Apart (disc q.1)
  /-- nor do they overlap the starting regions -/
  apartS : ∀ p ∈ C, ∀ s ∈ S, (disc p.1).Apart s

/-- A disc away from the disc of a mirror: the pole is well outside, and the image is inside the disc of the mirror. -/
theorem image_apart {iota : Inversion} (hk : 0 < iota.power) {c : Circle} (hc : c.Valid) (hap : (disc c).Apart (mirrorDisc iota)) :
    iota.power < sqDist c.center iota.pole - c.radius ^ 2 ∧ ((disc c).image (mirror iota)).inside ⊆ (mirrorDisc iota).inside := by
  have hv : (⟨iota.pole, √iota.power⟩ : Circle).Valid := Real.sqrt_pos.2 hk
  have hdist := (disc_apart_iff hc hv).1 hap
  dsimp only at hdist
  have r : 0 < c.radius := hc
  have hρ : 0 < √iota.power := Real.sqrt_pos.2 hk
  have hρ2 : √iota.power ^ 2 = iota.power := Real.sq_sqrt hk.le
  have hd2 : Spec.dist c.center iota.pole ^ 2 = sqDist c.center iota.pole := Real.sq_sqrt (sqDist_nonneg _ _)
  have hD : iota.power < sqDist c.center iota.pole - c.radius ^ 2 := by
    rw [← hd2]
    have := pow_le_pow_left₀ (by positivity) hdist 2
    nlinarith [mul_pos r hρ]
  refine ⟨hD, ?_⟩
  rintro X ⟨Y, ⟨P, rfl, hP⟩, rfl⟩
  have hPd : Spec.dist P c.center < c.radius := by
    unfold Spec.dist; rw [Real.sqrt_lt' r]; exact hP
  have tri := specDist_triangle c.center P iota.pole
  rw [specDist_comm c.center P] at tri
  have hPO : √iota.power < Spec.dist P iota.pole := by linarith
  have hPO2 : iota.power < sqDist P iota.pole := by
    have := pow_lt_pow_left₀ hPO hρ.le (two_ne_zero)
    rw [hρ2] at this
    unfold Spec.dist at this
    rwa [Real.sq_sqrt (sqDist_nonneg _ _)] at this
  have hne' : P ≠ iota.pole := by
    rintro rfl
    unfold sqDist at hPO2
    simp at hPO2
    linarith
  simp only [xinv, if_neg hne']
  unfold mirrorDisc
  rw [mem_disc_fin]
  dsimp only
  rw [hρ2]
  have hs : sqDist (iota.pole + (iota.power / sqDist P iota.pole) • (P - iota.pole)) iota.pole = iota.power ^ 2 / sqDist P iota.pole := by
    have hq := (sqDist_pos hne').ne'
    have e : sqDist (iota.pole + (iota.power / sqDist P iota.pole) • (P - iota.pole)) iota.pole =
        (iota.power / sqDist P iota.pole) ^ 2 * sqDist P iota.pole := by
      unfold sqDist; simp; ring
    rw [e]; field_simp
  rw [hs, div_lt_iff₀ (sqDist_pos hne'), pow_two]
  exact mul_lt_mul_of_pos_left hPO2 hk

/-- In that case `invert_circle` gives a circle, whose disc is the image. -/
theorem invert_apart {iota : Inversion} (hkk : 1 / 2 ^ 26 ≤ iota.power) {c : Circle} (hc : c.Valid)
    (hap : (disc c).Apart (mirrorDisc iota)) :
    ∃ c', iota.invert_circle c = .ok (.circle c') ∧ c'.Valid ∧ disc c' = (disc c).image (mirror iota) ∧
      (disc c').inside ⊆ (mirrorDisc iota).inside := by
  have hk : 0 < iota.power := by
    have : (0 : ℝ) < 1 / 2 ^ 26 := by norm_num
    linarith
  obtain ⟨hD, hin⟩ := image_apart hk hc hap
  obtain ⟨c', e, v, -⟩ := C25_invert_circle iota hk.ne' c hc (by rw [abs_of_pos (by linarith)]; linarith)
  have him := (image_disc e).1 (by linarith)
  exact ⟨c', e, v, him.symm, by rw [← him]; exact hin⟩

/-- The regions are the discs of the mirrors. -/
theorem Spec.GasketData.frame {mirrors : List Inversion} {S : Set Region} {C : List (Circle × ℕ)} (H : GasketData mirrors S C) :
    GasketFrame mirrors (fun j => (mirrors[j]?.map mirrorDisc).getD ⟨∅, ∅⟩) S C := by
  have hpos : ∀ iota ∈ mirrors, 0 < iota.power := by
    intro iota h
    have := H.power iota h
    have : (0 : ℝ) < 1 / 2 ^ 26 := by norm_num
    linarith
  have hW : ∀ {j : ℕ} {iota : Inversion}, mirrors[j]? = some iota → (mirrors[j]?.map mirrorDisc).getD ⟨∅, ∅⟩ = mirrorDisc iota := by
    intro j iota h
    rw [h]; rfl
  refine ⟨fun iota h => (hpos iota h).ne', ?_, ?_, H.closed, H.apartC, H.apartS, ?_⟩
  · intro i j hi hj hij
    have ei := List.getElem?_eq_getElem hi
    have ej := List.getElem?_eq_getElem hj
    rw [hW ei, hW ej]
    exact H.apart i j _ _ ei ej hij
  · intro p hp
    obtain ⟨h1, iota, h2, h3, h4⟩ := H.first p hp
    exact ⟨h1, iota, h2, by rw [hW h2]; exact h3, h4⟩
  · intro j k iota hj hk hne c hc hsub _
    have ek := List.getElem?_eq_getElem hk
    rw [hW ek] at hsub
    rw [hW hj]
    exact invert_apart (H.power iota (List.mem_of_getElem? hj)) hc (Set.disjoint_of_subset_left hsub (H.apart k j _ iota ek hj hne))

/-- C97: from mirrors and starting circles as described by `GasketData`, the function `children` never fails and never produces a line, at any
depth; generation `d` has `|C| (m - 1)^d` circles; each of them is inside the disc of the mirror that made it; and no two circles overlap: not
two circles of the same generation, not two circles of different generations, not a circle and a starting region. -/
theorem C97_packing (mirrors : List Inversion) (S : Set Region) (C : List (Circle × ℕ)) (H : GasketData mirrors S C) (d : ℕ) :
    ∃ L : List (Circle × ℕ), generation mirrors (C.map pairG) d = .ok (L.map pairG) ∧
      L.length = C.length * (mirrors.length - 1) ^ d ∧
      (∀ p ∈ L, p.1.Valid ∧ ∃ iota, mirrors[p.2]? = some iota ∧ (disc p.1).inside ⊆ (mirrorDisc iota).inside) ∧
      L.Pairwise (fun p q => (disc p.1).Apart (disc q.1)) ∧
      (∀ p ∈ L, ∀ s ∈ S, (disc p.1).Apart s) ∧
      ∀ e < d, ∀ L' : List (Circle × ℕ), generation mirrors (C.map pairG) e = .ok (L'.map pairG) →
        ∀ p ∈ L, ∀ q ∈ L', (disc p.1).Apart (disc q.1) := by
  obtain ⟨L, e, h1, h2, h3, h4, h5⟩ := H.frame.packing d
  refine ⟨L, e, h1, ?_, h3, h4, h5⟩
  intro p hp
  obtain ⟨v, hk, hs⟩ := h2 p hp
  have ek := List.getElem?_eq_getElem hk
  exact ⟨v, _, ek, by rw [ek] at hs; exact hs⟩

/-- C97: contacts.  If every circle of the first generation touches `n` different regions of the starting configuration and the first generation, then
every circle of generation `d` touches `n` different regions among the generations up to `d`. -/
theorem C97_touch (mirrors : List Inversion) (S : Set Region) (C : List (Circle × ℕ)) (H : GasketData mirrors S C) (n : ℕ)
    (h1 : ∀ p ∈ C, ∃ q : Fin n → Region, Function.Injective q ∧ ∀ i, q i ∈ GasketRegions mirrors S C 0 ∧ (disc p.1).Touches (q i))
    (d : ℕ) (L : List (Circle × ℕ)) (h : generation mirrors (C.map pairG) d = .ok (L.map pairG)) :
    ∀ p ∈ L, ∃ q : Fin n → Region, Function.Injective q ∧ ∀ i, q i ∈ GasketRegions mirrors S C d ∧ (disc p.1).Touches (q i) :=
  H.frame.touch n h1 d L h

/-! ### From mirrors and starting regions to a gasket -/

/-- Mirrors and starting regions: the discs of the mirrors do not overlap, the regions do not overlap, and the image of a region in a mirror is
one of the regions unless the region is away from the disc of the mirror. -/
structure Spec.GasketSeed (mirrors : List Inversion) (S : Set Region) : Prop where
  power : ∀ iota ∈ mirrors, 0 < iota.power
  apart : ∀ (i j : ℕ) (a b : Inversion), mirrors[i]? = some a → mirrors[j]? = some b → i ≠ j → (mirrorDisc a).Apart (mirrorDisc b)
  regions : ∀ s ∈ S, ∀ t ∈ S, s ≠ t → s.Apart t
  closed : ∀ iota ∈ mirrors, ∀ s ∈ S, s.image (mirror iota) ∈ S ∨ s.Apart (mirrorDisc iota) ∧ ∃ c : Circle, c.Valid ∧ s = disc c

/-- C97: a gasket can be grown from every seed.  `C` lists, for every mirror and every starting region away from it whose image is not a starting
region, the circle of the image, once. -/
theorem C97_from_seed (mirrors : List Inversion) (S : Set Region) (H : GasketSeed mirrors S)
    (hpow : ∀ iota ∈ mirrors, 1 / 2 ^ 26 ≤ iota.power) (C : List (Circle × ℕ))
    (sound : ∀ p ∈ C, p.1.Valid ∧ ∃ iota, mirrors[p.2]? = some iota ∧ ∃ s ∈ S, s.Apart (mirrorDisc iota) ∧
      s.image (mirror iota) ∉ S ∧ disc p.1 = s.image (mirror iota))
    (complete : ∀ (j : ℕ) (iota : Inversion), mirrors[j]? = some iota → ∀ s ∈ S, s.image (mirror iota) ∉ S →
      ∃ c, (c, j) ∈ C ∧ s.image (mirror iota) = disc c)
    (once : C.Pairwise fun p q => p.2 = q.2 → disc p.1 ≠ disc q.1) : GasketData mirrors S C := by
  -- the image of a starting region away from the mirror is inside
  have inside : ∀ iota ∈ mirrors, ∀ s ∈ S, s.image (mirror iota) ∉ S → (s.image (mirror iota)).inside ⊆ (mirrorDisc iota).inside ∧
      s.Apart (mirrorDisc iota) := by
    intro iota hi s hs hn
    rcases H.closed iota hi s hs with h | ⟨h, c, hc, rfl⟩
    · exact absurd h hn
    · exact ⟨(image_apart (H.power iota hi) hc h).2, h⟩
  have tag : ∀ p ∈ C, ∃ iota, mirrors[p.2]? = some iota ∧ (disc p.1).inside ⊆ (mirrorDisc iota).inside := by
    intro p hp
    obtain ⟨-, iota, hi, s, hs, ha, hn, hd⟩ := sound p hp
    exact ⟨iota, hi, by rw [hd]; exact (inside iota (List.mem_of_getElem? hi) s hs hn).1⟩
  have inv : ∀ iota ∈ mirrors, Function.Involutive (mirror iota) := fun iota hi => xinv_involutive _ (H.power iota hi).ne'
  refine ⟨hpow, H.apart, ?_, ?_, ?_, ?_⟩
  · intro p hp
    obtain ⟨v, iota, hi, s, hs, ha, hn, hd⟩ := sound p hp
    exact ⟨v, iota, hi, by rw [hd]; exact (inside iota (List.mem_of_getElem? hi) s hs hn).1, s, hs, hd⟩
  · intro j iota hj s hs
    by_cases h : s.image (mirror iota) ∈ S
    · exact Or.inl h
    · exact Or.inr (complete j iota hj s hs h)
  · refine once.imp_of_mem ?_
    intro p q hp hq hpq
    by_cases h : p.2 = q.2
    · obtain ⟨-, iota, hi, s, hs, ha, hn, hd⟩ := sound p hp
      obtain ⟨-, iota', hi', s', hs', ha', hn', hd'⟩ := sound q hq
      rw [← h, hi] at hi'
      cases hi'
      rw [hd, hd']
      refine Region.apart_image (inv iota (List.mem_of_getElem? hi)) (H.regions s hs s' hs' ?_)
      rintro rfl
      exact hpq h (by rw [hd, hd'])
    · obtain ⟨a, ha, hpa⟩ := tag p hp
      obtain ⟨b, hb, hqb⟩ := tag q hq
      exact Set.disjoint_of_subset hpa hqb (H.apart _ _ a b ha hb h)
  · intro p hp t ht
    obtain ⟨-, iota, hi, s, hs, ha, hn, hd⟩ := sound p hp
    have hm := List.mem_of_getElem? hi
    rw [hd, ← Region.image_image (inv iota hm) t]
    refine Region.apart_image (inv iota hm) ?_
    by_cases h : t.image (mirror iota) ∈ S
    · refine H.regions s hs _ h ?_
      rintro rfl
      apply hn
      rw [Region.image_image (inv iota hm)]
      exact ht
    · exact Set.disjoint_of_subset_right (inside iota hm t ht h).1 ha

theorem disc_injective {c c' : Circle} (h : c.Valid) (h' : c'.Valid) (he : disc c = disc c') : c = c' := by
  have hedge : ∀ P, OnCircle c.center c.radius P → OnCircle c'.center c'.radius P := by
    intro P hP
    have : XPt.fin P ∈ (disc c').edge := by rw [← he]; exact mem_edge_fin.2 hP
    exact mem_edge_fin.1 this
  obtain ⟨h1, h2⟩ := circle_subset h h' hedge
  cases c; cases c'
  simp_all

/-- Three unit mirrors in a row and one unit circle far from them: generation `d` has `3 · 2^d` circles, which do not overlap. -/
example (d : ℕ) : ∃ L : List (Circle × ℕ),
    generation [⟨⟨0, 0⟩, 1⟩, ⟨⟨4, 0⟩, 1⟩, ⟨⟨-4, 0⟩, 1⟩]
      [(.circle ⟨⟨20 / 399, 0⟩, 1 / 399⟩, 0), (.circle ⟨⟨4 + 16 / 255, 0⟩, 1 / 255⟩, 1), (.circle ⟨⟨-4 + 24 / 575, 0⟩, 1 / 575⟩, 2)] d =
        .ok (L.map pairG) ∧ L.length = 3 * 2 ^ d ∧ L.Pairwise fun p q => (disc p.1).Apart (disc q.1) := by
  have sv : (⟨⟨20, 0⟩, 1⟩ : Circle).Valid := by unfold Circle.Valid; norm_num
  have hsep : sepsilon_ < 1 := by unfold sepsilon_; norm_num
  have im : ∀ (x : ℝ) (c : Circle), x < 18 → c = ⟨⟨x + (20 - x) / ((20 - x) ^ 2 - 1), 0⟩, 1 / ((20 - x) ^ 2 - 1)⟩ →
      c.Valid ∧ disc c = (disc ⟨⟨20, 0⟩, 1⟩).image (mirror ⟨⟨x, 0⟩, 1⟩) := by
    intro x c hx hc
    have hp : 1 < (20 - x) ^ 2 - 1 := by nlinarith
    have hp0 : 0 < (20 - x) ^ 2 - 1 := by linarith
    have hv : c.Valid := by unfold Circle.Valid; rw [hc]; dsimp only; positivity
    refine ⟨hv, ?_⟩
    have e : (⟨⟨x, 0⟩, 1⟩ : Inversion).invert_circle ⟨⟨20, 0⟩, 1⟩ = .ok (.circle c) := by
      unfold Inversion.invert_circle
      dsimp only
      have eD : (20 - x) ^ 2 + ((0 : ℝ) - 0) ^ 2 - 1 * 1 = (20 - x) ^ 2 - 1 := by ring
      rw [eD, abs_of_pos hp0, if_pos (by linarith)]
      rw [abs_of_pos (by positivity), mkCircle_pos (by positivity)]
      simp only [Res.ok_bind]
      rw [hc]
      congr 3
      · ext
        · simp; ring
        · simp
      · ring
    refine ((image_disc e).1 ?_).symm
    unfold sqDist
    dsimp only
    nlinarith
  have ap : ∀ x y : ℝ, 2 ≤ |x - y| → (mirrorDisc ⟨⟨x, 0⟩, 1⟩).Apart (mirrorDisc ⟨⟨y, 0⟩, 1⟩) := by
    intro x y h
    refine (disc_apart_iff (by simp [Circle.Valid]) (by simp [Circle.Valid])).2 ?_
    simp only [Real.sqrt_one, Spec.dist, sqDist]
    rw [show (x - y) ^ 2 + ((0 : ℝ) - 0) ^ 2 = (x - y) ^ 2 by ring, Real.sqrt_sq_eq_abs]
    linarith
  have aps : ∀ x : ℝ, 2 ≤ |20 - x| → (disc ⟨⟨20, 0⟩, 1⟩).Apart (mirrorDisc ⟨⟨x, 0⟩, 1⟩) := by
    intro x h
    have := ap 20 x h
    unfold mirrorDisc at this ⊢
    rw [Real.sqrt_one] at this ⊢
    exact this
  obtain ⟨v0, d0⟩ := im 0 ⟨⟨20 / 399, 0⟩, 1 / 399⟩ (by norm_num) (by norm_num)
  obtain ⟨v1, d1⟩ := im 4 ⟨⟨4 + 16 / 255, 0⟩, 1 / 255⟩ (by norm_num) (by norm_num)
  obtain ⟨v2, d2⟩ := im (-4) ⟨⟨-4 + 24 / 575, 0⟩, 1 / 575⟩ (by norm_num) (by norm_num)
  have notS : ∀ c : Circle, c.Valid → c.radius ≠ 1 → disc c ∉ ({disc ⟨⟨20, 0⟩, 1⟩} : Set Region) := by
    intro c hc hr h
    rw [Set.mem_singleton_iff] at h
    rw [disc_injective hc sv h] at hr
    exact hr rfl
  have seed : GasketSeed [⟨⟨0, 0⟩, 1⟩, ⟨⟨4, 0⟩, 1⟩, ⟨⟨-4, 0⟩, 1⟩] {disc ⟨⟨20, 0⟩, 1⟩} := by
    refine ⟨?_, ?_, ?_, ?_⟩
    · simp
    · intro i j a b ha hb hij
      rcases i with _ | _ | _ | i <;> rcases j with _ | _ | _ | j <;> simp at ha hb hij <;> subst ha <;> subst hb <;> refine ap _ _ ?_ <;> norm_num [abs]
    · rintro s hs t ht h
      rw [Set.mem_singleton_iff] at hs ht
      exact absurd (hs.trans ht.symm) h
    · intro iota hi s hs
      rw [Set.mem_singleton_iff] at hs
      subst hs
      refine Or.inr ⟨?_, _, sv, rfl⟩
      simp at hi
      rcases hi with rfl | rfl | rfl <;> refine aps _ ?_ <;> norm_num [abs]
  have data := C97_from_seed _ _ seed (by
      intro iota hi
      simp at hi
      rcases hi with rfl | rfl | rfl <;> norm_num)
    [(⟨⟨20 / 399, 0⟩, 1 / 399⟩, 0), (⟨⟨4 + 16 / 255, 0⟩, 1 / 255⟩, 1), (⟨⟨-4 + 24 / 575, 0⟩, 1 / 575⟩, 2)]
    (by
      intro p hp
      simp only [List.mem_cons, List.not_mem_nil, or_false] at hp
      rcases hp with rfl | rfl | rfl
      · exact ⟨v0, _, rfl, _, rfl, aps _ (by norm_num [abs]), by rw [← d0]; exact notS _ v0 (by norm_num), d0⟩
      · exact ⟨v1, _, rfl, _, rfl, aps _ (by norm_num [abs]), by rw [← d1]; exact notS _ v1 (by norm_num), d1⟩
      · exact ⟨v2, _, rfl, _, rfl, aps _ (by norm_num [abs]), by rw [← d2]; exact notS _ v2 (by norm_num), d2⟩)
    (by
      intro j iota hj s hs _
      rw [Set.mem_singleton_iff] at hs
      subst hs
      rcases j with _ | _ | _ | j <;> simp at hj <;> subst hj
      · exact ⟨_, by simp, d0.symm⟩
      · exact ⟨_, by simp, d1.symm⟩
      · exact ⟨_, by simp, d2.symm⟩)
    (by simp)
  obtain ⟨L, e, hl, -, hp, -, -⟩ := C97_packing _ _ _ data d
  exact ⟨L, e, by simpa using hl, hp⟩
