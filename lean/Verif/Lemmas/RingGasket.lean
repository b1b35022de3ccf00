import Verif.Lemmas.SoddyStart

/-! A ring of tangent regions between two regions, with the mirrors that fix one of the two and two neighbours of the ring, and the mirror that swaps the
two.  The regions may be discs, outsides of circles or half-planes. -/

open Spec Real Classical Gasket

namespace GV
noncomputable section

/-- The regions of the two vectors have no common point, and the inside of one is away from the edge of the other. -/
def Opp (X Y : GV) : Prop := ∀ p, 0 ≤ xev X p + xev Y p

theorem Opp.symm {X Y : GV} (h : Opp X Y) : Opp Y X := fun p => by rw [add_comm]; exact h p

theorem Opp.apart {X Y : GV} (h : Opp X Y) : (region X).Apart (region Y) := region_apart h

theorem reflect_add (s X Y : GV) : reflect s (X + Y) = reflect s X + reflect s Y := by
  unfold reflect
  rw [pr_add]
  ext i
  simp only [Pi.sub_apply, Pi.add_apply, Pi.smul_apply, smul_eq_mul]
  ring

theorem reflect_smul (s : GV) (k : ℝ) (X : GV) : reflect s (k • X) = k • reflect s X := by
  unfold reflect
  rw [pr_smul]
  ext i
  simp only [Pi.sub_apply, Pi.smul_apply, smul_eq_mul]
  ring

theorem pr_reflect {s : GV} (hs : pr s s = 1) (X Y : GV) : pr (reflect s X) (reflect s Y) = pr X Y := by
  unfold reflect
  rw [pr_sub, pr_sub', pr_sub', pr_smul, pr_smul, pr_smul', pr_smul', hs, pr_comm s Y]
  ring

theorem reflect_reflect {s : GV} (hs : pr s s = 1) (w X : GV) : reflect s (reflect w X) = reflect (reflect s w) (reflect s X) := by
  have e : pr (reflect s X) (reflect s w) = pr X w := pr_reflect hs X w
  conv_rhs => unfold reflect
  change _ = reflect s X - (2 * pr (reflect s X) (reflect s w)) • reflect s w
  rw [e]
  conv_lhs => rw [show reflect w X = X + (-(2 * pr X w)) • w by unfold reflect; rw [neg_smul, sub_eq_add_neg]]
  rw [reflect_add, reflect_smul, neg_smul, sub_eq_add_neg]

theorem Opp.reflect {s : GV} (hs : pr s s = 1) (h0 : s 0 ≠ 0) {X Y : GV} (h : Opp X Y) : Opp (reflect s X) (reflect s Y) := by
  intro p
  have hinv := xinv_involutive (inv s).pole (inv_power_pos h0).ne'
  obtain ⟨q, rfl⟩ : ∃ q, mirror (inv s) q = p := ⟨mirror (inv s) p, hinv p⟩
  obtain ⟨t, ht, e⟩ := xev_reflect hs h0 (X + Y) q
  rw [reflect_add, xev_add, xev_add] at e
  rw [e]
  exact mul_nonneg ht.le (h q)

/-- The inside of the region is not empty. -/
def NE (X : GV) : Prop := (region X).inside.Nonempty

theorem Opp.ne {X Y : GV} (h : Opp X Y) (hX : NE X) : region X ≠ region Y := by
  intro e
  obtain ⟨p, hp⟩ := hX
  exact Set.disjoint_left.1 h.apart hp (by rw [← e]; exact hp)

/-- The ring. -/
structure Ring (n : ℕ) (O I : GV) (r m : ℕ → GV) (w : GV) : Prop where
  um : ∀ i < n, pr (m i) (m i) = 1
  uw : pr w w = 1
  mm : ∀ i j, i < n → j < n → i ≠ j → Opp (m i) (m j)
  mw : ∀ i < n, Opp (m i) w
  mr0 : ∀ i j, i < n → j < n → (j = i ∨ j = (i + 1) % n) → pr (r j) (m i) = 0
  mr : ∀ i j, i < n → j < n → j ≠ i → j ≠ (i + 1) % n → Opp (r j) (m i)
  mI : ∀ i < n, Opp I (m i)
  mO : ∀ i < n, pr O (m i) = 0
  rr : ∀ i j, i < n → j < n → i ≠ j → Opp (r i) (r j)
  rI : ∀ i < n, Opp (r i) I
  rO : ∀ i < n, Opp (r i) O
  IO : Opp I O
  wr : ∀ i < n, pr (r i) w = 0
  wI : GV.reflect w I = O
  wO : GV.reflect w O = I
  neR : ∀ i < n, NE (r i)
  neI : NE I
  neO : NE O
  next : ∀ i < n, (region (r i)).Touches (region (r ((i + 1) % n)))
  tI : ∀ i < n, (region (r i)).Touches (region I)
  tO : ∀ i < n, (region (r i)).Touches (region O)

/-- An inversion sends a ring to a ring. -/
theorem Ring.reflect {n : ℕ} {O I : GV} {r m : ℕ → GV} {w : GV} (h : Ring n O I r m w) {s : GV} (hs : pr s s = 1) (h0 : s 0 ≠ 0) :
    Ring n (GV.reflect s O) (GV.reflect s I) (fun i => GV.reflect s (r i)) (fun i => GV.reflect s (m i)) (GV.reflect s w) := by
  have hinv := xinv_involutive (inv s).pole (inv_power_pos h0).ne'
  have tt : ∀ {X Y : GV}, (region X).Touches (region Y) → (region (GV.reflect s X)).Touches (region (GV.reflect s Y)) := by
    intro X Y hXY
    rw [← image_gv hs h0, ← image_gv hs h0]
    exact Region.touches_image hinv hXY
  have ne : ∀ {X : GV}, NE X → NE (GV.reflect s X) := by
    rintro X ⟨p, hp⟩
    unfold NE
    rw [← image_gv hs h0]
    exact ⟨_, p, hp, rfl⟩
  refine ⟨fun i hi => by rw [pr_reflect hs]; exact h.um i hi, by rw [pr_reflect hs]; exact h.uw,
    fun i j hi hj hij => (h.mm i j hi hj hij).reflect hs h0, fun i hi => (h.mw i hi).reflect hs h0,
    fun i j hi hj hij => by rw [pr_reflect hs]; exact h.mr0 i j hi hj hij, fun i j hi hj h1 h2 => (h.mr i j hi hj h1 h2).reflect hs h0,
    fun i hi => (h.mI i hi).reflect hs h0, fun i hi => by rw [pr_reflect hs]; exact h.mO i hi,
    fun i j hi hj hij => (h.rr i j hi hj hij).reflect hs h0, fun i hi => (h.rI i hi).reflect hs h0, fun i hi => (h.rO i hi).reflect hs h0,
    h.IO.reflect hs h0, fun i hi => by rw [pr_reflect hs]; exact h.wr i hi, by rw [← reflect_reflect hs, h.wI], by rw [← reflect_reflect hs, h.wO],
    fun i hi => ne (h.neR i hi), ne h.neI, ne h.neO, fun i hi => tt (h.next i hi), fun i hi => tt (h.tI i hi), fun i hi => tt (h.tO i hi)⟩

/-- The ring and the region inside it, with one numbering. -/
def ringV (n : ℕ) (I : GV) (r : ℕ → GV) (j : ℕ) : GV := if j < n then r j else I

/-- The starting regions. -/
def ringS (n : ℕ) (O I : GV) (r : ℕ → GV) : Set Region := {A | A = region O ∨ ∃ j ≤ n, A = region (ringV n I r j)}

/-- The regions of the mirrors. -/
def ringW (n : ℕ) (m : ℕ → GV) (w : GV) (j : ℕ) : Region := if j < n then region (m j) else region w

/-- The vectors of the mirrors. -/
def ringM (n : ℕ) (m : ℕ → GV) (w : GV) (j : ℕ) : GV := if j < n then m j else w

/-- The mirrors. -/
def ringMirrors (n : ℕ) (m : ℕ → GV) (w : GV) : List Inversion := (List.range n).map (fun i => inv (m i)) ++ [inv w]

/-- A first generation: one circle for each mirror but the last and each region that the mirror does not fix. -/
structure FirstGen (n : ℕ) (I : GV) (r m : ℕ → GV) (C : List (Circle × ℕ)) : Prop where
  sound : ∀ p ∈ C, p.1.Valid ∧ ∃ i < n, ∃ j ≤ n, (j ≠ i ∧ j ≠ (i + 1) % n) ∧ p.2 = i ∧ disc p.1 = region (reflect (m i) (ringV n I r j))
  complete : ∀ i < n, ∀ j ≤ n, (j ≠ i ∧ j ≠ (i + 1) % n) → ∃ c, (c, i) ∈ C ∧ disc c = region (reflect (m i) (ringV n I r j))
  once : C.Pairwise fun p q => p.2 = q.2 → disc p.1 ≠ disc q.1

section
variable {n : ℕ} {O I : GV} {r m : ℕ → GV} {w : GV} {C : List (Circle × ℕ)}

theorem ringMirrors_length : (ringMirrors n m w).length = n + 1 := by unfold ringMirrors; simp

theorem ringMirrors_get {j : ℕ} (hj : j ≤ n) : (ringMirrors n m w)[j]? = some (inv (ringM n m w j)) := by
  unfold ringMirrors ringM
  rcases Nat.lt_or_ge j n with h | h
  · rw [List.getElem?_append_left (by simpa using h), List.getElem?_map, List.getElem?_range h, if_pos h]
    rfl
  · have : j = n := by omega
    subst this
    rw [List.getElem?_append_right (by simp), if_neg (by omega)]
    simp

theorem ringMirrors_some {j : ℕ} {iota : Inversion} (h : (ringMirrors n m w)[j]? = some iota) : j ≤ n ∧ iota = inv (ringM n m w j) := by
  have hj : j ≤ n := by
    have := (List.getElem?_eq_some_iff.1 h).1
    rw [ringMirrors_length] at this
    omega
  rw [ringMirrors_get hj] at h
  exact ⟨hj, (Option.some.inj h).symm⟩

theorem ringW_eq (j : ℕ) : ringW n m w j = region (ringM n m w j) := by unfold ringW ringM; split <;> rfl

theorem Ring.unit (h : Ring n O I r m w) {j : ℕ} : j ≤ n → pr (ringM n m w j) (ringM n m w j) = 1 := by
  intro hj
  unfold ringM
  split
  · next hj => exact h.um j hj
  · exact h.uw

theorem Ring.opp_mirrors (h : Ring n O I r m w) {i j : ℕ} (hi : i ≤ n) (hj : j ≤ n) (hij : i ≠ j) : Opp (ringM n m w i) (ringM n m w j) := by
  unfold ringM
  by_cases h1 : i < n
  · by_cases h2 : j < n
    · rw [if_pos h1, if_pos h2]; exact h.mm i j h1 h2 hij
    · rw [if_pos h1, if_neg h2]; exact h.mw i h1
  · by_cases h2 : j < n
    · rw [if_neg h1, if_pos h2]; exact (h.mw j h2).symm
    · omega

theorem Ring.opp_regions (h : Ring n O I r m w) {i j : ℕ} (hi : i ≤ n) (hj : j ≤ n) (hij : i ≠ j) : Opp (ringV n I r i) (ringV n I r j) := by
  unfold ringV
  by_cases h1 : i < n
  · by_cases h2 : j < n
    · rw [if_pos h1, if_pos h2]; exact h.rr i j h1 h2 hij
    · rw [if_pos h1, if_neg h2]; exact h.rI i h1
  · by_cases h2 : j < n
    · rw [if_neg h1, if_pos h2]; exact (h.rI j h2).symm
    · omega

theorem Ring.opp_outer (h : Ring n O I r m w) {j : ℕ} : Opp (ringV n I r j) O := by
  unfold ringV
  split
  · next hj => exact h.rO j hj
  · exact h.IO

theorem Ring.nonempty (h : Ring n O I r m w) (j : ℕ) : NE (ringV n I r j) := by
  unfold ringV
  split
  · next hj => exact h.neR j hj
  · exact h.neI

theorem Ring.opp_mirror (h : Ring n O I r m w) {i j : ℕ} (hi : i < n) (hij : j ≠ i ∧ j ≠ (i + 1) % n) : Opp (ringV n I r j) (m i) := by
  unfold ringV
  split
  · next hj => exact h.mr i j hi hj hij.1 hij.2
  · exact h.mI i hi

theorem Ring.fixed (h : Ring n O I r m w) {i j : ℕ} (hi : i < n) (hj : j ≤ n) (hij : ¬ (j ≠ i ∧ j ≠ (i + 1) % n)) :
    GV.reflect (m i) (ringV n I r j) = ringV n I r j := by
  have hmod : (i + 1) % n < n := Nat.mod_lt _ (by omega)
  have hjn : j < n := by
    rcases Nat.lt_or_ge j n with h | h
    · exact h
    · exact absurd ⟨by omega, by omega⟩ hij
  unfold ringV
  rw [if_pos hjn, reflect_fix]
  apply h.mr0 i j hi hjn
  tauto

/-- Inverting a region away from a mirror. -/
theorem Opp.into {X M : GV} (h : Opp X M) (hM : pr M M = 1) (h0 : M 0 ≠ 0) : (region (GV.reflect M X)).inside ⊆ (region M).inside := by
  rw [← image_gv hM h0]
  refine image_into hM h0 ?_
  intro p hp
  change xev X p < 0 at hp
  have := h p
  linarith

/-- The ring, its mirrors and the first generation are a gasket. -/
theorem Ring.frame (h : Ring n O I r m w) (hm : ∀ i < n, m i 0 ≠ 0) (hw : w 0 ≠ 0) (hC : FirstGen n I r m C)
    (far : ∀ i k : ℕ, i ≤ n → k ≤ n → k ≠ i → ∀ c : Circle, c.Valid → (disc c).inside ⊆ (ringW n m w k).inside → (disc c).Apart (region O) →
      1 / 2 ^ 26 < sqDist c.center (inv (ringM n m w i)).pole - c.radius ^ 2) :
    GasketFrame (ringMirrors n m w) (ringW n m w) (ringS n O I r) C := by
  have h0 : ∀ i, i ≤ n → ringM n m w i 0 ≠ 0 := by
    intro i hi
    unfold ringM
    split
    · next hj => exact hm i hj
    · exact hw
  have hu : ∀ i, i ≤ n → pr (ringM n m w i) (ringM n m w i) = 1 := fun i hi => h.unit hi
  have hiv : ∀ i < n, Function.Involutive (mirror (inv (m i))) := fun i hi => xinv_involutive _ (inv_power_pos (hm i hi)).ne'
  have eM : ∀ i < n, ringM n m w i = m i := fun i hi => by unfold ringM; rw [if_pos hi]
  have eW : ∀ i < n, ringW n m w i = region (m i) := fun i hi => by unfold ringW; rw [if_pos hi]
  have sub : ∀ p ∈ C, (disc p.1).inside ⊆ (ringW n m w p.2).inside := by
    intro p hp
    obtain ⟨-, i, hi, j, hj, hij, e, hd⟩ := hC.sound p hp
    rw [e, hd, eW i hi]
    exact (h.opp_mirror hi hij).into (h.um i hi) (hm i hi)
  refine ⟨?_, ?_, ?_, ?_, ?_, ?_, ?_⟩
  · intro iota hio
    obtain ⟨j, hj⟩ := List.mem_iff_getElem?.1 hio
    obtain ⟨hjn, rfl⟩ := ringMirrors_some hj
    exact (inv_power_pos (h0 j hjn)).ne'
  · intro i j hi hj hij
    rw [ringMirrors_length] at hi hj
    rw [ringW_eq, ringW_eq]
    exact (h.opp_mirrors (by omega) (by omega) hij).apart
  · intro p hp
    obtain ⟨hv, i, hi, j, hj, hij, e, hd⟩ := hC.sound p hp
    refine ⟨hv, inv (m i), ?_, sub p hp, _, Or.inr ⟨j, hj, rfl⟩, ?_⟩
    · rw [e, ringMirrors_get hi.le, eM i hi]
    · rw [hd, image_gv (h.um i hi) (hm i hi)]
  · intro i iota hi s hs
    obtain ⟨hin, rfl⟩ := ringMirrors_some hi
    rcases Nat.lt_or_ge i n with hlt | hge
    · rw [eM i hlt]
      rcases hs with rfl | ⟨j, hj, rfl⟩
      · left
        rw [image_gv (h.um i hlt) (hm i hlt), reflect_fix (h.mO i hlt)]
        exact Or.inl rfl
      · rw [image_gv (h.um i hlt) (hm i hlt)]
        by_cases hij : j ≠ i ∧ j ≠ (i + 1) % n
        · obtain ⟨c, hc, hd⟩ := hC.complete i hlt j hj hij
          exact Or.inr ⟨c, hc, hd.symm⟩
        · left
          rw [h.fixed hlt hj hij]
          exact Or.inr ⟨j, hj, rfl⟩
    · have : i = n := by omega
      subst this
      have e : ringM i m w i = w := by unfold ringM; rw [if_neg (by omega)]
      have eI : ringV i I r i = I := by unfold ringV; rw [if_neg (by omega)]
      rw [e]
      left
      rcases hs with rfl | ⟨j, hj, rfl⟩
      · rw [image_gv h.uw hw, h.wO]
        exact Or.inr ⟨i, le_rfl, by rw [eI]⟩
      · rw [image_gv h.uw hw]
        rcases Nat.lt_or_ge j i with hji | hji
        · rw [reflect_fix (by unfold ringV; rw [if_pos hji]; exact h.wr j hji)]
          exact Or.inr ⟨j, hj, rfl⟩
        · have : j = i := by omega
          subst this
          rw [eI, h.wI]
          exact Or.inl rfl
  · refine hC.once.imp_of_mem ?_
    intro p q hp hq hpq
    obtain ⟨-, i, hi, j, hj, hij, e, hd⟩ := hC.sound p hp
    obtain ⟨-, i', hi', j', hj', hij', e', hd'⟩ := hC.sound q hq
    by_cases hii : i = i'
    · subst hii
      have hjj : j ≠ j' := by
        rintro rfl
        exact hpq (by rw [e, e']) (by rw [hd, hd'])
      rw [hd, hd']
      exact ((h.opp_regions hj hj' hjj).reflect (h.um i hi) (hm i hi)).apart
    · have := Set.disjoint_of_subset (sub p hp) (sub q hq) (?_ : (ringW n m w p.2).Apart (ringW n m w q.2))
      · exact this
      · rw [e, e', eW i hi, eW i' hi']
        exact (h.mm i i' hi hi' hii).apart
  · intro p hp s hs
    obtain ⟨-, i, hi, j, hj, hij, e, hd⟩ := hC.sound p hp
    rcases hs with rfl | ⟨k, hk, rfl⟩
    · rw [hd, ← reflect_fix (h.mO i hi)]
      exact ((h.opp_outer (j := j)).reflect (h.um i hi) (hm i hi)).apart
    · by_cases hik : k ≠ i ∧ k ≠ (i + 1) % n
      · refine Set.disjoint_of_subset_left (sub p hp) ?_
        rw [e, eW i hi]
        exact (h.opp_mirror hi hik).symm.apart
      · rw [hd, ← h.fixed hi hk hik]
        have hjk : j ≠ k := by rintro rfl; exact hik hij
        exact ((h.opp_regions hj hk hjk).reflect (h.um i hi) (hm i hi)).apart
  · intro i k iota hi hk hki c hc hsub hs
    obtain ⟨hin, rfl⟩ := ringMirrors_some hi
    rw [ringMirrors_length] at hk
    have hfar := far i k hin (by omega) hki c hc hsub (hs _ (Or.inl rfl))
    have hp26 : (0 : ℝ) < 1 / 2 ^ 26 := by norm_num
    obtain ⟨c', e, hv, -⟩ := C25_invert_circle (inv (ringM n m w i)) (inv_power_pos (h0 i hin)).ne' c hc
      (by rw [abs_of_pos (by linarith)]; exact hfar)
    have hd := (image_disc e).1 (by linarith)
    refine ⟨c', e, hv, hd.symm, ?_⟩
    rw [ringW_eq, ← hd]
    refine image_into (hu i hin) (h0 i hin) ?_
    intro p hp
    have h1 := hsub hp
    rw [ringW_eq] at h1
    change xev (ringM n m w k) p < 0 at h1
    have := h.opp_mirrors (i := k) (j := i) (by omega) hin hki p
    linarith

/-- Every region of the ring and the one inside touch three others. -/
theorem Ring.touches (h : Ring n O I r m w) (hn : 3 ≤ n) {j : ℕ} (hj : j ≤ n) : ∃ q : Fin 3 → Region, Function.Injective q ∧
    ∀ i, q i ∈ ringS n O I r ∧ (region (ringV n I r j)).Touches (q i) := by
  have inj3 : ∀ A B C : Region, A ≠ B → A ≠ C → B ≠ C → Function.Injective ![A, B, C] := by
    intro A B C h1 h2 h3 a b hab
    fin_cases a <;> fin_cases b <;> simp_all
  have dne : ∀ a b, a ≤ n → b ≤ n → a ≠ b → region (ringV n I r a) ≠ region (ringV n I r b) :=
    fun a b ha hb hab => (h.opp_regions ha hb hab).ne (h.nonempty a)
  have one : ∀ a, region O ≠ region (ringV n I r a) := fun a => (h.opp_outer (j := a)).symm.ne h.neO
  have mem : ∀ a ≤ n, region (ringV n I r a) ∈ ringS n O I r := fun a ha => Or.inr ⟨a, ha, rfl⟩
  have cr : ∀ a < n, ringV n I r a = r a := fun a ha => by unfold ringV; rw [if_pos ha]
  have cn : ringV n I r n = I := by unfold ringV; rw [if_neg (by omega)]
  by_cases hjn : j < n
  · have hmod : (j + 1) % n < n := Nat.mod_lt _ (by omega)
    have hne : j ≠ (j + 1) % n := by
      rcases Nat.lt_or_ge (j + 1) n with h | h
      · rw [Nat.mod_eq_of_lt h]; omega
      · have : j + 1 = n := by omega
        rw [this, Nat.mod_self]; omega
    refine ⟨![region O, region (ringV n I r n), region (ringV n I r ((j + 1) % n))],
      inj3 _ _ _ (one _) (one _) (dne _ _ le_rfl hmod.le (by omega)), ?_⟩
    rw [cr j hjn]
    intro i
    fin_cases i
    · exact ⟨Or.inl rfl, h.tO j hjn⟩
    · exact ⟨mem n le_rfl, by simpa [cn] using h.tI j hjn⟩
    · exact ⟨mem _ hmod.le, by simpa [cr _ hmod] using h.next j hjn⟩
  · have : j = n := by omega
    subst this
    refine ⟨![region (ringV j I r 0), region (ringV j I r 1), region (ringV j I r 2)],
      inj3 _ _ _ (dne _ _ (by omega) (by omega) (by omega)) (dne _ _ (by omega) (by omega) (by omega)) (dne _ _ (by omega) (by omega) (by omega)), ?_⟩
    rw [cn]
    intro i
    fin_cases i
    · exact ⟨mem _ (by omega), by simpa [cr 0 (by omega)] using Region.Touches.symm (h.tI 0 (by omega))⟩
    · exact ⟨mem _ (by omega), by simpa [cr 1 (by omega)] using Region.Touches.symm (h.tI 1 (by omega))⟩
    · exact ⟨mem _ (by omega), by simpa [cr 2 (by omega)] using Region.Touches.symm (h.tI 2 (by omega))⟩

/-- Every circle of the first generation touches three regions. -/
theorem Ring.touches_first (h : Ring n O I r m w) (hn : 3 ≤ n) (hm : ∀ i < n, m i 0 ≠ 0) (hC : FirstGen n I r m C)
    (hf : GasketFrame (ringMirrors n m w) (ringW n m w) (ringS n O I r) C) :
    ∀ p ∈ C, ∃ q : Fin 3 → Region, Function.Injective q ∧
      ∀ i, q i ∈ GasketRegions (ringMirrors n m w) (ringS n O I r) C 0 ∧ (disc p.1).Touches (q i) := by
  intro p hp
  obtain ⟨-, i, hi, j, hj, hij, e, hd⟩ := hC.sound p hp
  obtain ⟨q, hq1, hq2⟩ := h.touches hn hj
  have hinv := xinv_involutive (inv (m i)).pole (k := (inv (m i)).power) (inv_power_pos (hm i hi)).ne'
  refine ⟨fun a => (q a).image (mirror (inv (m i))), ?_, ?_⟩
  · intro a b hab
    apply hq1
    have := congrArg (Region.image (mirror (inv (m i)))) hab
    simpa only [Region.image_image hinv] using this
  · intro a
    have eM : ringM n m w i = m i := by unfold ringM; rw [if_pos hi]
    refine ⟨?_, ?_⟩
    · rcases hf.closed i (inv (m i)) (by rw [ringMirrors_get hi.le, eM]) _ (hq2 a).1 with h' | ⟨c, hc, hci⟩
      · exact Or.inl h'
      · exact Or.inr ⟨0, le_rfl, _, rfl, _, hc, hci⟩
    · dsimp only
      rw [hd, ← image_gv (h.um i hi) (hm i hi)]
      exact Region.touches_image hinv (hq2 a).2

end

/-! ### From circles -/

/-- The vector of the mirror that swaps two regions. -/
def swapV (O I : GV) : GV := (1 / √(2 - 2 * pr I O)) • (I - O)

theorem swapV_spec {O I : GV} (hO : pr O O = 1) (hI : pr I I = 1) (h : pr I O < 1) :
    pr (swapV O I) (swapV O I) = 1 ∧ reflect (swapV O I) I = O ∧ reflect (swapV O I) O = I := by
  obtain ⟨ν, hν⟩ : ∃ ν, ν = √(2 - 2 * pr I O) := ⟨_, rfl⟩
  have h2 : 0 < 2 - 2 * pr I O := by linarith
  have hν0 : 0 < ν := by rw [hν]; exact Real.sqrt_pos.2 h2
  have hν2 : ν ^ 2 = 2 - 2 * pr I O := by rw [hν]; exact Real.sq_sqrt h2.le
  have e1 : pr (I - O) (I - O) = ν ^ 2 := by rw [pr_sub, pr_sub', pr_sub', hO, hI, pr_comm O I, hν2]; ring
  have e2 : pr I (I - O) = ν ^ 2 / 2 := by rw [pr_sub', hI, hν2]; ring
  have e3 : pr O (I - O) = -(ν ^ 2 / 2) := by rw [pr_sub', hO, pr_comm O I, hν2]; ring
  unfold swapV
  rw [← hν]
  refine ⟨?_, ?_, ?_⟩
  · rw [pr_smul, pr_smul', e1]; field_simp
  · unfold reflect
    rw [pr_smul', e2, smul_smul]
    have : 2 * (1 / ν * (ν ^ 2 / 2)) * (1 / ν) = 1 := by field_simp
    rw [this, one_smul, sub_sub_cancel]
  · unfold reflect
    rw [pr_smul', e3, smul_smul]
    have : 2 * (1 / ν * (-(ν ^ 2 / 2))) * (1 / ν) = -1 := by field_simp
    rw [this, neg_one_smul, sub_neg_eq_add, add_sub_cancel]

theorem reflect_swapV {s : GV} (hs : pr s s = 1) (O I : GV) : reflect s (swapV O I) = swapV (reflect s O) (reflect s I) := by
  unfold swapV
  rw [pr_reflect hs, reflect_smul]
  congr 1
  rw [show I - O = I + (-1 : ℝ) • O by rw [neg_one_smul, sub_eq_add_neg], reflect_add, reflect_smul, neg_one_smul, sub_eq_add_neg]

end
end GV
