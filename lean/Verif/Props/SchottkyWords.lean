import Verif.Model.Schottky
import Verif.Spec.Schottky
import Verif.Props.UniqueWith
import Verif.Props.Steiner

/-!
# C105, first part: the words of examples/Schottky.py
-/

open Spec Classical Schottky

namespace Schottky

/-- The letters a run stands for. -/
def expand (p : Gen × ℤ) : List Letter := if p.2 < 0 then List.replicate (-p.2).toNat (p.1, false) else List.replicate p.2.toNat (p.1, true)

theorem expand_length (p : Gen × ℤ) : (expand p).length = p.2.natAbs := by
  unfold expand; split_ifs <;> rw [List.length_replicate] <;> omega

theorem reduced_iff (w : List Letter) : Reduced w ↔ FreeGroup.IsReduced w := by
  unfold Reduced FreeGroup.IsReduced
  have : (fun x y : Letter => y ≠ invLetter x) = fun a b => a.1 = b.1 → a.2 = b.2 := by
    funext x y
    obtain ⟨x, s⟩ := x
    obtain ⟨y, r⟩ := y
    simp only [invLetter, Ne, Prod.mk.injEq, not_and, eq_iff_iff]
    constructor
    · rintro h rfl
      have := h rfl
      cases r <;> cases s <;> simp_all
    · rintro h rfl
      have := h rfl
      cases r <;> cases s <;> simp_all
  rw [this]

theorem runs_spec (w : List Letter) (h : Reduced w) : (runs w).flatMap expand = w ∧ ∀ p ∈ runs w, p.2 ≠ 0 := by
  induction w with
  | nil => simp [runs]
  | cons x l ih =>
    obtain ⟨x, s⟩ := x
    have hl : Reduced l := List.IsChain.tail h
    obtain ⟨h1, h2⟩ := ih hl
    rw [runs]
    cases hr : runs l with
    | nil =>
      rw [hr] at h1
      simp only [List.flatMap_nil] at h1
      subst h1
      cases s <;> simp [expand]
    | cons p t =>
      obtain ⟨y, k⟩ := p
      rw [hr] at h1 h2
      have hk : k ≠ 0 := h2 (y, k) (by simp)
      dsimp only
      by_cases hxy : y = x
      · rw [if_pos hxy]
        subst hxy
        have hs : (0 < k ↔ s = true) := by
          have hh : Reduced ((y, s) :: l) := h
          rw [← h1] at hh
          rcases lt_or_gt_of_ne hk with hk' | hk'
          · obtain ⟨m, hm⟩ : ∃ m, (-k).toNat = m + 1 := ⟨(-k).toNat - 1, by omega⟩
            rw [List.flatMap_cons, expand] at hh
            dsimp only at hh
            rw [if_pos hk', hm, List.replicate_succ, List.cons_append] at hh
            have := (List.isChain_cons_cons.1 hh).1
            simp only [invLetter, Ne, Prod.mk.injEq, true_and] at this
            cases s <;> simp_all <;> omega
          · obtain ⟨m, hm⟩ : ∃ m, k.toNat = m + 1 := ⟨k.toNat - 1, by omega⟩
            rw [List.flatMap_cons, expand] at hh
            dsimp only at hh
            rw [if_neg (by omega), hm, List.replicate_succ, List.cons_append] at hh
            have := (List.isChain_cons_cons.1 hh).1
            simp only [invLetter, Ne, Prod.mk.injEq, true_and] at this
            cases s <;> simp_all
        have key : expand (y, (if s = true then 1 else -1) + k) = (y, s) :: expand (y, k) := by
          unfold expand
          cases s with
          | true =>
            have hk' := hs.2 rfl
            dsimp only
            rw [if_pos rfl, if_neg (by omega), if_neg (by omega), show (1 + k).toNat = k.toNat + 1 by omega, List.replicate_succ]
          | false =>
            have hk' : ¬ 0 < k := fun hc => by simpa using hs.1 hc
            dsimp only
            rw [show (if false = true then (1 : ℤ) else -1) = -1 from rfl, if_pos (by omega), if_pos (by omega), show (-(-1 + k)).toNat = (-k).toNat + 1 by omega, List.replicate_succ]
        refine ⟨?_, ?_⟩
        · rw [List.flatMap_cons, key, List.cons_append, ← List.flatMap_cons, h1]
        · intro p hp
          rcases List.mem_cons.1 hp with rfl | hp
          · cases s with
            | true => have := hs.2 rfl; simp; omega
            | false =>
              have hk' : ¬ 0 < k := fun hc => by simpa using hs.1 hc
              simp; omega
          · exact h2 p (by simp [hp])
      · rw [if_neg hxy]
        refine ⟨?_, ?_⟩
        · rw [List.flatMap_cons, h1]
          cases s <;> simp [expand]
        · intro p hp
          rcases List.mem_cons.1 hp with rfl | hp
          · cases s <;> simp
          · exact h2 p hp

theorem reduced_toWord (g : FreeGroup Gen) : Reduced g.toWord := (reduced_iff _).2 FreeGroup.isReduced_toWord

theorem transfo2seq_eq (g : FreeGroup Gen) : transfo2seq g = g.toWord := (runs_spec _ (reduced_toWord g)).1

theorem total_eq (g : FreeGroup Gen) : total g = g.toWord.length := by
  have h := (runs_spec _ (reduced_toWord g)).1
  conv_rhs => rw [← h]
  unfold total array_form
  rw [List.length_flatMap]
  congr 1
  exact List.map_congr_left fun p _ => (expand_length p).symm

theorem multiply_eq {l : List (FreeGroup Gen)} (h : l ≠ []) : multiply l = .ok l.prod := by
  cases l with
  | nil => exact absurd rfl h
  | cons x l =>
    rw [multiply]
    congr 1
    have : ∀ y : FreeGroup Gen, l.foldl (fun u v => u * v) y = y * l.prod := by
      induction l with
      | nil => simp
      | cons z l ih => intro y; rw [List.foldl_cons, ih (by simp), List.prod_cons, mul_assoc]
    rw [this, List.prod_cons]

theorem mem_points {n : ℕ} {l : List (FreeGroup Gen)} : l ∈ points n ↔ l.length = n ∧ ∀ x ∈ l, x ∈ elems := by
  induction n generalizing l with
  | zero => simp [points, List.length_eq_zero_iff]; rintro rfl; simp
  | succ n ih =>
    rw [points, List.mem_flatMap]
    constructor
    · rintro ⟨x, hx, h⟩
      obtain ⟨t, ht, rfl⟩ := List.mem_map.1 h
      obtain ⟨h1, h2⟩ := ih.1 ht
      refine ⟨by simp [h1], ?_⟩
      intro y hy
      rcases List.mem_cons.1 hy with rfl | hy
      · exact hx
      · exact h2 y hy
    · rintro ⟨h1, h2⟩
      cases l with
      | nil => simp at h1
      | cons x t =>
        exact ⟨x, h2 x (by simp), List.mem_map.2 ⟨t, ih.2 ⟨by simpa using h1, fun y hy => h2 y (by simp [hy])⟩, rfl⟩⟩

/-- The element of a letter. -/
def ofLetter (x : Letter) : FreeGroup Gen := FreeGroup.mk [x]

theorem ofLetter_mem (x : Letter) : ofLetter x ∈ elems := by
  obtain ⟨x, s⟩ := x
  cases x <;> cases s <;> simp [elems, ofLetter, FreeGroup.of, FreeGroup.inv_mk, FreeGroup.invRev]

theorem prod_ofLetter (w : List Letter) : (w.map ofLetter).prod = FreeGroup.mk w := by
  induction w with
  | nil => rfl
  | cons x w ih => rw [List.map_cons, List.prod_cons, ih, ofLetter, FreeGroup.mul_mk]; rfl

theorem prod_norm_le (l : List (FreeGroup Gen)) (h : ∀ x ∈ l, x ∈ elems) : ∃ w : List Letter, w.length = l.length ∧ l = w.map ofLetter := by
  induction l with
  | nil => exact ⟨[], rfl, rfl⟩
  | cons x l ih =>
    obtain ⟨w, h1, h2⟩ := ih fun y hy => h y (by simp [hy])
    obtain ⟨y, hy⟩ : ∃ y, x = ofLetter y := by
      have := h x (by simp)
      simp only [elems, List.mem_cons, List.not_mem_nil, or_false] at this
      rcases this with rfl | rfl | rfl | rfl
      · exact ⟨(.a, true), rfl⟩
      · exact ⟨(.a, false), rfl⟩
      · exact ⟨(.b, true), rfl⟩
      · exact ⟨(.b, false), rfl⟩
    exact ⟨y :: w, by simp [h1], by rw [h2, hy]; rfl⟩

/-- The list of the script. -/
theorem Gn_spec {n : ℕ} (hn : 1 ≤ n) : ∃ gs, Gn n = .ok gs ∧ gs.Nodup ∧ ∀ g, g ∈ gs ↔ g.toWord.length = n := by
  have hm : (points n).mapM multiply = .ok ((points n).map List.prod) := by
    refine mapM_ok _ _ _ ?_
    intro l hl
    refine multiply_eq ?_
    rintro rfl
    have := (mem_points.1 hl).1
    simp at this
    omega
  obtain ⟨h1, h2, -⟩ := C96_classes ((points n).map List.prod) (fun u v => decide (u = v)) (by simp) (by simp) (by simp)
  have h3 := (C96_selection ((points n).map List.prod) (fun u v => decide (u = v))).1
  refine ⟨(firsts (fun u v => decide (u = v)) ((points n).map List.prod)).filter fun g => decide (total g = n), ?_, ?_, ?_⟩
  · unfold Gn
    rw [hm, Res.ok_bind, C96_unique_with]
    rfl
  · exact h2.filter _
  · intro g
    rw [List.mem_filter, decide_eq_true_eq, total_eq]
    constructor
    · exact fun h => h.2
    · intro h
      refine ⟨?_, h⟩
      have hg : g ∈ (points n).map List.prod := by
        refine List.mem_map.2 ⟨g.toWord.map ofLetter, mem_points.2 ⟨by simpa using h, ?_⟩, ?_⟩
        · intro x hx
          obtain ⟨y, -, rfl⟩ := List.mem_map.1 hx
          exact ofLetter_mem y
        · rw [prod_ofLetter, FreeGroup.mk_toWord]
      obtain ⟨x, ⟨hx, e⟩, -⟩ := h1 g hg
      rw [decide_eq_true_eq] at e
      rwa [← e]

/-- The four letters. -/
def letters : List Letter := [(.a, true), (.a, false), (.b, true), (.b, false)]

theorem mem_letters (x : Letter) : x ∈ letters := by
  obtain ⟨x, s⟩ := x
  cases x <;> cases s <;> simp [letters]

/-- The reduced words of `n + 1` letters with given first letter. -/
def wordsFrom : ℕ → Letter → List (List Letter)
  | 0, x => [[x]]
  | n + 1, x => (letters.filter fun y => decide (y ≠ invLetter x)).flatMap fun y => (wordsFrom n y).map fun t => x :: t

theorem mem_wordsFrom {n : ℕ} {x : Letter} {t : List Letter} : t ∈ wordsFrom n x ↔ Reduced t ∧ t.length = n + 1 ∧ t.head? = some x := by
  induction n generalizing x t with
  | zero =>
    rw [wordsFrom, List.mem_singleton]
    constructor
    · rintro rfl; exact ⟨List.isChain_singleton _, rfl, rfl⟩
    · rintro ⟨-, h1, h2⟩
      obtain ⟨y, rfl⟩ := List.length_eq_one_iff.1 h1
      simpa using h2
  | succ n ih =>
    rw [wordsFrom, List.mem_flatMap]
    constructor
    · rintro ⟨y, hy, h⟩
      obtain ⟨u, hu, rfl⟩ := List.mem_map.1 h
      obtain ⟨h1, h2, h3⟩ := ih.1 hu
      obtain ⟨v, rfl⟩ : ∃ v, u = y :: v := by
        cases u with
        | nil => simp at h2
        | cons z v => simp only [List.head?_cons, Option.some.injEq] at h3; exact ⟨v, by rw [h3]⟩
      have hy' : y ≠ invLetter x := by simpa using (List.mem_filter.1 hy).2
      exact ⟨List.isChain_cons_cons.2 ⟨hy', h1⟩, by simpa using h2, rfl⟩
    · rintro ⟨h1, h2, h3⟩
      cases t with
      | nil => simp at h2
      | cons z u =>
        simp only [List.head?_cons, Option.some.injEq] at h3
        subst h3
        cases u with
        | nil => simp at h2
        | cons y v =>
          obtain ⟨a1, a2⟩ := List.isChain_cons_cons.1 h1
          exact ⟨y, List.mem_filter.2 ⟨mem_letters y, by simpa using a1⟩, List.mem_map.2 ⟨y :: v, ih.2 ⟨a2, by simpa using h2, rfl⟩, rfl⟩⟩

theorem wordsFrom_length (n : ℕ) (x : Letter) : (wordsFrom n x).length = 3 ^ n := by
  induction n generalizing x with
  | zero => rfl
  | succ n ih =>
    rw [wordsFrom, List.length_flatMap]
    simp only [List.length_map, ih]
    rw [List.map_const', List.sum_replicate, smul_eq_mul, pow_succ, mul_comm]
    congr 1
    obtain ⟨x, s⟩ := x
    cases x <;> cases s <;> rfl

theorem wordsFrom_nodup (n : ℕ) (x : Letter) : (wordsFrom n x).Nodup := by
  induction n generalizing x with
  | zero => simp [wordsFrom]
  | succ n ih =>
    rw [wordsFrom, List.nodup_flatMap]
    refine ⟨?_, ?_⟩
    · intro y _
      exact (ih y).map fun u v h => by simpa using h
    · have hn : (letters.filter fun y => decide (y ≠ invLetter x)).Nodup := List.Nodup.filter _ (by decide)
      refine hn.imp ?_
      intro y z hyz
      rw [Function.onFun, List.disjoint_left]
      intro t h1 h2
      obtain ⟨u, hu, rfl⟩ := List.mem_map.1 h1
      obtain ⟨v, hv, e⟩ := List.mem_map.1 h2
      have e' : v = u := by simpa using e
      subst e'
      have := (mem_wordsFrom.1 hu).2.2.symm.trans (mem_wordsFrom.1 hv).2.2
      exact hyz (by simpa using this)

/-- The number of reduced words. -/
theorem count_words {n : ℕ} (hn : 1 ≤ n) {gs : List (FreeGroup Gen)} (h1 : gs.Nodup) (h2 : ∀ g, g ∈ gs ↔ g.toWord.length = n) :
    gs.length = 4 * 3 ^ (n - 1) := by
  have hperm : (gs.map FreeGroup.toWord).Perm (letters.flatMap (wordsFrom (n - 1))) := by
    refine (List.perm_ext_iff_of_nodup (h1.map FreeGroup.toWord_injective) ?_).2 ?_
    · rw [List.nodup_flatMap]
      refine ⟨fun y _ => wordsFrom_nodup _ y, ?_⟩
      have hn : letters.Nodup := by decide
      refine hn.imp ?_
      intro y z hyz
      rw [Function.onFun, List.disjoint_left]
      intro t h1 h2
      have := (mem_wordsFrom.1 h1).2.2.symm.trans (mem_wordsFrom.1 h2).2.2
      exact hyz (by simpa using this)
    · intro t
      rw [List.mem_map, List.mem_flatMap]
      constructor
      · rintro ⟨g, hg, rfl⟩
        have hl := (h2 g).1 hg
        obtain ⟨x, u, e⟩ : ∃ x u, g.toWord = x :: u := by
          cases hh : g.toWord with
          | nil => rw [hh] at hl; simp at hl; omega
          | cons x u => exact ⟨x, u, rfl⟩
        exact ⟨x, mem_letters x, mem_wordsFrom.2 ⟨reduced_toWord g, by omega, by rw [e]; rfl⟩⟩
      · rintro ⟨x, -, h⟩
        obtain ⟨a1, a2, -⟩ := mem_wordsFrom.1 h
        have e : (FreeGroup.mk t).toWord = t := by rw [FreeGroup.toWord_mk]; exact ((reduced_iff t).1 a1).reduce_eq
        exact ⟨FreeGroup.mk t, (h2 _).2 (by rw [e]; omega), e⟩
  have := hperm.length_eq
  rw [List.length_map, List.length_flatMap] at this
  rw [this]
  simp only [wordsFrom_length]
  rw [List.map_const', List.sum_replicate, smul_eq_mul]
  rfl

end Schottky

/-- **C105.** For every `n ≥ 1` the list `Gn` holds every element of the free group whose reduced word has `n` letters, once each; there are
`4 * 3 ^ (n - 1)` of them, and `transfo2seq` gives the letters of the reduced word. -/
theorem C105_words {n : ℕ} (hn : 1 ≤ n) :
    ∃ gs, Gn n = .ok gs ∧ gs.Nodup ∧ gs.length = 4 * 3 ^ (n - 1) ∧ (∀ g, g ∈ gs ↔ (transfo2seq g).length = n) ∧
      (∀ t : List Letter, Reduced t → t.length = n → ∃! g, g ∈ gs ∧ transfo2seq g = t) ∧ ∀ g ∈ gs, Reduced (transfo2seq g) := by
  obtain ⟨gs, h1, h2, h3⟩ := Gn_spec hn
  refine ⟨gs, h1, h2, count_words hn h2 h3, fun g => by rw [transfo2seq_eq]; exact h3 g, ?_, fun g _ => by rw [transfo2seq_eq]; exact reduced_toWord g⟩
  intro t ht hl
  have e : (FreeGroup.mk t).toWord = t := by rw [FreeGroup.toWord_mk]; exact ((reduced_iff t).1 ht).reduce_eq
  refine ⟨FreeGroup.mk t, ⟨(h3 _).2 (by rw [e]; exact hl), by rw [transfo2seq_eq]; exact e⟩, ?_⟩
  rintro g ⟨-, hg⟩
  rw [transfo2seq_eq] at hg
  exact FreeGroup.toWord_injective (hg.trans e.symm)

/-- The script, `n = 6`: 972 elements. -/
example : ∃ gs, Gn 6 = .ok gs ∧ gs.length = 972 := by
  obtain ⟨gs, h1, -, h2, -⟩ := C105_words (n := 6) (by norm_num)
  exact ⟨gs, h1, h2⟩
