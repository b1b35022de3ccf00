import Verif.Spec.Schottky
import Mathlib.Algebra.Group.End
import Mathlib.Algebra.BigOperators.Group.List.Basic

/-!
# Words acting on discs

General facts about bijections which play ping-pong on sets `K x` (closed discs) with parts `C x` (their circles).
-/

namespace Spec

variable {α X : Type*}

theorem invLetter_invLetter (x : α × Bool) : invLetter (invLetter x) = x := by
  unfold invLetter; simp

theorem invLetter_ne (x : α × Bool) : invLetter x ≠ x := by
  obtain ⟨x, s⟩ := x
  cases s <;> simp [invLetter]

theorem genSet_cons {e : α × Bool → X → X} {C : α × Bool → Set X} (x : α × Bool) {t : List (α × Bool)} (ht : t ≠ []) :
    genSet e C (x :: t) = e x '' genSet e C t := by
  cases t with
  | nil => exact absurd rfl ht
  | cons y t => rfl

theorem genSet_append (e : α × Bool → Equiv.Perm X) (C : α × Bool → Set X) (u : List (α × Bool)) (x : α × Bool) :
    genSet (fun y => e y) C (u ++ [x]) = (u.map e).prod '' C x := by
  induction u with
  | nil => simp [genSet]
  | cons y u ih =>
    rw [List.cons_append, genSet_cons _ (by simp), ih, List.map_cons, List.prod_cons, Equiv.Perm.coe_mul, Set.image_comp]

/-- The bijections move the discs into one another. -/
structure PingPong (e : α × Bool → Equiv.Perm X) (C K : α × Bool → Set X) : Prop where
  swap : ∀ x, e x '' C (invLetter x) = C x
  into : ∀ x y, y ≠ invLetter x → ∀ P ∈ K y, e x P ∈ K x
  sub : ∀ x, C x ⊆ K x
  touch : ∀ x y, x ≠ y → (K x ∩ K y).Subsingleton
  apart : ∀ x y, x ≠ y → ∀ P ∈ K x, P ∉ C x → P ∉ K y
  nontriv : ∀ x, (C x).Nontrivial

namespace PingPong

variable {e : α × Bool → Equiv.Perm X} {C K : α × Bool → Set X}

theorem gen_sub_of (h : PingPong e C K) {C' : α × Bool → Set X} (hC : ∀ x, C' x ⊆ K x) {x : α × Bool} {t : List (α × Bool)} (ht : Reduced (x :: t)) :
    genSet (fun y => e y) C' (x :: t) ⊆ K x := by
  induction t generalizing x with
  | nil => exact hC x
  | cons y t ih =>
    rw [genSet_cons _ (by simp)]
    rintro _ ⟨P, hP, rfl⟩
    obtain ⟨h1, h2⟩ := List.isChain_cons_cons.1 ht
    exact h.into x y h1 P (ih h2 hP)

theorem gen_sub (h : PingPong e C K) {x : α × Bool} {t : List (α × Bool)} (ht : Reduced (x :: t)) : genSet (fun y => e y) C (x :: t) ⊆ K x :=
  h.gen_sub_of h.sub ht

theorem gen_nontriv (h : PingPong e C K) {t : List (α × Bool)} (ht : t ≠ []) : (genSet (fun y => e y) C t).Nontrivial := by
  induction t with
  | nil => exact absurd rfl ht
  | cons x t ih =>
    by_cases h0 : t = []
    · subst h0; exact h.nontriv x
    · rw [genSet_cons _ h0]
      exact (ih h0).image (e x).injective

/-- Different reduced words have different circles. -/
theorem gen_injective (h : PingPong e C K) {t t' : List (α × Bool)} (ht : Reduced t) (ht' : Reduced t') (h0 : t ≠ []) (h0' : t' ≠ [])
    (he : genSet (fun y => e y) C t = genSet (fun y => e y) C t') : t = t' := by
  have two : ∀ {A : Set X} {x y : α × Bool}, A.Nontrivial → A ⊆ K x → A ⊆ K y → x = y := by
    intro A x y hA h1 h2
    by_contra hne
    obtain ⟨P, hP, Q, hQ, hPQ⟩ := hA
    exact hPQ (h.touch x y hne ⟨h1 hP, h2 hP⟩ ⟨h1 hQ, h2 hQ⟩)
  -- a circle of the first generation is not one of a later generation
  have one : ∀ (x : α × Bool) (u : List (α × Bool)), u ≠ [] → Reduced (x :: u) → genSet (fun y => e y) C (x :: u) ≠ C x := by
    intro x u hu hr hc
    rw [genSet_cons _ hu, ← h.swap x] at hc
    have hc' := (e x).injective.image_injective hc
    cases u with
    | nil => exact hu rfl
    | cons y u =>
      obtain ⟨h1, h2⟩ := List.isChain_cons_cons.1 hr
      have hs := h.gen_sub h2
      exact h1 (two (h.gen_nontriv (by simp)) hs (by rw [hc']; exact h.sub _))
  induction t generalizing t' with
  | nil => exact absurd rfl h0
  | cons x u ih =>
    cases t' with
    | nil => exact absurd rfl h0'
    | cons x' u' =>
      obtain rfl : x = x' := two (h.gen_nontriv (by simp)) (h.gen_sub ht) (by rw [he]; exact h.gen_sub ht')
      by_cases hu : u = []
      · subst hu
        by_cases hu' : u' = []
        · rw [hu']
        · exact absurd he.symm (one x u' hu' ht')
      · by_cases hu' : u' = []
        · subst hu'
          exact absurd he (one x u hu ht)
        · rw [genSet_cons _ hu, genSet_cons _ hu'] at he
          rw [ih (t' := u') ht.tail ht'.tail hu hu' ((e x).injective.image_injective he)]

theorem open_into (h : PingPong e C K) {x y : α × Bool} (hxy : y ≠ invLetter x) {P : X} (hP : P ∈ K y \ C y) : e x P ∈ K x \ C x := by
  refine ⟨h.into x y hxy P hP.1, ?_⟩
  intro hc
  rw [← h.swap x] at hc
  obtain ⟨Q, hQ, eq⟩ := hc
  obtain rfl := (e x).injective eq
  exact h.apart y (invLetter x) hxy Q hP.1 hP.2 (h.sub _ hQ)

theorem disc_sub (h : PingPong e C K) {x : α × Bool} {t : List (α × Bool)} (ht : Reduced (x :: t)) :
    genSet (fun y => e y) (fun y => K y \ C y) (x :: t) ⊆ K x \ C x := by
  induction t generalizing x with
  | nil => exact subset_rfl
  | cons y t ih =>
    rw [genSet_cons _ (by simp)]
    rintro _ ⟨P, hP, rfl⟩
    obtain ⟨h1, h2⟩ := List.isChain_cons_cons.1 ht
    exact h.open_into h1 (ih h2 hP)

/-- The disc of a longer word is in the disc of the shorter one. -/
theorem disc_nested (h : PingPong e C K) {t u : List (α × Bool)} (h0 : t ≠ []) (ht : Reduced (t ++ u)) :
    genSet (fun y => e y) (fun y => K y \ C y) (t ++ u) ⊆ genSet (fun y => e y) (fun y => K y \ C y) t := by
  induction t with
  | nil => exact absurd rfl h0
  | cons x t ih =>
    by_cases hu : t = []
    · subst hu; exact h.disc_sub ht
    · rw [List.cons_append, genSet_cons _ (by simp [hu]), genSet_cons _ hu]
      exact Set.image_mono (ih hu ht.tail)

/-- The discs of two words, none a prefix of the other, have no common point. -/
theorem disc_disjoint (h : PingPong e C K) {t t' : List (α × Bool)} (ht : Reduced t) (ht' : Reduced t') (h1 : ¬ t <+: t') (h2 : ¬ t' <+: t) :
    Disjoint (genSet (fun y => e y) (fun y => K y \ C y) t) (genSet (fun y => e y) (fun y => K y \ C y) t') := by
  induction t generalizing t' with
  | nil => exact absurd (List.nil_prefix) h1
  | cons x u ih =>
    cases t' with
    | nil => exact absurd (List.nil_prefix) h2
    | cons x' u' =>
      by_cases hx : x = x'
      · subst hx
        have hu : u ≠ [] := by rintro rfl; exact h1 (by simp)
        have hu' : u' ≠ [] := by rintro rfl; exact h2 (by simp)
        rw [genSet_cons _ hu, genSet_cons _ hu', Set.disjoint_image_iff (e x).injective]
        refine ih ht.tail ht'.tail ?_ ?_
        · intro hp; exact h1 (by simpa using hp)
        · intro hp; exact h2 (by simpa using hp)
      · rw [Set.disjoint_left]
        intro P hP hP'
        have a := h.disc_sub ht hP
        have b := h.disc_sub ht' hP'
        exact h.apart x x' hx P a.1 a.2 b.1

/-- The circle obtained when the letters but the last are applied in the wrong order: for a word which is cyclically reduced it is a circle of the same
generation, otherwise one of the generation before. -/
theorem wrong_order (h : PingPong e C K) (x y : α × Bool) (m : List (α × Bool)) :
    (y ≠ invLetter x → (((x :: m).reverse).map e).prod '' C y = genSet (fun z => e z) C (m.reverse ++ [x, y])) ∧
    (y = invLetter x → (((x :: m).reverse).map e).prod '' C y = genSet (fun z => e z) C (m.reverse ++ [x])) := by
  refine ⟨?_, ?_⟩
  · intro _
    rw [show m.reverse ++ [x, y] = (x :: m).reverse ++ [y] by simp, genSet_append]
  · rintro rfl
    rw [genSet_append, List.reverse_cons, List.map_append, List.prod_append]
    simp only [List.map_cons, List.map_nil, List.prod_cons, List.prod_nil, mul_one]
    rw [Equiv.Perm.coe_mul, Set.image_comp, h.swap]

end PingPong
end Spec
