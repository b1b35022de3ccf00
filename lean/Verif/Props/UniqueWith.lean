import Verif.Model.UniqueWith
import Mathlib.Data.List.Pairwise
import Mathlib.Data.List.Nodup

/-! C96: `unique_with` keeps the first of each group of equal elements. -/

open UniqueWith

variable {α : Type*}

/-- Keep an element, drop the later ones it is related to, continue with what is left. -/
def Spec.firsts (f : α → α → Bool) : List α → List α
  | [] => []
  | x :: xs => x :: Spec.firsts f (xs.filter fun y => !f x y)
termination_by l => l.length
decreasing_by
  simp only [List.length_cons]
  rw [List.length_unattach]
  refine Nat.lt_succ_of_le (Nat.le_trans (List.length_filter_le _ _) ?_)
  rw [List.length_attach]
  exact Nat.le_refl _

/-- The `while` loop drops the elements after `i` that are equal to the element number `i`. -/
theorem scan_spec (f : α → α → Bool) (pre : List α) (x : α) (kept todo : List α) :
    scan f pre.length (pre ++ x :: (kept ++ todo)) (pre ++ x :: (kept ++ todo)).length (pre.length + 1 + kept.length) =
      some (pre ++ x :: (kept ++ todo.filter fun y => !f x y),
        (pre ++ x :: (kept ++ todo.filter fun y => !f x y)).length) := by
  induction todo generalizing kept with
  | nil =>
    rw [scan, if_neg (by simp; omega)]
    simp
  | cons y ys ih =>
    rw [scan, if_pos (by simp; omega)]
    have hx : (pre ++ x :: (kept ++ y :: ys))[pre.length]? = some x := by simp
    have hy : (pre ++ x :: (kept ++ y :: ys))[pre.length + 1 + kept.length]? = some y := by
      rw [List.getElem?_append_right (by omega), show pre.length + 1 + kept.length - pre.length = kept.length + 1 by omega]
      simp
    rw [hx, hy]
    dsimp only
    by_cases h : f x y = true
    · rw [if_pos h]
      have he : (pre ++ x :: (kept ++ y :: ys)).eraseIdx (pre.length + 1 + kept.length) = pre ++ x :: (kept ++ ys) := by
        rw [List.eraseIdx_append_of_length_le (by omega), show pre.length + 1 + kept.length - pre.length = kept.length + 1 by omega,
          List.eraseIdx_cons_succ, List.eraseIdx_append_of_length_le (by omega)]
        simp
      have hl : (pre ++ x :: (kept ++ y :: ys)).length - 1 = (pre ++ x :: (kept ++ ys)).length := by simp; omega
      rw [he, hl, ih kept, List.filter_cons_of_neg (by simp [h])]
    · rw [if_neg h]
      have := ih (kept ++ [y])
      rw [List.filter_cons_of_pos (by simp [h])]
      simp only [List.append_assoc, List.singleton_append, List.length_append, List.length_singleton] at this
      rw [show pre.length + 1 + kept.length + 1 = pre.length + 1 + (kept.length + 1) by omega]
      simpa using this

theorem scan_past (f : α → α → Bool) (i : ℕ) (L : List α) (h : L.length ≤ i + 1) :
    scan f i L L.length (i + 1) = some (L, L.length) := by
  rw [scan, if_neg (by omega)]

theorem firsts_length_le (f : α → α → Bool) (L : List α) : (Spec.firsts f L).length ≤ L.length := by
  induction hn : L.length using Nat.strongRecOn generalizing L with
  | _ n ih =>
    cases L with
    | nil => simp [Spec.firsts]
    | cons x xs =>
      rw [Spec.firsts, List.length_cons]
      have hl : (xs.filter fun y => !f x y).length ≤ xs.length := List.length_filter_le _ _
      simp only [List.length_cons] at hn
      have := ih _ (by omega) (xs.filter fun y => !f x y) rfl
      omega

theorem loop_done (f : α → α → Bool) (L : List α) : ∀ (a n : ℕ), L.length ≤ a + 1 →
    loop f (List.range' a n) (L, L.length) = some (L, L.length) := by
  intro a n
  induction n generalizing a with
  | zero => intro _; rfl
  | succ n ih =>
    intro h
    rw [List.range'_succ]
    unfold loop
    rw [scan_past f a L h]
    exact ih (a + 1) (by omega)

theorem loop_spec (f : α → α → Bool) : ∀ (n : ℕ) (pre rest : List α), rest.length ≤ n + 1 →
    loop f (List.range' pre.length n) (pre ++ rest, (pre ++ rest).length) =
      some (pre ++ Spec.firsts f rest, (pre ++ Spec.firsts f rest).length) := by
  intro n
  induction n with
  | zero =>
    intro pre rest h
    rcases rest with _ | ⟨x, _ | ⟨y, ys⟩⟩
    · simp [Spec.firsts, loop]
    · simp [Spec.firsts, loop]
    · simp at h
  | succ n ih =>
    intro pre rest h
    rcases rest with _ | ⟨x, xs⟩
    · have := loop_done f pre pre.length (n + 1) (by omega)
      simpa [Spec.firsts] using this
    · rw [List.range'_succ]
      unfold loop
      have hs := scan_spec f pre x [] xs
      simp only [List.nil_append, List.length_nil, Nat.add_zero] at hs
      rw [hs]
      have := ih (pre ++ [x]) (xs.filter fun y => !f x y) (by
        have : (xs.filter fun y => !f x y).length ≤ xs.length := List.length_filter_le _ _
        simp only [List.length_cons] at h
        omega)
      rw [Spec.firsts]
      simpa using this

/-- C96: for every list and every comparison the call succeeds (no index is out of range although the list shrinks under the loop), the
result is the greedy selection, and the argument list itself has become the result. -/
theorem C96_unique_with (L : List α) (f : α → α → Bool) :
    unique_with L f = some (Spec.firsts f L, Spec.firsts f L) := by
  have h := loop_spec f (L.length - 1) [] L (by omega)
  simp only [List.nil_append, List.length_nil] at h
  unfold unique_with
  dsimp only
  rw [List.range_eq_range', h]
  simp

/-- C96: what the selection is.  The result is a sublist of the argument, no element of it is related to a later one, and every element of the
argument is in the result or is related to an earlier element of the argument that is in the result. -/
theorem C96_selection (L : List α) (f : α → α → Bool) :
    (Spec.firsts f L).Sublist L ∧ (Spec.firsts f L).Pairwise (fun x y => f x y = false) ∧
      ∀ (pre post : List α) (y : α), L = pre ++ y :: post → y ∈ Spec.firsts f L ∨ ∃ x ∈ pre, x ∈ Spec.firsts f L ∧ f x y = true := by
  induction hn : L.length using Nat.strongRecOn generalizing L with
  | _ n ih =>
    cases L with
    | nil =>
      refine ⟨by simp [Spec.firsts], by simp [Spec.firsts], ?_⟩
      intro pre post y h
      simp at h
    | cons x xs =>
      simp only [List.length_cons] at hn
      have hl : (xs.filter fun y => !f x y).length ≤ xs.length := List.length_filter_le _ _
      obtain ⟨h1, h2, h3⟩ := ih _ (by omega) (xs.filter fun y => !f x y) rfl
      rw [Spec.firsts]
      refine ⟨(h1.trans List.filter_sublist).cons_cons x, ?_, ?_⟩
      · rw [List.pairwise_cons]
        refine ⟨?_, h2⟩
        intro y hy
        have := h1.subset hy
        rw [List.mem_filter] at this
        simpa using this.2
      · intro pre post y h
        rcases pre with _ | ⟨z, pre⟩
        · simp only [List.nil_append, List.cons.injEq] at h
          left; rw [h.1]; exact List.mem_cons_self
        · simp only [List.cons_append, List.cons.injEq] at h
          obtain ⟨rfl, h⟩ := h
          by_cases hf : f x y = true
          · right; exact ⟨x, List.mem_cons_self, List.mem_cons_self, hf⟩
          · have he : (xs.filter fun y => !f x y) = (pre.filter fun y => !f x y) ++ y :: (post.filter fun y => !f x y) := by
              rw [h, List.filter_append, List.filter_cons_of_pos (by simp [hf])]
            rcases h3 _ _ y he with h | ⟨z, hz, hz2, hz3⟩
            · left; exact List.mem_cons_of_mem _ h
            · right; exact ⟨z, List.mem_cons_of_mem _ (List.mem_filter.1 hz).1, List.mem_cons_of_mem _ hz2, hz3⟩

/-- The selection for the relation "at distance at most one": 1 is represented by 0, and 3 by 2. -/
example : Spec.firsts (fun x y : ℕ => decide (x ≤ y + 1 ∧ y ≤ x + 1)) [0, 1, 2, 3] = [0, 2] ∧
    ∃ x ∈ [0, 1, 2], x ∈ Spec.firsts (fun x y : ℕ => decide (x ≤ y + 1 ∧ y ≤ x + 1)) [0, 1, 2, 3] ∧ x ≤ 3 + 1 ∧ 3 ≤ x + 1 := by
  have e : Spec.firsts (fun x y : ℕ => decide (x ≤ y + 1 ∧ y ≤ x + 1)) [0, 1, 2, 3] = [0, 2] := by
    simp [Spec.firsts]
  refine ⟨e, ?_⟩
  rcases (C96_selection [0, 1, 2, 3] (fun x y : ℕ => decide (x ≤ y + 1 ∧ y ≤ x + 1))).2.2 [0, 1, 2] [] 3 rfl with h | ⟨x, h1, h2, h3⟩
  · rw [e] at h; simp at h
  · exact ⟨x, h1, h2, by simpa using h3⟩

/-- C96: for an equivalence (the equality of words of `Schottky.py`) the result has exactly one member of each class, and a list without
duplicates is returned unchanged. -/
theorem C96_classes (L : List α) (f : α → α → Bool) (hrefl : ∀ x, f x x = true) (hsymm : ∀ x y, f x y = true → f y x = true)
    (htrans : ∀ x y z, f x y = true → f y z = true → f x z = true) :
    (∀ y ∈ L, ∃! x, x ∈ Spec.firsts f L ∧ f x y = true) ∧ (Spec.firsts f L).Nodup ∧
      (L.Pairwise (fun x y => f x y = false) → Spec.firsts f L = L) := by
  obtain ⟨h1, h2, h3⟩ := C96_selection L f
  refine ⟨?_, ?_, ?_⟩
  · intro y hy
    obtain ⟨pre, post, he⟩ := List.append_of_mem hy
    have hex : ∃ x ∈ Spec.firsts f L, f x y = true := by
      rcases h3 pre post y he with h | ⟨x, -, hx, hf⟩
      · exact ⟨y, h, hrefl y⟩
      · exact ⟨x, hx, hf⟩
    obtain ⟨x, hx, hf⟩ := hex
    refine ⟨x, ⟨hx, hf⟩, ?_⟩
    rintro z ⟨hz, hzf⟩
    by_contra hne
    have hsym : Std.Symm (fun x y : α => f x y = false) := ⟨by
      intro a b hab
      by_contra hc
      rw [Bool.not_eq_false] at hc
      rw [hsymm _ _ hc] at hab
      cases hab⟩
    have := h2.forall hz hx hne
    rw [htrans z y x hzf (hsymm _ _ hf)] at this
    cases this
  · refine h2.imp ?_
    rintro a b hab rfl
    rw [hrefl] at hab
    cases hab
  · clear h1 h2 h3
    intro h
    induction L with
    | nil => simp [Spec.firsts]
    | cons x xs ih =>
      rw [List.pairwise_cons] at h
      rw [Spec.firsts, List.filter_eq_self.2 (by intro y hy; simp [h.1 y hy]), ih h.2]

/-- Equality of numbers. -/
example : unique_with [3, 1, 3, 2, 1, 1, 3] (fun x y : ℕ => x == y) = some ([3, 1, 2], [3, 1, 2]) := by
  rw [C96_unique_with]
  simp [Spec.firsts]

/-- A comparison that is not transitive (closeness within 1, like the tolerance of `is_equal`): 0 drops 1, then 2 drops 3. -/
example : unique_with [0, 1, 2, 3] (fun x y : ℕ => decide (x ≤ y + 1 ∧ y ≤ x + 1)) = some ([0, 2], [0, 2]) := by
  rw [C96_unique_with]
  simp [Spec.firsts]
