import Verif.Lemmas.InversionStep
import Mathlib.Data.List.Nodup
import Mathlib.Data.List.Forall2

/-! The generations of `examples/Inversions.py` and the words of inversions. -/

open Spec Real Classical

namespace Inversions

theorem circles_eq : circles = .ok ((List.range 5).map circ) := by
  have h : ∀ i, (0 : ℝ) < (rad i : ℝ) := by intro i; unfold rad; split <;> norm_num
  have e0 : (⟨cos 0, sin 0⟩ : Pt) = pole 0 := by simp [pole, px, py]
  have e1 : (⟨cos (π / 2), sin (π / 2)⟩ : Pt) = pole 1 := by simp [pole, px, py]
  have e2 : (⟨cos π, sin π⟩ : Pt) = pole 2 := by simp [pole, px, py]
  have e3 : (⟨cos (3 * π / 2), sin (3 * π / 2)⟩ : Pt) = pole 3 := by
    rw [show 3 * π / 2 = π / 2 + π by ring, cos_add_pi, sin_add_pi]
    simp [pole, px, py]
  unfold circles
  have h1 : (0 : ℝ) < 1 := by norm_num
  have h2 : (0 : ℝ) < 2 := by norm_num
  simp only [List.mapM_cons, List.mapM_nil, mkCircle_pos h1, mkCircle_pos h2, e0, e1, e2, e3]
  change Except.ok _ = Except.ok _
  congr 1
  simp only [List.range, List.range.loop, List.map, circ]
  simp [rad, pole, px, py]

/-- The words of generation `n`, in the order of the list. -/
def wgen : ℕ → List (List ℕ)
  | 0 => (List.range 5).map fun j => [j]
  | n + 1 => (wgen n).flatMap fun w => ((List.range 5).filter fun i => decide (w.head? ≠ some i)).map fun i => i :: w

/-- The coefficients of the curve of a word. -/
def vec : List ℕ → V
  | [] => ⟨0, 0, 0, 0⟩
  | [j] => base j
  | i :: j :: w => refl i (vec (j :: w))

theorem wgen_ne {n : ℕ} {w : List ℕ} (h : w ∈ wgen n) : w ≠ [] := by
  cases n with
  | zero => simp only [wgen, List.mem_map] at h; obtain ⟨j, -, rfl⟩ := h; simp
  | succ n => simp only [wgen, List.mem_flatMap, List.mem_map] at h; obtain ⟨-, -, -, -, rfl⟩ := h; simp

theorem mem_wgen (n : ℕ) (w : List ℕ) : w ∈ wgen n ↔ IsWord 5 n w := by
  induction n generalizing w with
  | zero =>
    simp only [wgen, List.mem_map, List.mem_range]
    constructor
    · rintro ⟨j, hj, rfl⟩
      exact ⟨rfl, by simpa using hj, by simp⟩
    · rintro ⟨h1, h2, -⟩
      obtain ⟨j, rfl⟩ := List.length_eq_one_iff.1 h1
      exact ⟨j, h2 j (by simp), rfl⟩
  | succ n ih =>
    simp only [wgen, List.mem_flatMap, List.mem_map, List.mem_filter, List.mem_range, decide_eq_true_eq]
    constructor
    · rintro ⟨w', hw', i, ⟨hi, hne⟩, rfl⟩
      obtain ⟨h1, h2, h3⟩ := (ih w').1 hw'
      refine ⟨by simp [h1], ?_, ?_⟩
      · intro x hx
        rcases List.mem_cons.1 hx with rfl | hx
        · exact hi
        · exact h2 x hx
      · cases w' with
        | nil => simp
        | cons y t =>
          rw [List.isChain_cons_cons]
          refine ⟨?_, h3⟩
          rintro rfl
          exact hne rfl
    · rintro ⟨h1, h2, h3⟩
      cases w with
      | nil => simp at h1
      | cons i w' =>
        refine ⟨w', (ih w').2 ⟨by simpa using h1, fun x hx => h2 x (by simp [hx]), ?_⟩, i, ⟨h2 i (by simp), ?_⟩, rfl⟩
        · exact h3.tail
        · cases w' with
          | nil => simp
          | cons y t =>
            rw [List.isChain_cons_cons] at h3
            intro e
            simp at e
            exact h3.1 e.symm

theorem nodup_wgen (n : ℕ) : (wgen n).Nodup := by
  induction n with
  | zero => unfold wgen; exact (List.nodup_range).map (fun a b h => by simpa using h)
  | succ n ih =>
    unfold wgen
    rw [List.nodup_flatMap]
    refine ⟨fun w _ => ((List.nodup_range).filter _).map (fun a b h => by simpa using h), ?_⟩
    refine ih.imp ?_
    intro a b hab
    rw [Function.onFun, List.disjoint_left]
    intro x hx hy
    simp only [List.mem_map] at hx hy
    obtain ⟨i, -, rfl⟩ := hx
    obtain ⟨j, -, hj⟩ := hy
    simp at hj
    exact hab hj.2.symm

theorem length_wgen (n : ℕ) : (wgen n).length = 5 * 4 ^ n := by
  induction n with
  | zero => rfl
  | succ n ih =>
    have : ∀ w ∈ wgen n, (((List.range 5).filter fun i => decide (w.head? ≠ some i)).map fun i => i :: w).length = 4 := by
      intro w hw
      have hne := wgen_ne hw
      obtain ⟨-, h2, -⟩ := (mem_wgen n w).1 hw
      cases w with
      | nil => exact absurd rfl hne
      | cons a t =>
        have ha := h2 a (by simp)
        rw [List.length_map]
        simp only [List.head?_cons, ne_eq, Option.some.injEq]
        interval_cases a <;> rfl
    unfold wgen
    rw [List.length_flatMap, List.map_congr_left this, List.map_const', List.sum_replicate, ih]
    simp [pow_succ]; ring

theorem good_vec {n : ℕ} {w : List ℕ} (h : IsWord 5 n w) : Good (vec w) := by
  induction n generalizing w with
  | zero =>
    obtain ⟨h1, h2, h3⟩ := h
    obtain ⟨j, rfl⟩ := List.length_eq_one_iff.1 h1
    exact good_base (h2 j (by simp))
  | succ n ih =>
    obtain ⟨h1, h2, h3⟩ := h
    rcases w with _ | ⟨i, _ | ⟨j, w⟩⟩
    · simp at h1
    · simp at h1
    · exact good_refl (h2 i (by simp)) (ih ⟨by simpa using h1, fun x hx => h2 x (by simp [hx]), h3.tail⟩)

theorem rep_base {j : ℕ} (hj : j < 5) : Rep (base j) (.circle (circ j)) := by
  interval_cases j <;> refine ⟨by decide, ?_, ?_⟩ <;> norm_num [base, circ, pole, px, py, rad]

theorem curve_word {n : ℕ} {w : List ℕ} (h : IsWord 5 n w) : wordCurve circ w = zset (vec w) := by
  induction n generalizing w with
  | zero =>
    obtain ⟨h1, h2, h3⟩ := h
    obtain ⟨j, rfl⟩ := List.length_eq_one_iff.1 h1
    have hj := h2 j (by simp)
    exact curve_eq (good_base hj) (rep_base hj)
  | succ n ih =>
    obtain ⟨h1, h2, h3⟩ := h
    rcases w with _ | ⟨i, _ | ⟨j, w⟩⟩
    · simp at h1
    · simp at h1
    · have hi := h2 i (by simp)
      unfold wordCurve vec
      rw [zset_refl hi, ih (w := j :: w) ⟨by simpa using h1, fun x hx => h2 x (by simp [hx]), h3.tail⟩]
      rfl

/-- A curve of the list and its word. -/
def Match (n : ℕ) (w : List ℕ) (e : Entry) : Prop := w.head? = some e.last ∧ e.gen = n ∧ ∃ g, e.g = some g ∧ Rep (vec w) g

theorem mapM_forall₂ {α β γ : Type} {S : α → β → Prop} {R : α → γ → Prop} {f : β → Res γ} {as : List α} {bs : List β} (h : List.Forall₂ S as bs)
    (hf : ∀ a ∈ as, ∀ b ∈ bs, S a b → ∃ c, f b = .ok c ∧ R a c) : ∃ cs, bs.mapM f = .ok cs ∧ List.Forall₂ R as cs := by
  induction h with
  | nil => exact ⟨[], rfl, .nil⟩
  | @cons a b as bs hab _ ih =>
    obtain ⟨c, hc, hR⟩ := hf a (by simp) b (by simp) hab
    obtain ⟨cs, h1, h2⟩ := ih fun a ha b hb => hf a (by simp [ha]) b (by simp [hb])
    exact ⟨c :: cs, by rw [List.mapM_cons, hc, h1]; rfl, .cons hR h2⟩

theorem flatMap_forall₂ {α β γ δ : Type} {S : α → β → Prop} {R : γ → δ → Prop} {f : α → List γ} {k : β → List δ} {as : List α} {bs : List β}
    (h : List.Forall₂ S as bs) (hf : ∀ a b, S a b → List.Forall₂ R (f a) (k b)) : List.Forall₂ R (as.flatMap f) (bs.flatMap k) := by
  induction h with
  | nil => exact .nil
  | cons hab _ ih => rw [List.flatMap_cons, List.flatMap_cons]; exact List.rel_append (hf _ _ hab) ih

theorem zipIdx_circles : ((List.range 5).map circ).zipIdx = (List.range 5).map fun i => (circ i, i) := rfl

/-- The generations, as long as no circle is too small. -/
theorem generation_words (n : ℕ) (h : ∀ m < n, ∀ G, generation ((List.range 5).map circ) m = .ok G → ∀ e ∈ G, ∀ c, e.g = some (.circle c) → 1 / 10 ^ 4 < c.radius) :
    ∃ G, generation ((List.range 5).map circ) n = .ok G ∧ List.Forall₂ (Match n) (wgen n) G := by
  induction n with
  | zero =>
    refine ⟨_, rfl, ?_⟩
    rw [zipIdx_circles, List.map_map, wgen, List.forall₂_map_left_iff, List.forall₂_map_right_iff, List.forall₂_same]
    intro j hj
    rw [List.mem_range] at hj
    exact ⟨rfl, rfl, _, rfl, rep_base hj⟩
  | succ n ih =>
    obtain ⟨G, hG, hF⟩ := ih fun m hm => h m (by omega)
    have hr := h n (by omega) G hG
    have hS : List.Forall₂ (fun w' (p : Entry × Circle × ℕ) => ∃ i w, w' = i :: w ∧ i < 5 ∧ w ∈ wgen n ∧ p.1 ∈ G ∧ Match n w p.1 ∧ p.2 = (circ i, i))
        (wgen (n + 1)) (G.flatMap fun e => ((((List.range 5).map circ).zipIdx).filter fun ci => decide (e.last ≠ ci.2)).map fun ci => (e, ci)) := by
      have hF' : List.Forall₂ (fun w e => w ∈ wgen n ∧ e ∈ G ∧ Match n w e) (wgen n) G := by
        rw [List.forall₂_iff_get] at hF ⊢
        exact ⟨hF.1, fun i h1 h2 => ⟨List.get_mem _ _, List.get_mem _ _, hF.2 i h1 h2⟩⟩
      refine flatMap_forall₂ hF' ?_
      rintro w e ⟨hw, he, hM⟩
      rw [zipIdx_circles, List.filter_map, List.map_map, hM.1]
      have : (List.range 5).filter ((fun ci : Circle × ℕ => decide (e.last ≠ ci.2)) ∘ fun i => (circ i, i)) =
          (List.range 5).filter fun i => decide (some e.last ≠ some i) := by
        apply List.filter_congr
        intro i _
        simp
      rw [this, List.forall₂_map_left_iff, List.forall₂_map_right_iff, List.forall₂_same]
      intro i hi
      exact ⟨i, w, rfl, List.mem_range.1 (List.mem_filter.1 hi).1, hw, he, hM, rfl⟩
    obtain ⟨cs, h1, h2⟩ := mapM_forall₂ (R := Match (n + 1)) (f := fun p => do
      let g ← invertEntry p.2.1 p.1.g
      return (⟨g, n + 1, p.2.2⟩ : Entry)) hS (by
        rintro w' - p - ⟨i, w, rfl, hi, hw, he, ⟨m1, m2, g, m3, m4⟩, hp⟩
        have hW := (mem_wgen n w).1 hw
        obtain ⟨g', s1, s2⟩ := step hi (good_vec hW) m4 fun c hc => hr p.1 he c (by rw [m3, hc])
        refine ⟨⟨some g', n + 1, i⟩, ?_, rfl, rfl, g', rfl, ?_⟩
        · rw [hp, m3]; dsimp only; rw [s1]; rfl
        · cases w with
          | nil => exact absurd rfl (wgen_ne hw)
          | cons j t => exact s2)
    refine ⟨cs, ?_, h2⟩
    unfold generation
    rw [hG]
    exact h1

end Inversions
