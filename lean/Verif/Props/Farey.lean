import Verif.Model.Farey
import Mathlib.LinearAlgebra.Matrix.Determinant.Basic
import Mathlib.Tactic.LinearCombination
import Mathlib.Tactic.FieldSimp
import Mathlib.Tactic.Linarith
import Mathlib.Tactic.FinCases

/-!
# C58: `unimodular_matrices`, through the theorem on neighbours in Farey sequences
-/

open Classical

/-! ## Consecutive elements of a sorted list -/

theorem mem_zip_tail_iff {l : List ℚ} (hl : l.Pairwise (· < ·)) (a b : ℚ) :
    (a, b) ∈ List.zip l l.tail ↔ a ∈ l ∧ b ∈ l ∧ a < b ∧ ∀ c ∈ l, ¬ (a < c ∧ c < b) := by
  induction l with
  | nil => simp
  | cons x t ih =>
    cases t with
    | nil =>
      simp only [List.tail_cons, List.zip_nil_right, List.not_mem_nil, List.mem_singleton, false_iff]
      rintro ⟨rfl, rfl, h, -⟩
      exact lt_irrefl _ h
    | cons y t =>
      rw [List.pairwise_cons] at hl
      obtain ⟨hx, ht⟩ := hl
      have ih := ih ht
      rw [List.tail_cons, List.zip_cons_cons, List.mem_cons]
      rw [List.tail_cons] at ih
      rw [ih]
      have hxy := hx y (by simp)
      rw [List.pairwise_cons] at ht
      constructor
      · rintro (h | ⟨h1, h2, h3, h4⟩)
        · obtain ⟨rfl, rfl⟩ := Prod.mk.inj h
          refine ⟨by simp, by simp, hxy, ?_⟩
          rintro c hc ⟨h5, h6⟩
          rcases List.mem_cons.1 hc with rfl | hc
          · exact lt_irrefl _ h5
          · rcases List.mem_cons.1 hc with rfl | hc
            · exact lt_irrefl _ h6
            · exact lt_asymm h6 (ht.1 c hc)
        · refine ⟨List.mem_cons_of_mem _ h1, List.mem_cons_of_mem _ h2, h3, ?_⟩
          rintro c hc ⟨h5, h6⟩
          rcases List.mem_cons.1 hc with rfl | hc
          · exact lt_asymm h5 (hx a h1)
          · exact h4 c hc ⟨h5, h6⟩
      · rintro ⟨h1, h2, h3, h4⟩
        rcases List.mem_cons.1 h1 with rfl | h1'
        · left
          rcases List.mem_cons.1 h2 with rfl | h2
          · exact absurd h3 (lt_irrefl _)
          · rcases List.mem_cons.1 h2 with rfl | h2
            · rfl
            · exact absurd ⟨hxy, ht.1 b h2⟩ (h4 y (by simp))
        · right
          rcases List.mem_cons.1 h2 with rfl | h2
          · exact absurd h3 (lt_asymm (hx a h1'))
          · exact ⟨h1', h2, h3, fun c hc => h4 c (List.mem_cons_of_mem _ hc)⟩

/-! ## The Farey sequence -/

/-- The elements of `farey_(n)`: the fractions between 0 and 1 with denominator at most `n`. -/
theorem mem_farey {n : ℤ} (hn : 1 ≤ n) (c : ℚ) : c ∈ farey_ n ↔ 0 ≤ c ∧ c ≤ 1 ∧ (c.den : ℤ) ≤ n := by
  unfold farey_
  simp only [List.mem_append, List.mem_singleton, Finset.mem_sort, Finset.mem_biUnion, Finset.mem_Ico, Finset.mem_image]
  constructor
  · rintro (rfl | ⟨k, ⟨hk1, hk2⟩, m, ⟨hm1, hm2⟩, rfl⟩)
    · refine ⟨le_refl _, zero_le_one, ?_⟩
      simpa using hn
    · have hk0 : (0 : ℚ) < k := by exact_mod_cast (by omega : 0 < k)
      refine ⟨?_, ?_, ?_⟩
      · have : (0 : ℚ) ≤ m := by exact_mod_cast (by omega : 0 ≤ m)
        positivity
      · rw [div_le_one hk0]
        exact_mod_cast (by omega : m ≤ k)
      · have hd : (((m : ℚ) / (k : ℚ)).den : ℤ) ∣ k := by
          rw [← Rat.divInt_eq_div]
          exact Rat.den_dvd m k
        have := Int.le_of_dvd (by omega) hd
        omega
  · rintro ⟨h0, h1, h2⟩
    rcases h0.eq_or_lt with h | h
    · left; exact h.symm
    · right
      have hd : 0 < c.den := c.den_pos
      refine ⟨c.den, ⟨by omega, by omega⟩, c.num, ⟨?_, ?_⟩, ?_⟩
      · have := Rat.num_pos.2 h
        omega
      · have : c.num ≤ c.den := by
          have h3 := Rat.num_div_den c
          rw [← h3, div_le_one (by exact_mod_cast hd)] at h1
          exact_mod_cast h1
        omega
      · exact_mod_cast Rat.num_div_den c

theorem farey_sorted (n : ℤ) : (farey_ n).Pairwise (· < ·) := by
  unfold farey_
  rw [List.singleton_append, List.pairwise_cons]
  constructor
  · intro c hc
    simp only [Finset.mem_sort, Finset.mem_biUnion, Finset.mem_Ico, Finset.mem_image] at hc
    obtain ⟨k, ⟨hk1, hk2⟩, m, ⟨hm1, hm2⟩, rfl⟩ := hc
    have hk0 : (0 : ℚ) < k := by exact_mod_cast (by omega : 0 < k)
    have hm0 : (0 : ℚ) < m := by exact_mod_cast (by omega : 0 < m)
    positivity
  · exact (Finset.sortedLT_sort _).pairwise

/-- Nothing with a small denominator lies between two fractions of determinant 1. -/
theorem between_den {p q r s x y : ℤ} (hq : 0 < q) (hs : 0 < s) (hdet : q * r - p * s = 1) (h1 : p * y < x * q)
    (h2 : x * s < r * y) : q + s ≤ y := by
  have e : y = q * (r * y - x * s) + s * (x * q - p * y) := by linear_combination (-y) * hdet
  have a1 : 1 ≤ r * y - x * s := by omega
  have a2 : 1 ≤ x * q - p * y := by omega
  have b1 : q * 1 ≤ q * (r * y - x * s) := mul_le_mul_of_nonneg_left a1 hq.le
  have b2 : s * 1 ≤ s * (x * q - p * y) := mul_le_mul_of_nonneg_left a2 hs.le
  omega

theorem rat_lt_iff (a b : ℚ) : a < b ↔ a.num * b.den < b.num * a.den := Rat.lt_iff a b

/-- Farey neighbours have determinant 1. -/
theorem farey_neighbours {n : ℤ} (hn : 1 ≤ n) {a b : ℚ} (ha : a ∈ farey_ n) (hb : b ∈ farey_ n) (hab : a < b)
    (hc : ∀ c ∈ farey_ n, ¬ (a < c ∧ c < b)) : (a.den : ℤ) * b.num - a.num * b.den = 1 := by
  rw [mem_farey hn] at ha hb
  obtain ⟨a0, a1, a2⟩ := ha
  obtain ⟨b0, b1, b2⟩ := hb
  have hq : 0 < (a.den : ℤ) := by exact_mod_cast a.den_pos
  have hp : 0 ≤ a.num := Rat.num_nonneg.2 a0
  have hpq : a.num < a.den := by
    have h : a < 1 := lt_of_lt_of_le hab b1
    rw [rat_lt_iff] at h
    simpa using h
  have hcop : IsCoprime (a.den : ℤ) a.num := by
    rw [Int.isCoprime_iff_gcd_eq_one, Int.gcd_comm]
    exact a.reduced
  obtain ⟨r0, s0, hrs⟩ := hcop
  obtain ⟨p, hpe⟩ : ∃ p, p = a.num := ⟨_, rfl⟩
  obtain ⟨q, hqe⟩ : ∃ q, q = (a.den : ℤ) := ⟨_, rfl⟩
  rw [← hpe, ← hqe] at hrs
  rw [← hqe] at hq a2 hpq
  rw [← hpe] at hp hpq
  -- r0 * q + s0 * p = 1; the other neighbour is (r, s)
  obtain ⟨t, ht⟩ : ∃ t, t = (n + s0) / q := ⟨_, rfl⟩
  obtain ⟨s, hse⟩ : ∃ s, s = -s0 + t * q := ⟨_, rfl⟩
  obtain ⟨r, hre⟩ : ∃ r, r = r0 + t * p := ⟨_, rfl⟩
  have hdet : q * r - p * s = 1 := by rw [hse, hre]; linear_combination hrs
  have hdm := Int.mul_ediv_add_emod (n + s0) q
  have hm0 := Int.emod_nonneg (n + s0) hq.ne'
  have hm1 := Int.emod_lt_of_pos (n + s0) hq
  rw [← ht] at hdm
  have hsn : s ≤ n := by rw [hse]; linarith [mul_comm t q]
  have hsq : n < s + q := by rw [hse]; linarith [mul_comm t q]
  have hs0 : 0 < s := by omega
  have hr0 : 0 < r := by
    have h1 : 0 ≤ p * s := mul_nonneg hp hs0.le
    have h2 : 0 < q * r := by omega
    exact (mul_pos_iff_of_pos_left hq).1 h2
  have hrs' : r ≤ s := by
    by_contra hh
    push Not at hh
    have h1 : q * (s + 1) ≤ q * r := mul_le_mul_of_nonneg_left (by omega) hq.le
    have h2 : (p + 1) * s ≤ q * s := mul_le_mul_of_nonneg_right (by omega) hs0.le
    nlinarith
  have hcop2 : Nat.Coprime r.natAbs s.natAbs := by
    exact Int.isCoprime_iff_gcd_eq_one.1 (⟨q, -p, by linear_combination hdet⟩)
  have hnum := Rat.num_div_eq_of_coprime hs0 hcop2
  have hden := Rat.den_div_eq_of_coprime hs0 hcop2
  obtain ⟨c, hce⟩ : ∃ c, c = (r / s : ℚ) := ⟨_, rfl⟩
  rw [← hce] at hnum hden
  have hsQ : (0 : ℚ) < s := by exact_mod_cast hs0
  have hcF : c ∈ farey_ n := by
    rw [mem_farey hn]
    refine ⟨?_, ?_, by rw [hden]; exact hsn⟩
    · rw [hce]
      have : (0 : ℚ) ≤ r := by exact_mod_cast hr0.le
      positivity
    · rw [hce, div_le_one hsQ]
      exact_mod_cast hrs'
  have hac : a < c := by
    rw [rat_lt_iff, hnum, hden, ← hpe, ← hqe]
    linarith [mul_comm r q]
  have hbc : ¬ c < b := fun h => hc c hcF ⟨hac, h⟩
  have hcb : ¬ b < c := by
    intro h
    rw [rat_lt_iff, hnum, hden] at h
    have h2 := hab
    rw [rat_lt_iff, ← hpe, ← hqe] at h2
    have := between_den hq hs0 hdet h2 h
    omega
  have : b = c := le_antisymm (not_lt.1 hbc) (not_lt.1 hcb)
  rw [this, hnum, hden, ← hpe, ← hqe]
  exact hdet

/-! ## The rows -/

theorem zipWith_map_tail (l : List ℚ) (f : ℚ → List ℤ) :
    List.zipWith (· ++ ·) (l.map f) (l.map f).tail = (List.zip l l.tail).map fun p => f p.1 ++ f p.2 := by
  rw [← List.map_tail, List.zipWith_map, List.zip_eq_zipWith, List.map_zipWith]

/-- The rows of `farey_stack_(m)`. -/
theorem mem_farey_stack {m : ℤ} (hm : 1 ≤ m) (row : List ℤ) :
    row ∈ farey_stack_ m ↔ ∃ q p s r : ℤ, row = [q, p, s, r] ∧ q * r - p * s = 1 ∧ 0 ≤ p ∧ p ≤ q ∧ q ≤ m ∧ 0 < r ∧ r ≤ s ∧
      s ≤ m ∧ m < q + s := by
  unfold farey_stack_
  dsimp only
  rw [zipWith_map_tail]
  simp only [List.mem_map, Prod.exists]
  constructor
  · rintro ⟨a, b, hab, rfl⟩
    rw [mem_zip_tail_iff (farey_sorted m)] at hab
    obtain ⟨ha, hb, hlt, hc⟩ := hab
    have hdet := farey_neighbours hm ha hb hlt hc
    rw [mem_farey hm] at ha hb
    have ha' := a.num_div_den
    have hq : 0 < (a.den : ℤ) := by exact_mod_cast a.den_pos
    have hs : 0 < (b.den : ℤ) := by exact_mod_cast b.den_pos
    have hp0 : 0 ≤ a.num := Rat.num_nonneg.2 ha.1
    have hb0 : 0 < b.num := Rat.num_pos.2 (lt_of_le_of_lt ha.1 hlt)
    have hle : ∀ c : ℚ, c ≤ 1 → c.num ≤ c.den := by
      intro c hc
      have := (Rat.le_iff c 1).1 hc
      simpa using this
    refine ⟨a.den, a.num, b.den, b.num, rfl, hdet, hp0, hle a ha.2.1, ha.2.2, hb0, hle b hb.2.1, hb.2.2, ?_⟩
    -- the mediant is not in the sequence
    by_contra hh
    push Not at hh
    have hcop : Nat.Coprime (a.num + b.num).natAbs ((a.den : ℤ) + b.den).natAbs := by
      exact Int.isCoprime_iff_gcd_eq_one.1 (⟨-b.den, b.num, by linear_combination hdet⟩)
    have h1 := Rat.num_div_eq_of_coprime (by omega : 0 < (a.den : ℤ) + b.den) hcop
    have h2 := Rat.den_div_eq_of_coprime (by omega : 0 < (a.den : ℤ) + b.den) hcop
    refine hc (((a.num + b.num : ℤ) : ℚ) / ((a.den + b.den : ℤ) : ℚ)) ?_ ⟨?_, ?_⟩
    · rw [mem_farey hm]
      have hdp : (0 : ℚ) < ((a.den + b.den : ℤ) : ℚ) := by exact_mod_cast (by omega : 0 < (a.den : ℤ) + b.den)
      refine ⟨?_, ?_, by rw [h2]; exact hh⟩
      · have : (0 : ℚ) ≤ ((a.num + b.num : ℤ) : ℚ) := by exact_mod_cast (by omega : 0 ≤ a.num + b.num)
        positivity
      · rw [div_le_one hdp]
        have := hle a ha.2.1
        have := hle b hb.2.1
        exact_mod_cast (by omega : a.num + b.num ≤ (a.den : ℤ) + b.den)
    · rw [rat_lt_iff, h1, h2]
      nlinarith
    · rw [rat_lt_iff, h1, h2]
      nlinarith
  · rintro ⟨q, p, s, r, rfl, hdet, hp0, hpq, hqm, hr0, hrs, hsm, hms⟩
    have hs0 : 0 < s := by omega
    have hq0 : 0 < q := by
      rcases lt_or_eq_of_le (show 0 ≤ q by omega) with h | h
      · exact h
      · exfalso
        rw [← h] at hdet hpq
        have : p = 0 := by omega
        rw [this] at hdet
        omega
    have c1 : Nat.Coprime p.natAbs q.natAbs := by
      exact Int.isCoprime_iff_gcd_eq_one.1 (⟨-s, r, by linear_combination hdet⟩)
    have c2 : Nat.Coprime r.natAbs s.natAbs := by
      exact Int.isCoprime_iff_gcd_eq_one.1 (⟨q, -p, by linear_combination hdet⟩)
    have n1 := Rat.num_div_eq_of_coprime hq0 c1
    have d1 := Rat.den_div_eq_of_coprime hq0 c1
    have n2 := Rat.num_div_eq_of_coprime hs0 c2
    have d2 := Rat.den_div_eq_of_coprime hs0 c2
    refine ⟨(p / q : ℚ), (r / s : ℚ), ?_, by rw [n1, d1, n2, d2]; rfl⟩
    rw [mem_zip_tail_iff (farey_sorted m), mem_farey hm, mem_farey hm, d1, d2]
    have hqQ : (0 : ℚ) < q := by exact_mod_cast hq0
    have hsQ : (0 : ℚ) < s := by exact_mod_cast hs0
    have hpQ : (0 : ℚ) ≤ p := by exact_mod_cast hp0
    have hrQ : (0 : ℚ) ≤ r := by exact_mod_cast hr0.le
    refine ⟨⟨by positivity, by rw [div_le_one hqQ]; exact_mod_cast hpq, hqm⟩,
      ⟨by positivity, by rw [div_le_one hsQ]; exact_mod_cast hrs, hsm⟩, ?_, ?_⟩
    · rw [rat_lt_iff, n1, d1, n2, d2]
      linarith [mul_comm r q]
    · rintro c hc ⟨h1, h2⟩
      rw [mem_farey hm] at hc
      rw [rat_lt_iff, n1, d1] at h1
      rw [rat_lt_iff, n2, d2] at h2
      have := between_den hq0 hs0 hdet h1 h2
      omega

/-! ## C58 -/

theorem mem_uniqueRows (l : List (List ℤ)) (r : List ℤ) : r ∈ uniqueRows l ↔ r ∈ l := by
  unfold uniqueRows
  rw [Finset.mem_sort, List.mem_toFinset]

/-- The rows collected by `unimodular_matrices`. -/
theorem mem_rows {n : ℤ} (row : List ℤ) :
    row ∈ uniqueRows ((List.range n.toNat).map fun (i : ℕ) => farey_stack_ ((i : ℤ) + 1)).flatten ↔
    ∃ q p s r : ℤ, row = [q, p, s, r] ∧ q * r - p * s = 1 ∧ 0 ≤ p ∧ p ≤ q ∧ q ≤ n ∧ 0 < r ∧ r ≤ s ∧ s ≤ n := by
  rw [mem_uniqueRows, List.mem_flatten]
  constructor
  · rintro ⟨l, hl, hrow⟩
    rw [List.mem_map] at hl
    obtain ⟨i, hi, rfl⟩ := hl
    rw [List.mem_range] at hi
    rw [mem_farey_stack (by omega)] at hrow
    obtain ⟨q, p, s, r, e, h1, h2, h3, h4, h5, h6, h7, -⟩ := hrow
    exact ⟨q, p, s, r, e, h1, h2, h3, by omega, h5, h6, by omega⟩
  · rintro ⟨q, p, s, r, e, h1, h2, h3, h4, h5, h6, h7⟩
    have hq : 0 < q := by
      rcases lt_or_eq_of_le (show 0 ≤ q by omega) with h | h
      · exact h
      · exfalso
        rw [← h] at h1 h3
        have : p = 0 := by omega
        rw [this] at h1
        omega
    refine ⟨farey_stack_ (max q s), ?_, ?_⟩
    · rw [List.mem_map]
      refine ⟨(max q s - 1).toNat, ?_, ?_⟩
      · rw [List.mem_range]; omega
      · congr 1; omega
    · rw [mem_farey_stack (by omega)]
      exact ⟨q, p, s, r, e, h1, h2, h3, by omega, h5, h6, by omega, by omega⟩

/-- C58: for `n ≥ 2` the list consists of the identity and exactly the matrices `[[q, s], [p, r]]` of determinant 1 with
`0 ≤ p ≤ q ≤ n` and `0 < r ≤ s ≤ n`. -/
theorem C58_members (n : ℤ) (hn : 2 ≤ n) : ∃ l, unimodular_matrices n = .ok l ∧ ∀ M, M ∈ l ↔
    M = 1 ∨ ∃ p q r s : ℤ, M = !![q, s; p, r] ∧ q * r - p * s = 1 ∧ 0 ≤ p ∧ p ≤ q ∧ q ≤ n ∧ 0 < r ∧ r ≤ s ∧ s ≤ n := by
  refine ⟨_, by unfold unimodular_matrices; rw [if_neg (by omega)]; dsimp only; rw [if_neg (by omega)], fun M => ?_⟩
  rw [List.singleton_append, List.mem_cons, List.mem_map]
  refine or_congr_right ?_
  constructor
  · rintro ⟨row, hrow, rfl⟩
    rw [mem_rows] at hrow
    obtain ⟨q, p, s, r, rfl, h⟩ := hrow
    exact ⟨p, q, r, s, rfl, h⟩
  · rintro ⟨p, q, r, s, rfl, h⟩
    exact ⟨[q, p, s, r], (mem_rows _).2 ⟨q, p, s, r, rfl, h⟩, rfl⟩

/-- C58: for every `n ≥ 1` the matrices have determinant 1 and entries between 0 and `n`, and there are no duplicates; for
`n < 1` a `ValueError` is raised. -/
theorem C58_unimodular (n : ℤ) :
    (1 ≤ n → ∃ l, unimodular_matrices n = .ok l ∧ l.Nodup ∧
      ∀ M ∈ l, Matrix.det M = 1 ∧ ∀ i j, 0 ≤ M i j ∧ M i j ≤ n) ∧
    (n < 1 → ∃ msg, unimodular_matrices n = .error (.valueError msg)) := by
  have hone : 1 ≤ n → ∀ i j : Fin 2, 0 ≤ (1 : Matrix (Fin 2) (Fin 2) ℤ) i j ∧ (1 : Matrix (Fin 2) (Fin 2) ℤ) i j ≤ n := by
    intro hn i j
    fin_cases i <;> fin_cases j <;> simp <;> omega
  constructor
  · intro hn
    by_cases h1 : n = 1
    · refine ⟨[1], by unfold unimodular_matrices; rw [if_neg (by omega)]; dsimp only; rw [if_pos h1], List.nodup_singleton _, ?_⟩
      intro M hM
      rw [List.mem_singleton] at hM
      subst hM
      exact ⟨Matrix.det_one, hone hn⟩
    · obtain ⟨l, hl, hmem⟩ := C58_members n (by omega)
      refine ⟨l, hl, ?_, ?_⟩
      · have hl2 := hl
        unfold unimodular_matrices at hl2
        rw [if_neg (by omega)] at hl2
        dsimp only at hl2
        rw [if_neg h1] at hl2
        rw [← Except.ok.inj hl2, List.singleton_append, List.nodup_cons]
        constructor
        · rw [List.mem_map]
          rintro ⟨row, hrow, he⟩
          rw [mem_rows] at hrow
          obtain ⟨q, p, s, r, rfl, h1, h2, h3, h4, h5, h6, h7⟩ := hrow
          have := congrFun (congrFun he 0) 1
          simp [reshapeF] at this
          omega
        · refine List.Nodup.map_on ?_ (Finset.sort_nodup _ _)
          intro x hx y hy hxy
          have hx' := (mem_rows x).1 hx
          have hy' := (mem_rows y).1 hy
          obtain ⟨q, p, s, r, rfl, -⟩ := hx'
          obtain ⟨q', p', s', r', rfl, -⟩ := hy'
          have e00 := congrFun (congrFun hxy 0) 0
          have e01 := congrFun (congrFun hxy 0) 1
          have e10 := congrFun (congrFun hxy 1) 0
          have e11 := congrFun (congrFun hxy 1) 1
          simp [reshapeF] at e00 e01 e10 e11
          rw [e00, e01, e10, e11]
      · intro M hM
        rcases (hmem M).1 hM with rfl | ⟨p, q, r, s, rfl, h1, h2, h3, h4, h5, h6, h7⟩
        · exact ⟨Matrix.det_one, hone hn⟩
        · refine ⟨?_, ?_⟩
          · rw [Matrix.det_fin_two_of]
            linear_combination h1
          · intro i j
            fin_cases i <;> fin_cases j <;> simp <;> omega
  · intro hn
    exact ⟨_, by unfold unimodular_matrices; rw [if_pos hn]⟩

/-- A member of the list for `n = 3`: [[2, 3], [1, 2]]. -/
example : ∃ l, unimodular_matrices 3 = .ok l ∧ !![2, 3; 1, 2] ∈ l := by
  obtain ⟨l, h1, h2⟩ := C58_members 3 (by norm_num)
  exact ⟨l, h1, (h2 _).2 (Or.inr ⟨1, 2, 2, 3, rfl, by norm_num⟩)⟩
