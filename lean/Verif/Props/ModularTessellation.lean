import Verif.Props.Modular

/-!
# C102: the figures of `ModularTessellation.py` and `ModularTessellation_animation.py`, the theorems
-/

open Spec Real Classical Modular

namespace Modular

/-! ## The elements drawn -/

/-- The elements of `fam` and their opposites, for a matrix and the one with the opposite diagonal. -/
def Cov (m g : Matrix (Fin 2) (Fin 2) ℤ) : Prop := ∃ d ∈ fam m ++ fam (flip m), g = d ∨ g = -d

theorem cov_drawn (u : ℝ) {m g : Matrix (Fin 2) (Fin 2) ℤ} (hm : Matrix.det m = 1) (h : Cov m g) : ∃ d ∈ full m, K u d = K u g := by
  obtain ⟨d, hd, e⟩ := h
  have hd' : d ∈ full m := by
    unfold full
    rcases List.mem_append.1 hd with h | h <;> simp [h]
  refine ⟨d, hd', ?_⟩
  rcases e with rfl | rfl
  · rfl
  · rw [K_neg u (full_det hm hd')]

theorem tt : t * t = -1 := by
  unfold t
  ext i j
  fin_cases i <;> fin_cases j <;> simp

theorem ttm (m : Matrix (Fin 2) (Fin 2) ℤ) : t * (t * m) = -m := by rw [← Matrix.mul_assoc, tt]; simp

theorem mtt (m : Matrix (Fin 2) (Fin 2) ℤ) : m * t * t = -m := by rw [Matrix.mul_assoc, tt]; simp

theorem fam_left {m g : Matrix (Fin 2) (Fin 2) ℤ} (h : g ∈ fam m) : t * g ∈ fam m ∨ -(t * g) ∈ fam m := by
  unfold fam at *
  simp only [List.mem_cons, List.not_mem_nil, or_false] at *
  rcases h with rfl | rfl | rfl | rfl
  · left; simp
  · left; rw [← Matrix.mul_assoc]; simp
  · right; rw [ttm]; simp
  · right; rw [Matrix.mul_assoc, ttm]; simp

theorem fam_right {m g : Matrix (Fin 2) (Fin 2) ℤ} (h : g ∈ fam m) : g * t ∈ fam m ∨ -(g * t) ∈ fam m := by
  unfold fam at *
  simp only [List.mem_cons, List.not_mem_nil, or_false] at *
  rcases h with rfl | rfl | rfl | rfl
  · left; simp
  · right; rw [mtt]; simp
  · left; simp
  · right; rw [mtt]; simp

/-- Conjugation by the reflection. -/
def conj (g : Matrix (Fin 2) (Fin 2) ℤ) : Matrix (Fin 2) (Fin 2) ℤ := !![g 0 0, -g 0 1; -g 1 0, g 1 1]

theorem conj_conj (g : Matrix (Fin 2) (Fin 2) ℤ) : conj (conj g) = g := by
  unfold conj
  ext i j
  fin_cases i <;> fin_cases j <;> simp

theorem conj_neg (g : Matrix (Fin 2) (Fin 2) ℤ) : conj (-g) = -conj g := by
  unfold conj
  ext i j
  fin_cases i <;> fin_cases j <;> simp

theorem conj_mul (g h : Matrix (Fin 2) (Fin 2) ℤ) : conj (g * h) = conj g * conj h := by
  unfold conj
  ext i j
  fin_cases i <;> fin_cases j <;> simp [Matrix.mul_apply, Fin.sum_univ_two] <;> ring

theorem conj_t : conj t = -t := by
  unfold conj t
  ext i j
  fin_cases i <;> fin_cases j <;> simp

theorem conj_eq_flip (g : Matrix (Fin 2) (Fin 2) ℤ) : conj g = -flip g := by
  unfold conj flip
  ext i j
  fin_cases i <;> fin_cases j <;> simp

theorem flip_flip (g : Matrix (Fin 2) (Fin 2) ℤ) : flip (flip g) = g := by
  unfold flip
  ext i j
  fin_cases i <;> fin_cases j <;> simp

theorem fam_conj {m g : Matrix (Fin 2) (Fin 2) ℤ} (h : g ∈ fam m) : conj g ∈ fam (flip m) ∨ -conj g ∈ fam (flip m) := by
  unfold fam at *
  simp only [List.mem_cons, List.not_mem_nil, or_false] at *
  rcases h with rfl | rfl | rfl | rfl
  · right; rw [conj_eq_flip]; simp
  · left; rw [conj_mul, conj_t, conj_eq_flip]; simp
  · left; rw [conj_mul, conj_t, conj_eq_flip]; simp
  · right; rw [conj_mul, conj_mul, conj_t, conj_eq_flip]; simp

theorem Cov.neg {m g : Matrix (Fin 2) (Fin 2) ℤ} (h : Cov m g) : Cov m (-g) := by
  obtain ⟨d, hd, e⟩ := h
  refine ⟨d, hd, ?_⟩
  rcases e with rfl | rfl
  · exact Or.inr rfl
  · left; simp

theorem cov_of {m d : Matrix (Fin 2) (Fin 2) ℤ} (h : d ∈ fam m ++ fam (flip m) ∨ -d ∈ fam m ++ fam (flip m)) : Cov m d := by
  rcases h with h | h
  · exact ⟨d, h, Or.inl rfl⟩
  · exact ⟨-d, h, Or.inr (by simp)⟩

theorem Cov.left {m g : Matrix (Fin 2) (Fin 2) ℤ} (h : Cov m g) : Cov m (t * g) := by
  obtain ⟨d, hd, e⟩ := h
  have : Cov m (t * d) := by
    apply cov_of
    rcases List.mem_append.1 hd with h | h <;> rcases fam_left h with k | k <;> simp [k]
  rcases e with rfl | rfl
  · exact this
  · rw [Matrix.mul_neg]; exact this.neg

theorem Cov.right {m g : Matrix (Fin 2) (Fin 2) ℤ} (h : Cov m g) : Cov m (g * t) := by
  obtain ⟨d, hd, e⟩ := h
  have : Cov m (d * t) := by
    apply cov_of
    rcases List.mem_append.1 hd with h | h <;> rcases fam_right h with k | k <;> simp [k]
  rcases e with rfl | rfl
  · exact this
  · rw [Matrix.neg_mul]; exact this.neg

theorem Cov.conj {m g : Matrix (Fin 2) (Fin 2) ℤ} (h : Cov m g) : Cov m (Modular.conj g) := by
  obtain ⟨d, hd, e⟩ := h
  have : Cov m (Modular.conj d) := by
    apply cov_of
    rcases List.mem_append.1 hd with h | h
    · rcases fam_conj h with k | k <;> simp [k]
    · have k := fam_conj h
      rw [flip_flip] at k
      rcases k with k | k <;> simp [k]
  rcases e with rfl | rfl
  · exact this
  · rw [conj_neg]; exact this.neg

/-- Reduction to matrices with nonnegative entries, then to the list. -/
theorem cov_all {n : ℤ} {l : List (Matrix (Fin 2) (Fin 2) ℤ)} (hl : ∀ M, M ∈ l ↔
    M = 1 ∨ ∃ p q r s : ℤ, M = !![q, s; p, r] ∧ q * r - p * s = 1 ∧ 0 ≤ p ∧ p ≤ q ∧ q ≤ n ∧ 0 < r ∧ r ≤ s ∧ s ≤ n)
    {g : Matrix (Fin 2) (Fin 2) ℤ} (hg : ModularUpTo n g) : ∃ m ∈ l, Cov m g := by
  -- nonnegative entries, the first row above the second one
  have s1 : ∀ a b c d : ℤ, a * d - b * c = 1 → 0 ≤ c → c ≤ a → a ≤ n → 0 < d → d ≤ b → b ≤ n → ∃ m ∈ l, Cov m !![a, b; c, d] := by
    intro a b c d h1 h2 h3 h4 h5 h6 h7
    refine ⟨!![a, b; c, d], (hl _).2 (Or.inr ⟨c, a, d, b, rfl, by linarith, h2, h3, h4, h5, h6, h7⟩), cov_of (Or.inl ?_)⟩
    unfold fam; simp
  have stt : ∀ a b c d : ℤ, t * !![a, b; c, d] * t = !![-d, c; b, -a] := by
    intro a b c d
    unfold t
    ext i j
    fin_cases i <;> fin_cases j <;> simp
  have st : ∀ a b c d : ℤ, t * !![a, b; c, d] = !![-c, -d; a, b] := by
    intro a b c d
    unfold t
    ext i j
    fin_cases i <;> fin_cases j <;> simp
  -- nonnegative entries
  have s2 : ∀ a b c d : ℤ, a * d - b * c = 1 → 0 ≤ a → 0 ≤ b → 0 ≤ c → 0 ≤ d → a ≤ n → b ≤ n → c ≤ n → d ≤ n → ∃ m ∈ l, Cov m !![a, b; c, d] := by
    intro a b c d h1 ha hb hc hd na nb nc nd
    have had : 0 < a * d := by nlinarith
    have ha' : 0 < a := by rcases ha.lt_or_eq with h | h; exact h; rw [← h] at had; simp at had
    have hd' : 0 < d := by rcases hd.lt_or_eq with h | h; exact h; rw [← h] at had; simp at had
    by_cases k1 : c ≤ a
    · by_cases k2 : d ≤ b
      · exact s1 a b c d h1 hc k1 na hd' k2 nb
      · push Not at k2
        by_cases k3 : a ≤ c
        · obtain rfl := le_antisymm k1 k3
          have : c = 1 ∧ d - b = 1 := by
            have : c * (d - b) = 1 := by linarith
            rcases Int.eq_one_or_neg_one_of_mul_eq_one' this with h | h
            · exact h
            · omega
          obtain ⟨m, hm, hcov⟩ := s1 d c b c (by linarith) hb k2.le nd ha' (by omega) nc
          refine ⟨m, hm, ?_⟩
          have := hcov.conj.left.right.neg
          have e : -(t * Modular.conj !![d, c; b, c] * t) = !![c, b; c, d] := by
            unfold Modular.conj
            rw [stt]
            ext i j
            fin_cases i <;> fin_cases j <;> simp
          rwa [e] at this
        · push Not at k3
          -- the identity
          have : b = 0 ∧ c = 0 := by
            constructor
            · nlinarith [mul_nonneg hb hc, mul_le_mul (show b + 1 ≤ d by omega) (show c + 1 ≤ a by omega) (by omega) (by omega)]
            · nlinarith [mul_nonneg hb hc, mul_le_mul (show b + 1 ≤ d by omega) (show c + 1 ≤ a by omega) (by omega) (by omega)]
          obtain ⟨rfl, rfl⟩ := this
          have : a = 1 ∧ d = 1 := by
            rcases Int.eq_one_or_neg_one_of_mul_eq_one' (show a * d = 1 by linarith) with h | h
            · exact h
            · omega
          obtain ⟨rfl, rfl⟩ := this
          refine ⟨1, (hl _).2 (Or.inl rfl), cov_of (Or.inl ?_)⟩
          have : (!![1, 0; 0, 1] : Matrix (Fin 2) (Fin 2) ℤ) = 1 := by
            ext i j
            fin_cases i <;> fin_cases j <;> simp
          rw [this]
          unfold fam; simp
    · push Not at k1
      by_cases k2 : b ≤ d
      · obtain ⟨m, hm, hcov⟩ := s1 d c b a (by linarith) hb k2 nd ha' k1.le nc
        refine ⟨m, hm, ?_⟩
        have := hcov.conj.left.right.neg
        have e : -(t * Modular.conj !![d, c; b, a] * t) = !![a, b; c, d] := by
          unfold Modular.conj
          rw [stt]
          ext i j
          fin_cases i <;> fin_cases j <;> simp
        rwa [e] at this
      · push Not at k2
        exfalso
        nlinarith [mul_le_mul (show a + 1 ≤ c by omega) (show d + 1 ≤ b by omega) (by omega) (by omega)]
  have habs : ∀ x : ℤ, |x| ≤ n → x ≤ n ∧ -x ≤ n := by
    intro x hx; rw [abs_le] at hx; constructor <;> linarith [hx.1, hx.2]
  -- positive diagonal
  have s3 : ∀ a b c d : ℤ, a * d - b * c = 1 → 0 ≤ b * c → 0 < a → |a| ≤ n → |b| ≤ n → |c| ≤ n → |d| ≤ n → ∃ m ∈ l, Cov m !![a, b; c, d] := by
    intro a b c d h1 h2 h3 na nb nc nd
    have hd : 0 < d := by
      by_contra h
      push Not at h
      nlinarith [mul_nonneg h3.le (neg_nonneg.2 h)]
    by_cases k : 0 ≤ b ∧ 0 ≤ c
    · exact s2 a b c d h1 h3.le k.1 k.2 hd.le (habs a na).1 (habs b nb).1 (habs c nc).1 (habs d nd).1
    · have k' : b ≤ 0 ∧ c ≤ 0 := by
        by_contra h
        rw [not_and_or] at h k
        push Not at h k
        rcases k with k | k <;> rcases h with h | h
        · omega
        · nlinarith
        · nlinarith
        · omega
      obtain ⟨m, hm, hcov⟩ := s2 a (-b) (-c) d (by linarith) h3.le (by omega) (by omega) hd.le (habs a na).1 (habs b nb).2 (habs c nc).2 (habs d nd).1
      refine ⟨m, hm, ?_⟩
      have := hcov.conj
      have e : Modular.conj !![a, -b; -c, d] = !![a, b; c, d] := by
        unfold Modular.conj
        ext i j
        fin_cases i <;> fin_cases j <;> simp
      rwa [e] at this
  have s4 : ∀ a b c d : ℤ, a * d - b * c = 1 → 0 ≤ b * c → |a| ≤ n → |b| ≤ n → |c| ≤ n → |d| ≤ n → ∃ m ∈ l, Cov m !![a, b; c, d] := by
    intro a b c d h1 h2 na nb nc nd
    rcases lt_trichotomy a 0 with k | k | k
    · obtain ⟨m, hm, hcov⟩ := s3 (-a) (-b) (-c) (-d) (by linarith) (by linarith) (by omega) (by rwa [abs_neg]) (by rwa [abs_neg]) (by rwa [abs_neg])
        (by rwa [abs_neg])
      refine ⟨m, hm, ?_⟩
      have := hcov.neg
      have e : -!![-a, -b; -c, -d] = !![a, b; c, d] := by
        ext i j
        fin_cases i <;> fin_cases j <;> simp
      rwa [e] at this
    · rw [k] at h1; exfalso; linarith
    · exact s3 a b c d h1 h2 k na nb nc nd
  obtain ⟨hdet, hb⟩ := hg
  rw [Matrix.det_fin_two] at hdet
  rw [Matrix.eta_fin_two g]
  have n00 := hb 0 0
  have n01 := hb 0 1
  have n10 := hb 1 0
  have n11 := hb 1 1
  generalize g 0 0 = a at *
  generalize g 0 1 = b at *
  generalize g 1 0 = c at *
  generalize g 1 1 = d at *
  by_cases k : 0 ≤ b * c
  · exact s4 a b c d hdet k n00 n01 n10 n11
  · push Not at k
    obtain ⟨m, hm, hcov⟩ := s4 (-c) (-d) a b (by linarith) (by linarith) (by rwa [abs_neg]) (by rwa [abs_neg]) n00 n01
    refine ⟨m, hm, ?_⟩
    have := hcov.left.neg
    rw [st] at this
    have e : -!![-a, -b; -c, -d] = !![a, b; c, d] := by
      ext i j
      fin_cases i <;> fin_cases j <;> simp
    rwa [e] at this

/-- The entries of the elements drawn. -/
theorem full_bound {n : ℤ} {m : Matrix (Fin 2) (Fin 2) ℤ} (hm : ModularUpTo n m) {g : Matrix (Fin 2) (Fin 2) ℤ} (hg : g ∈ full m) : ModularUpTo n g := by
  refine ⟨full_det hm.1 hg, ?_⟩
  have hfam : ∀ m : Matrix (Fin 2) (Fin 2) ℤ, (∀ i j, |m i j| ≤ n) → ∀ g ∈ fam m, ∀ i j, |g i j| ≤ n := by
    intro m hm g hg i j
    have h00 := hm 0 0
    have h01 := hm 0 1
    have h10 := hm 1 0
    have h11 := hm 1 1
    unfold fam t at hg
    simp only [List.mem_cons, List.not_mem_nil, or_false] at hg
    rcases hg with rfl | rfl | rfl | rfl <;> fin_cases i <;> fin_cases j <;>
      simp [Matrix.mul_apply, Fin.sum_univ_two, Matrix.vecMul, dotProduct, *]
  have hinv : ∀ m : Matrix (Fin 2) (Fin 2) ℤ, (∀ i j, |m i j| ≤ n) → ∀ i j, |inv m i j| ≤ n := by
    intro m hm i j
    unfold inv
    fin_cases i <;> fin_cases j <;> simp [hm]
  have hflip : ∀ m : Matrix (Fin 2) (Fin 2) ℤ, (∀ i j, |m i j| ≤ n) → ∀ i j, |flip m i j| ≤ n := by
    intro m hm i j
    unfold flip
    fin_cases i <;> fin_cases j <;> simp [hm]
  unfold full at hg
  simp only [List.mem_append] at hg
  rcases hg with ((hg | hg) | hg) | hg
  · exact hfam _ hm.2 g hg
  · exact hfam _ (hinv _ hm.2) g hg
  · exact hfam _ (hflip _ hm.2) g hg
  · exact hfam _ (hinv _ (hflip _ hm.2)) g hg

theorem list_iff {n : ℤ} (hn : 2 ≤ n) {l : List (Matrix (Fin 2) (Fin 2) ℤ)} (hl : unimodular_matrices n = .ok l) (u : ℝ) (c : Circle) :
    (∃ m ∈ l, ∃ g ∈ full m, K u g = c) ↔ ∃ g, ModularUpTo n g ∧ IsDiscImage (modularMap u g) modularSeed c := by
  obtain ⟨l', hl', hmem⟩ := C58_members n hn
  obtain rfl : l = l' := Except.ok.inj (hl.symm.trans hl')
  obtain ⟨l', hl', -, hd⟩ := (C58_unimodular n).1 (by omega)
  obtain rfl : l = l' := Except.ok.inj (hl.symm.trans hl')
  constructor
  · rintro ⟨m, hm, g, hg, rfl⟩
    have h1 : ModularUpTo n m := ⟨(hd m hm).1, fun i j => by
      have := (hd m hm).2 i j
      rw [abs_le]; constructor <;> linarith [this.1, this.2]⟩
    have := full_bound h1 hg
    exact ⟨g, this, K_spec u this.1⟩
  · rintro ⟨g, hg, hc⟩
    obtain ⟨m, hm, hcov⟩ := cov_all hmem hg
    obtain ⟨d, hd', e⟩ := cov_drawn u (hd m hm).1 hcov
    exact ⟨m, hm, d, hd', e.trans ((K_eq u hg.1 c).1 hc)⟩

/-! ## The circles do not overlap -/

/-- A common point of the closed discs of `g` and of the identity. -/
theorem form_bound {a b c d x y X Y : ℝ} (hdet : a * d - b * c = 1) (h1 : a * x + b = (c * x + d) * X - c * y * Y) (h2 : a * y = (c * x + d) * Y + c * y * X)
    (hz : x ^ 2 + y ^ 2 + 2 ≤ 3 * y) (hw : X ^ 2 + Y ^ 2 + 2 ≤ 3 * Y) :
    ((1 + a ^ 2 + 2 * c ^ 2) * x + (a * b + 2 * c * d)) ^ 2 + ((1 + a ^ 2 + 2 * c ^ 2) * y - 3) ^ 2 + (2 * a ^ 2 + 2 * d ^ 2 + b ^ 2 + 4 * c ^ 2 - 5) ≤ 0 ∧
    (x ^ 2 + y ^ 2 + 2 < 3 * y →
      ((1 + a ^ 2 + 2 * c ^ 2) * x + (a * b + 2 * c * d)) ^ 2 + ((1 + a ^ 2 + 2 * c ^ 2) * y - 3) ^ 2 + (2 * a ^ 2 + 2 * d ^ 2 + b ^ 2 + 4 * c ^ 2 - 5) < 0) := by
  have e1 : ((c * x + d) ^ 2 + (c * y) ^ 2) * Y = y := by
    linear_combination (-(c * x + d)) * h2 + c * y * h1 + y * hdet
  have e2 : ((c * x + d) ^ 2 + (c * y) ^ 2) * (X ^ 2 + Y ^ 2) = (a * x + b) ^ 2 + (a * y) ^ 2 := by
    rw [h1, h2]; ring
  have hN : 0 ≤ (c * x + d) ^ 2 + (c * y) ^ 2 := by positivity
  have k : (a * x + b) ^ 2 + (a * y) ^ 2 + 2 * ((c * x + d) ^ 2 + (c * y) ^ 2) ≤ 3 * y := by
    have := mul_le_mul_of_nonneg_left hw hN
    nlinarith
  have hp : 0 < 1 + a ^ 2 + 2 * c ^ 2 := by positivity
  have id : ((1 + a ^ 2 + 2 * c ^ 2) * x + (a * b + 2 * c * d)) ^ 2 + ((1 + a ^ 2 + 2 * c ^ 2) * y - 3) ^ 2 +
      (2 * a ^ 2 + 2 * d ^ 2 + b ^ 2 + 4 * c ^ 2 - 5) =
      (1 + a ^ 2 + 2 * c ^ 2) * (((x ^ 2 + y ^ 2 + 2) - 3 * y) + ((a * x + b) ^ 2 + (a * y) ^ 2 + 2 * ((c * x + d) ^ 2 + (c * y) ^ 2) - 3 * y)) := by
    linear_combination (-2) * (a * d - b * c + 1) * hdet
  rw [id]
  constructor
  · exact mul_nonpos_of_nonneg_of_nonpos hp.le (by linarith)
  · intro h
    exact mul_neg_of_pos_of_neg hp (by linarith)

theorem seed_inside (P : Pt) : XPt.fin P ∈ (disc modularSeed).inside ↔ P.x ^ 2 + P.y ^ 2 + 2 < 3 * P.y := by
  rw [mem_disc_fin]
  unfold modularSeed sqDist
  dsimp only
  constructor <;> intro h <;> nlinarith

theorem seed_edge (P : Pt) : XPt.fin P ∈ (disc modularSeed).edge ↔ P.x ^ 2 + P.y ^ 2 + 2 = 3 * P.y := by
  rw [mem_edge_fin]
  unfold modularSeed sqDist
  dsimp only
  constructor <;> intro h <;> nlinarith

theorem map_mul (u : ℝ) (g h : Matrix (Fin 2) (Fin 2) ℤ) : modularMap u (g * h) = modularMap u g * h.map (fun k => (k : ℂ)) := by
  unfold modularMap
  rw [Matrix.mul_assoc _ (g.map _) _]
  congr 1
  ext i j
  simp [Matrix.mul_apply, Fin.sum_univ_two]

theorem mul_inv_mul {g h : Matrix (Fin 2) (Fin 2) ℤ} (hg : Matrix.det g = 1) : g * (inv g * h) = h := by
  rw [← Matrix.mul_assoc]
  have : g * inv g = 1 := by
    rw [Matrix.det_fin_two] at hg
    unfold inv
    ext i j
    fin_cases i <;> fin_cases j <;> simp [Matrix.mul_apply, Fin.sum_univ_two]
    · linear_combination hg
    · ring
    · ring
    · linear_combination hg
  rw [this, Matrix.one_mul]

/-- A point of the figure, seen from two elements of the group. -/
theorem two_views (u : ℝ) {g h : Matrix (Fin 2) (Fin 2) ℤ} (hg : Matrix.det g = 1) (hh : Matrix.det h = 1) {P Q X : XPt}
    (h1 : IsMobImage (modularMap u g 0 0) (modularMap u g 0 1) (modularMap u g 1 0) (modularMap u g 1 1) P X)
    (h2 : IsMobImage (modularMap u h 0 0) (modularMap u h 0 1) (modularMap u h 1 0) (modularMap u h 1 1) Q X) :
    IsMobImage ((inv g * h) 0 0) ((inv g * h) 0 1) ((inv g * h) 1 0) ((inv g * h) 1 1) Q P := by
  obtain ⟨k, hk⟩ : ∃ k, k = inv g * h := ⟨_, rfl⟩
  have hkd : Matrix.det k = 1 := by rw [hk]; exact det_mul_one (inv_det hg) hh
  have hgk : h = g * k := by rw [hk, mul_inv_mul hg]
  rw [← hk]
  have hkc : Matrix.det (k.map (fun k => (k : ℂ))) ≠ 0 := by
    rw [Matrix.det_fin_two]
    rw [Matrix.det_fin_two] at hkd
    simp only [Matrix.map_apply]
    have : ((k 0 0 : ℂ) * k 1 1 - k 0 1 * k 1 0) = 1 := by exact_mod_cast hkd
    rw [this]; exact one_ne_zero
  obtain ⟨Y, e1, i1⟩ := (⟨k.map (fun k => (k : ℂ))⟩ : Mobius).transform_spec ((det_ne_iff _).1 hkc) Q
  have hgc := map_det u hg
  obtain ⟨p, hp⟩ := C49_bijection ⟨modularMap u g⟩ hgc
  have i2 := (C49_transform ⟨modularMap u g⟩ hgc Y _).1 (hp Y)
  have i3 := mobImage_comp ((det_ne_iff _).1 hkc) ((det_ne_iff _).1 hgc) i1 i2
  have hhc := map_det u hh
  have eX : p Y = X := by
    refine mobImage_unique ((det_ne_iff _).1 hhc) ?_ h2
    rw [hgk, map_mul]
    simpa only [Matrix.mul_apply, Fin.sum_univ_two] using i3
  have eX' : p P = X := by
    have := (C49_transform ⟨modularMap u g⟩ hgc P X).2 h1
    rw [hp P] at this
    exact Except.ok.inj this
  have : Y = P := p.injective (eX.trans eX'.symm)
  rw [this] at i1
  exact i1

/-- The real equations of `two_views`. -/
theorem views_eq {a b c d : ℤ} {P Q : Pt} (h : IsMobImage (a : ℂ) b c d (.fin Q) (.fin P)) :
    (a : ℝ) * Q.x + b = (c * Q.x + d) * P.x - c * Q.y * P.y ∧ (a : ℝ) * Q.y = (c * Q.x + d) * P.y + c * Q.y * P.x := by
  unfold IsMobImage at h
  simp only [num_fin, den_fin, mul_one] at h
  have r := congrArg Complex.re h
  have i := congrArg Complex.im h
  simp [cpx] at r i
  constructor
  · linear_combination r
  · linear_combination i

/-- The elements with a small form. -/
theorem small_form {a b c d : ℤ} (hdet : a * d - b * c = 1) (h : 2 * a ^ 2 + 2 * d ^ 2 + b ^ 2 + 4 * c ^ 2 ≤ 5) :
    (b = 0 ∧ c = 0 ∧ (a = 1 ∧ d = 1 ∨ a = -1 ∧ d = -1)) ∨
    (2 * a ^ 2 + 2 * d ^ 2 + b ^ 2 + 4 * c ^ 2 = 5 ∧ (a = 0 ∧ d = 0 ∧ (b = 1 ∧ c = -1 ∨ b = -1 ∧ c = 1) ∨
      c = 0 ∧ (b = 1 ∨ b = -1) ∧ (a = 1 ∧ d = 1 ∨ a = -1 ∧ d = -1))) := by
  have ha : |a| ≤ 1 := by rw [abs_le]; constructor <;> nlinarith [sq_nonneg b, sq_nonneg c, sq_nonneg d]
  have hd : |d| ≤ 1 := by rw [abs_le]; constructor <;> nlinarith [sq_nonneg b, sq_nonneg c, sq_nonneg a]
  have hc : |c| ≤ 1 := by rw [abs_le]; constructor <;> nlinarith [sq_nonneg b, sq_nonneg a, sq_nonneg d]
  have hb : |b| ≤ 2 := by rw [abs_le]; constructor <;> nlinarith [sq_nonneg a, sq_nonneg c, sq_nonneg d]
  rw [abs_le] at ha hb hc hd
  obtain ⟨a1, a2⟩ := ha
  obtain ⟨b1, b2⟩ := hb
  obtain ⟨c1, c2⟩ := hc
  obtain ⟨d1, d2⟩ := hd
  interval_cases a <;> interval_cases d <;> interval_cases c <;> interval_cases b <;> simp_all

theorem image_points {u : ℝ} {g : Matrix (Fin 2) (Fin 2) ℤ} (hg : Matrix.det g = 1) {c : Circle} (hc : IsDiscImage (modularMap u g) modularSeed c) (X : XPt) :
    ∃ P, IsMobImage (modularMap u g 0 0) (modularMap u g 0 1) (modularMap u g 1 0) (modularMap u g 1 1) P X ∧
      (P ∈ (disc modularSeed).inside ↔ X ∈ (disc c).inside) ∧ (P ∈ (disc modularSeed).edge ↔ X ∈ (disc c).edge) := by
  have hgc := map_det u hg
  obtain ⟨p, hp⟩ := C49_bijection ⟨modularMap u g⟩ hgc
  obtain ⟨P, rfl⟩ := p.surjective X
  have hIm := (C49_transform ⟨modularMap u g⟩ hgc P _).1 (hp P)
  exact ⟨P, hIm, hc.2 P _ hIm⟩

theorem eq_of_form {g h : Matrix (Fin 2) (Fin 2) ℤ} (hg : Matrix.det g = 1) {a b c d : ℤ} (e : inv g * h = !![a, b; c, d]) : h = g * !![a, b; c, d] := by
  rw [← e, mul_inv_mul hg]

/-- Two closed discs with a common point: the form of `g⁻¹ h` is at most 5, and is less than 5 if the common point is inside. -/
theorem form_le {u : ℝ} {g h : Matrix (Fin 2) (Fin 2) ℤ} (hg : Matrix.det g = 1) (hh : Matrix.det h = 1) {c c' : Circle}
    (hc : IsDiscImage (modularMap u g) modularSeed c) (hc' : IsDiscImage (modularMap u h) modularSeed c') {X : XPt}
    (hX : X ∈ (disc c).inside ∨ X ∈ (disc c).edge) (hX' : X ∈ (disc c').inside ∨ X ∈ (disc c').edge) :
    ∃ Q : Pt, IsMobImage (modularMap u h 0 0) (modularMap u h 0 1) (modularMap u h 1 0) (modularMap u h 1 1) (.fin Q) X ∧
      ∃ a b p d : ℤ, inv g * h = !![a, b; p, d] ∧ a * d - b * p = 1 ∧
      (((1 + a ^ 2 + 2 * p ^ 2) * Q.x + (a * b + 2 * p * d)) ^ 2 + ((1 + a ^ 2 + 2 * p ^ 2) * Q.y - 3) ^ 2 +
        (2 * a ^ 2 + 2 * d ^ 2 + b ^ 2 + 4 * p ^ 2 - 5) : ℝ) ≤ 0 ∧
      (X ∈ (disc c').inside → (((1 + a ^ 2 + 2 * p ^ 2) * Q.x + (a * b + 2 * p * d)) ^ 2 + ((1 + a ^ 2 + 2 * p ^ 2) * Q.y - 3) ^ 2 +
        (2 * a ^ 2 + 2 * d ^ 2 + b ^ 2 + 4 * p ^ 2 - 5) : ℝ) < 0) := by
  obtain ⟨P, iP, k1, k2⟩ := image_points hg hc X
  obtain ⟨Q, iQ, k3, k4⟩ := image_points hh hc' X
  rw [← k1, ← k2] at hX
  rw [← k3, ← k4] at hX'
  have fin : ∀ Y : XPt, Y ∈ (disc modularSeed).inside ∨ Y ∈ (disc modularSeed).edge → ∃ P : Pt, Y = .fin P := by
    rintro Y (⟨P, e, -⟩ | ⟨P, e, -⟩) <;> exact ⟨P, e⟩
  obtain ⟨P, rfl⟩ := fin P hX
  obtain ⟨Q, rfl⟩ := fin Q hX'
  have iv := two_views u hg hh iP iQ
  have hkd : Matrix.det (inv g * h) = 1 := det_mul_one (inv_det hg) hh
  obtain ⟨k, hk⟩ : ∃ k, k = inv g * h := ⟨_, rfl⟩
  rw [← hk] at iv hkd
  rw [Matrix.det_fin_two] at hkd
  obtain ⟨v1, v2⟩ := views_eq iv
  rw [seed_inside, seed_edge] at hX hX'
  have hz : Q.x ^ 2 + Q.y ^ 2 + 2 ≤ 3 * Q.y := by rcases hX' with h | h <;> linarith
  have hw : P.x ^ 2 + P.y ^ 2 + 2 ≤ 3 * P.y := by rcases hX with h | h <;> linarith
  have hdet : (k 0 0 : ℝ) * k 1 1 - k 0 1 * k 1 0 = 1 := by exact_mod_cast hkd
  obtain ⟨f1, f2⟩ := form_bound hdet v1 v2 hz hw
  refine ⟨Q, iQ, k 0 0, k 0 1, k 1 0, k 1 1, ?_, hkd, f1, ?_⟩
  · rw [← hk]; exact Matrix.eta_fin_two k
  · intro h
    rw [← k3, seed_inside] at h
    exact f2 h

theorem form_int {a b p d : ℤ} {Q : Pt} (h : (((1 + a ^ 2 + 2 * p ^ 2) * Q.x + (a * b + 2 * p * d)) ^ 2 + ((1 + a ^ 2 + 2 * p ^ 2) * Q.y - 3) ^ 2 +
    (2 * a ^ 2 + 2 * d ^ 2 + b ^ 2 + 4 * p ^ 2 - 5) : ℝ) ≤ 0) : 2 * a ^ 2 + 2 * d ^ 2 + b ^ 2 + 4 * p ^ 2 ≤ 5 := by
  have : (2 * a ^ 2 + 2 * d ^ 2 + b ^ 2 + 4 * p ^ 2 : ℝ) ≤ 5 := by
    nlinarith [sq_nonneg ((1 + (a:ℝ) ^ 2 + 2 * p ^ 2) * Q.x + (a * b + 2 * p * d)), sq_nonneg ((1 + (a:ℝ) ^ 2 + 2 * p ^ 2) * Q.y - 3)]
  exact_mod_cast this

theorem form_int_lt {a b p d : ℤ} {Q : Pt} (h : (((1 + a ^ 2 + 2 * p ^ 2) * Q.x + (a * b + 2 * p * d)) ^ 2 + ((1 + a ^ 2 + 2 * p ^ 2) * Q.y - 3) ^ 2 +
    (2 * a ^ 2 + 2 * d ^ 2 + b ^ 2 + 4 * p ^ 2 - 5) : ℝ) < 0) : 2 * a ^ 2 + 2 * d ^ 2 + b ^ 2 + 4 * p ^ 2 < 5 := by
  have : (2 * a ^ 2 + 2 * d ^ 2 + b ^ 2 + 4 * p ^ 2 : ℝ) < 5 := by
    nlinarith [sq_nonneg ((1 + (a:ℝ) ^ 2 + 2 * p ^ 2) * Q.x + (a * b + 2 * p * d)), sq_nonneg ((1 + (a:ℝ) ^ 2 + 2 * p ^ 2) * Q.y - 3)]
  exact_mod_cast this

theorem mul_pm {g : Matrix (Fin 2) (Fin 2) ℤ} {a d : ℤ} (h : a = 1 ∧ d = 1 ∨ a = -1 ∧ d = -1) : g * !![a, 0; 0, d] = g ∨ g * !![a, 0; 0, d] = -g := by
  rcases h with ⟨rfl, rfl⟩ | ⟨rfl, rfl⟩
  · left
    have : (!![1, 0; 0, 1] : Matrix (Fin 2) (Fin 2) ℤ) = 1 := by ext i j; fin_cases i <;> fin_cases j <;> simp
    rw [this, Matrix.mul_one]
  · right
    have : (!![-1, 0; 0, -1] : Matrix (Fin 2) (Fin 2) ℤ) = -1 := by ext i j; fin_cases i <;> fin_cases j <;> simp
    rw [this, Matrix.mul_neg, Matrix.mul_one]

theorem same_circle {u : ℝ} {g h : Matrix (Fin 2) (Fin 2) ℤ} (hg : Matrix.det g = 1) {c c' : Circle}
    (hc : IsDiscImage (modularMap u g) modularSeed c) (hc' : IsDiscImage (modularMap u h) modularSeed c') (hs : h = g ∨ h = -g) : c = c' := by
  rcases hs with rfl | rfl
  · exact image_unique (map_det u hg) hc hc'
  · rw [map_neg] at hc'
    exact image_unique (map_det u hg) hc (image_neg hc')

end Modular

/-- C102: two elements of the modular group give the same circle if they are equal or opposite, and otherwise circles which do not overlap. -/
theorem C102_apart (u : ℝ) (g h : Matrix (Fin 2) (Fin 2) ℤ) (hg : Matrix.det g = 1) (hh : Matrix.det h = 1) (c c' : Circle)
    (hc : IsDiscImage (modularMap u g) modularSeed c) (hc' : IsDiscImage (modularMap u h) modularSeed c') :
    (h = g ∨ h = -g → c = c') ∧ (¬ (h = g ∨ h = -g) → (disc c).Apart (disc c')) := by
  refine ⟨same_circle hg hc hc', ?_⟩
  intro hne
  unfold Region.Apart
  rw [Set.disjoint_left]
  intro X hX hX'
  obtain ⟨Q, -, a, b, p, d, e, hdet, -, hlt⟩ := form_le hg hh hc hc' (Or.inl hX) (Or.inl hX')
  have h5 := form_int_lt (hlt hX')
  rcases small_form hdet h5.le with ⟨rfl, rfl, had⟩ | ⟨h5', -⟩
  · apply hne
    rw [eq_of_form hg e]
    exact mul_pm had
  · omega

/-- C102: the neighbours.  The circles of `g` and `h` touch at exactly one point iff `h = ± g T` or `h = ± g U` or `h = ± g U⁻¹`, with `T` the map
`z ↦ -1/z` and `U` the map `z ↦ z + 1`. -/
theorem C102_neighbours (u : ℝ) (g h : Matrix (Fin 2) (Fin 2) ℤ) (hg : Matrix.det g = 1) (hh : Matrix.det h = 1) (c c' : Circle)
    (hc : IsDiscImage (modularMap u g) modularSeed c) (hc' : IsDiscImage (modularMap u h) modularSeed c') :
    (disc c).Touches (disc c') ↔ ∃ k, (k = !![0, -1; 1, 0] ∨ k = !![1, 1; 0, 1] ∨ k = !![1, -1; 0, 1]) ∧ (h = g * k ∨ h = -(g * k)) := by
  constructor
  · rintro ⟨X, ⟨hX, hX'⟩, huniq⟩
    obtain ⟨Q, -, a, b, p, d, e, hdet, hle, -⟩ := form_le hg hh hc hc' (Or.inr hX) (Or.inr hX')
    have heq := eq_of_form hg e
    rcases small_form hdet (form_int hle) with ⟨rfl, rfl, had⟩ | ⟨-, h1 | h1⟩
    · -- the same circle
      exfalso
      have hcc := same_circle hg hc hc' (by rw [heq]; exact mul_pm had)
      subst hcc
      have hr := hc.1
      have p1 : XPt.fin ⟨c.center.x + c.radius, c.center.y⟩ ∈ (disc c).edge := by rw [mem_edge_fin]; unfold sqDist; simp
      have p2 : XPt.fin ⟨c.center.x - c.radius, c.center.y⟩ ∈ (disc c).edge := by rw [mem_edge_fin]; unfold sqDist; simp
      have := (huniq _ ⟨p1, p1⟩).trans (huniq _ ⟨p2, p2⟩).symm
      simp only [XPt.fin.injEq, Pt.mk.injEq] at this
      linarith [this.1]
    · obtain ⟨rfl, rfl, hbp⟩ := h1
      refine ⟨!![0, -1; 1, 0], Or.inl rfl, ?_⟩
      rcases hbp with ⟨rfl, rfl⟩ | ⟨rfl, rfl⟩
      · right
        rw [heq, ← Matrix.mul_neg]
        congr 1
        ext i j; fin_cases i <;> fin_cases j <;> simp
      · left; exact heq
    · obtain ⟨rfl, hb, had⟩ := h1
      rcases had with ⟨rfl, rfl⟩ | ⟨rfl, rfl⟩
      · rcases hb with rfl | rfl
        · exact ⟨_, Or.inr (Or.inl rfl), Or.inl heq⟩
        · exact ⟨_, Or.inr (Or.inr rfl), Or.inl heq⟩
      · rcases hb with rfl | rfl
        · refine ⟨_, Or.inr (Or.inr rfl), Or.inr ?_⟩
          rw [heq, ← Matrix.mul_neg]
          congr 1
          ext i j; fin_cases i <;> fin_cases j <;> simp
        · refine ⟨_, Or.inr (Or.inl rfl), Or.inr ?_⟩
          rw [heq, ← Matrix.mul_neg]
          congr 1
          ext i j; fin_cases i <;> fin_cases j <;> simp
  · rintro ⟨k, hk, hs⟩
    have hkd : Matrix.det k = 1 := by
      rcases hk with rfl | rfl | rfl <;> rw [Matrix.det_fin_two] <;> simp
    -- without loss of generality `h = g k`
    have hgk : Matrix.det (g * k) = 1 := det_mul_one hg hkd
    have hcK : IsDiscImage (modularMap u (g * k)) modularSeed c' := by
      rcases hs with rfl | rfl
      · exact hc'
      · rw [map_neg] at hc'; exact image_neg hc'
    -- the common point
    obtain ⟨P, Q, hP, hQ, hPQ⟩ : ∃ P Q : Pt, P.x ^ 2 + P.y ^ 2 + 2 = 3 * P.y ∧ Q.x ^ 2 + Q.y ^ 2 + 2 = 3 * Q.y ∧
        IsMobImage (k 0 0) (k 0 1) (k 1 0) (k 1 1) (.fin Q) (.fin P) := by
      rcases hk with rfl | rfl | rfl
      · refine ⟨⟨0, 1⟩, ⟨0, 1⟩, by norm_num, by norm_num, ?_⟩
        simp [IsMobImage, cpx, Complex.ext_iff]
      · refine ⟨⟨1 / 2, 3 / 2⟩, ⟨-1 / 2, 3 / 2⟩, by norm_num, by norm_num, ?_⟩
        simp [IsMobImage, cpx, Complex.ext_iff]; norm_num
      · refine ⟨⟨-1 / 2, 3 / 2⟩, ⟨1 / 2, 3 / 2⟩, by norm_num, by norm_num, ?_⟩
        simp [IsMobImage, cpx, Complex.ext_iff]; norm_num
    have hgc := map_det u hg
    obtain ⟨p, hp⟩ := C49_bijection ⟨modularMap u g⟩ hgc
    have i1 := (C49_transform ⟨modularMap u g⟩ hgc (.fin P) _).1 (hp (.fin P))
    have hkc : (k 0 0 : ℂ) * k 1 1 - k 0 1 * k 1 0 ≠ 0 := by
      rw [Matrix.det_fin_two] at hkd
      have : ((k 0 0 : ℂ) * k 1 1 - k 0 1 * k 1 0) = 1 := by exact_mod_cast hkd
      rw [this]; exact one_ne_zero
    have i2 := mobImage_comp hkc ((det_ne_iff _).1 hgc) hPQ i1
    have i2' : IsMobImage (modularMap u (g * k) 0 0) (modularMap u (g * k) 0 1) (modularMap u (g * k) 1 0) (modularMap u (g * k) 1 1) (.fin Q)
        (p (.fin P)) := by
      rw [map_mul]
      simpa only [Matrix.mul_apply, Fin.sum_univ_two, Matrix.map_apply] using i2
    refine ⟨p (.fin P), ⟨((hc.2 _ _ i1).2).1 ((seed_edge P).2 hP), ((hcK.2 _ _ i2').2).1 ((seed_edge Q).2 hQ)⟩, ?_⟩
    rintro Y ⟨hY, hY'⟩
    have key : ∀ X, X ∈ (disc c).edge → X ∈ (disc c').edge → ∃ Q : Pt,
        IsMobImage (modularMap u (g * k) 0 0) (modularMap u (g * k) 0 1) (modularMap u (g * k) 1 0) (modularMap u (g * k) 1 1) (.fin Q) X ∧
        (1 + (k 0 0 : ℝ) ^ 2 + 2 * k 1 0 ^ 2) * Q.x = -(k 0 0 * k 0 1 + 2 * k 1 0 * k 1 1) ∧ (1 + (k 0 0 : ℝ) ^ 2 + 2 * k 1 0 ^ 2) * Q.y = 3 := by
      intro X hX hX'
      obtain ⟨Q, iQ, a, b, q, d, e, hdet, hle, -⟩ := form_le hg hgk hc hcK (Or.inr hX) (Or.inr hX')
      have hk' : k = !![a, b; q, d] := by
        have : inv g * (g * k) = k := by
          rw [← Matrix.mul_assoc]
          have : inv g * g = 1 := by
            rw [Matrix.det_fin_two] at hg
            unfold Modular.inv
            ext i j
            fin_cases i <;> fin_cases j <;> simp [Matrix.mul_apply, Fin.sum_univ_two]
            · linear_combination hg
            · ring
            · ring
            · linear_combination hg
          rw [this, Matrix.one_mul]
        rw [← e, this]
      have h5 : (2 * a ^ 2 + 2 * d ^ 2 + b ^ 2 + 4 * q ^ 2 : ℝ) = 5 := by
        have : 2 * a ^ 2 + 2 * d ^ 2 + b ^ 2 + 4 * q ^ 2 = 5 := by
          have e00 : k 0 0 = a := by rw [hk']; rfl
          have e01 : k 0 1 = b := by rw [hk']; rfl
          have e10 : k 1 0 = q := by rw [hk']; rfl
          have e11 : k 1 1 = d := by rw [hk']; rfl
          rw [← e00, ← e01, ← e10, ← e11]
          rcases hk with rfl | rfl | rfl <;> simp
        exact_mod_cast this
      rw [h5, sub_self, add_zero] at hle
      refine ⟨Q, iQ, ?_⟩
      have e00 : k 0 0 = a := by rw [hk']; rfl
      have e01 : k 0 1 = b := by rw [hk']; rfl
      have e10 : k 1 0 = q := by rw [hk']; rfl
      have e11 : k 1 1 = d := by rw [hk']; rfl
      rw [e00, e01, e10, e11]
      have s1 := sq_nonneg ((1 + (a:ℝ) ^ 2 + 2 * q ^ 2) * Q.x + (a * b + 2 * q * d))
      have s2 := sq_nonneg ((1 + (a:ℝ) ^ 2 + 2 * q ^ 2) * Q.y - 3)
      have z1 := pow_eq_zero_iff two_ne_zero |>.1 (le_antisymm (by linarith) s1)
      have z2 := pow_eq_zero_iff two_ne_zero |>.1 (le_antisymm (by linarith) s2)
      exact ⟨by linarith, by linarith⟩
    obtain ⟨Q1, j1, x1, y1⟩ := key Y hY hY'
    obtain ⟨Q2, j2, x2, y2⟩ := key (p (.fin P)) (((hc.2 _ _ i1).2).1 ((seed_edge P).2 hP)) (((hcK.2 _ _ i2').2).1 ((seed_edge Q).2 hQ))
    have hpos : (1 + (k 0 0 : ℝ) ^ 2 + 2 * k 1 0 ^ 2) ≠ 0 := by positivity
    obtain rfl : Q1 = Q2 := by
      ext
      · exact mul_left_cancel₀ hpos (x1.trans x2.symm)
      · exact mul_left_cancel₀ hpos (y1.trans y2.symm)
    exact mobImage_unique ((det_ne_iff _).1 (map_det u hgk)) j1 j2

/-- C102: for `n ≥ 2`, any value of the parameter `u` and any function `eig` satisfying the contract of `np.linalg.eig` on the matrix of `R`, the script
`ModularTessellation.py` draws, without error, exactly the images of the first circle by the elements of the modular group with entries at most `n`. -/
theorem C102_figure (eig : Matrix (Fin 2) (Fin 2) ℂ → Mobius.Eig) (he : Mobius.IsEig R.M (eig R.M)) (n : ℤ) (hn : 2 ≤ n) (u : ℝ) :
    ∃ L, script eig n u = .ok L ∧ ∀ c, c ∈ L ↔ ∃ g, ModularUpTo n g ∧ IsDiscImage (modularMap u g) modularSeed c := by
  obtain ⟨l, hl, -, hd⟩ := (C58_unimodular n).1 (by omega)
  obtain ⟨L, e, hL⟩ := figure_eq eig he u l (fun m hm => (hd m hm).1)
  refine ⟨L, ?_, fun c => (hL c).trans (list_iff hn hl u c)⟩
  unfold script
  rw [TI_eq, Res.ok_bind, hl, Res.ok_bind, e]
  rfl

/-- C102: the figure is a packing of the unit disc: every circle drawn is inside the unit circle, without touching it, and two circles drawn are equal
or do not overlap. -/
theorem C102_packing (eig : Matrix (Fin 2) (Fin 2) ℂ → Mobius.Eig) (he : Mobius.IsEig R.M (eig R.M)) (n : ℤ) (u : ℝ) (L : List Circle)
    (h : script eig n u = .ok L) : (∀ c ∈ L, 0 < c.radius ∧ ∀ X, X ∈ (disc c).inside ∨ X ∈ (disc c).edge → X ∈ (disc unitCircle).inside) ∧
      ∀ c ∈ L, ∀ c' ∈ L, c = c' ∨ (disc c).Apart (disc c') := by
  by_cases hn : 1 ≤ n
  · obtain ⟨l, hl, -, hd⟩ := (C58_unimodular n).1 hn
    obtain ⟨L', e, hL⟩ := figure_eq eig he u l (fun m hm => (hd m hm).1)
    unfold script at h
    rw [TI_eq, Res.ok_bind, hl, Res.ok_bind, e] at h
    obtain rfl : L' = L := Except.ok.inj h
    have key : ∀ c ∈ L', ∃ g, Matrix.det g = 1 ∧ IsDiscImage (modularMap u g) modularSeed c := by
      intro c hc
      obtain ⟨m, hm, g, hg, rfl⟩ := (hL c).1 hc
      have := full_det (hd m hm).1 hg
      exact ⟨g, this, K_spec u this⟩
    constructor
    · intro c hc
      obtain ⟨g, hg, hi⟩ := key c hc
      refine ⟨hi.1, image_in_unit _ (real_det u hg) seed_upper.1 seed_upper.2 (map_eq_cay u g ▸ hi)⟩
    · intro c hc c' hc'
      obtain ⟨g, hg, hi⟩ := key c hc
      obtain ⟨g', hg', hi'⟩ := key c' hc'
      by_cases hs : g' = g ∨ g' = -g
      · exact Or.inl ((C102_apart u g g' hg hg' c c' hi hi').1 hs)
      · exact Or.inr ((C102_apart u g g' hg hg' c c' hi hi').2 hs)
  · obtain ⟨msg, hm⟩ := (C58_unimodular n).2 (by omega)
    unfold script at h
    rw [TI_eq, Res.ok_bind, hm] at h
    cases h

/-- C102: for `n = 1` only the first circle and its image by `T` are drawn, for `n < 1` a `ValueError` is raised. -/
theorem C102_small (eig : Matrix (Fin 2) (Fin 2) ℂ → Mobius.Eig) (he : Mobius.IsEig R.M (eig R.M)) (u : ℝ) :
    (∃ L, script eig 1 u = .ok L ∧ ∀ c, c ∈ L ↔ IsDiscImage (modularMap u 1) modularSeed c ∨ IsDiscImage (modularMap u !![0, -1; 1, 0]) modularSeed c) ∧
    ∀ n < 1, ∃ msg, script eig n u = .error (.valueError msg) := by
  constructor
  · have hl : unimodular_matrices 1 = .ok [1] := by unfold unimodular_matrices; rw [if_neg (by omega)]; dsimp only; rw [if_pos rfl]
    have h1 : Matrix.det (1 : Matrix (Fin 2) (Fin 2) ℤ) = 1 := Matrix.det_one
    obtain ⟨L, e, hL⟩ := figure_eq eig he u [1] (by simp)
    refine ⟨L, ?_, ?_⟩
    · unfold script
      rw [TI_eq, Res.ok_bind, hl, Res.ok_bind, e]
      rfl
    · intro c
      have ht : (!![0, -1; 1, 0] : Matrix (Fin 2) (Fin 2) ℤ) = Modular.t := rfl
      rw [hL c, K_eq u h1, ht, K_eq u t_det]
      have hinv : Modular.inv 1 = 1 := by unfold Modular.inv; ext i j; fin_cases i <;> fin_cases j <;> simp
      have hflip : Modular.flip 1 = -1 := by unfold Modular.flip; ext i j; fin_cases i <;> fin_cases j <;> simp
      have hinv' : Modular.inv (-1) = -1 := by unfold Modular.inv; ext i j; fin_cases i <;> fin_cases j <;> simp
      have k1 : K u (-1) = K u 1 := K_neg u h1
      have k2 : K u (-Modular.t) = K u Modular.t := K_neg u t_det
      simp only [List.mem_singleton, exists_eq_left, full, hinv, hflip, hinv', List.mem_append, fam, Matrix.one_mul, Matrix.mul_one, Matrix.neg_mul,
        Matrix.mul_neg, tt, neg_neg, List.mem_cons, List.not_mem_nil, or_false]
      constructor
      · rintro ⟨g, hg, rfl⟩
        rcases hg with ((hg | hg) | hg) | hg <;> rcases hg with rfl | rfl | rfl | rfl <;> simp [k1, k2]
      · rintro (h | h)
        · exact ⟨1, by simp, h⟩
        · exact ⟨Modular.t, by simp, h⟩
  · intro n hn
    obtain ⟨msg, hm⟩ := (C58_unimodular n).2 hn
    refine ⟨msg, ?_⟩
    unfold script
    rw [TI_eq, Res.ok_bind, hm]
    rfl

/-- Depth `0` and depth `-3` raise. -/
example (eig : Matrix (Fin 2) (Fin 2) ℂ → Mobius.Eig) (he : Mobius.IsEig R.M (eig R.M)) (u : ℝ) :
    (∃ msg, script eig 0 u = .error (.valueError msg)) ∧ ∃ msg, script eig (-3) u = .error (.valueError msg) :=
  ⟨(C102_small eig he u).2 0 (by norm_num), (C102_small eig he u).2 (-3) (by norm_num)⟩

/-- C102: the animation.  Although each frame leaves the arrays changed for the next one, every frame of `ModularTessellation_animation.py` contains
exactly the circles that the script draws with the same parameter. -/
theorem C102_animation (eig : Matrix (Fin 2) (Fin 2) ℂ → Mobius.Eig) (he : Mobius.IsEig R.M (eig R.M)) (n : ℤ) (hn : 2 ≤ n) (us : List ℝ) :
    ∃ Ls, animation eig n us = .ok Ls ∧
      List.Forall₂ (fun u L => ∀ c, c ∈ L ↔ ∃ g, ModularUpTo n g ∧ IsDiscImage (modularMap u g) modularSeed c) us Ls := by
  obtain ⟨l, hl, -, hd⟩ := (C58_unimodular n).1 (by omega)
  obtain ⟨ls, e, hls⟩ := frames_eq eig he us l (fun m hm => (hd m hm).1)
  refine ⟨ls, ?_, hls.imp fun u L h c => (h c).trans (list_iff hn hl u c)⟩
  unfold animation
  rw [TI_eq, Res.ok_bind, hl, Res.ok_bind, e]

/-- Three frames are drawn for three shifts. -/
example (eig : Matrix (Fin 2) (Fin 2) ℂ → Mobius.Eig) (he : Mobius.IsEig R.M (eig R.M)) :
    ∃ Ls, animation eig 6 [0, 1 / 2, 1] = .ok Ls ∧ Ls.length = 3 := by
  obtain ⟨Ls, h1, h2⟩ := C102_animation eig he 6 (by norm_num) [0, 1 / 2, 1]
  exact ⟨Ls, h1, by rw [← h2.length_eq]; rfl⟩

/-- C102: the motion between the frames.  The matrices form a group of rotations around `exp(2πi/3)`; the frame `0` is not rotated, the frame `1` is
rotated by `z ↦ -1/(z+1)`, and the frames `u` and `u + 3` contain the same circles. -/
theorem C102_rotation : (∀ u v, modularRot (u + v) = modularRot u * modularRot v) ∧ modularRot 0 = 1 ∧ modularRot 1 = !![0, -1; 1, 1] ∧
    (∀ u, Matrix.det (modularRot u) = 1) ∧
    (∀ u, IsMobImage (modularRot u 0 0) (modularRot u 0 1) (modularRot u 1 0) (modularRot u 1 1) (.fin ⟨cos (2 * π / 3), sin (2 * π / 3)⟩)
      (.fin ⟨cos (2 * π / 3), sin (2 * π / 3)⟩)) ∧
    ∀ u g c, IsDiscImage (modularMap (u + 3) g) modularSeed c ↔ IsDiscImage (modularMap u g) modularSeed c := by
  refine ⟨rot_add, rot_zero, rot_one, rot_det, ?_, ?_⟩
  · intro u
    obtain ⟨a, b, e, -⟩ := rot_entries u
    have hc : cos (2 * π / 3) = -1 / 2 := by
      rw [show 2 * π / 3 = π - π / 3 by ring, cos_pi_sub, cos_pi_div_three]; norm_num
    have hs : sin (2 * π / 3) = √3 / 2 := by
      rw [show 2 * π / 3 = π - π / 3 by ring, sin_pi_sub, sin_pi_div_three]
    have h3 : √3 ^ 2 = 3 := Real.sq_sqrt (by norm_num)
    rw [hc, hs, e]
    unfold IsMobImage
    simp only [num_fin, den_fin, mul_one, Matrix.of_apply, Matrix.cons_val', Matrix.cons_val_zero, Matrix.cons_val_one, Matrix.cons_val_fin_one]
    apply Complex.ext
    · simp [cpx]
      linear_combination (b / 4) * h3
    · simp [cpx]
      ring
  · intro u g c
    have : modularMap (u + 3) g = -modularMap u g := by
      unfold modularMap
      rw [rot_add, rot_three]
      have : (modularRot u * -1).map (fun x : ℝ => (x : ℂ)) = -((modularRot u).map fun x : ℝ => (x : ℂ)) := by
        ext i j; simp
      rw [this]
      simp only [Matrix.neg_mul, Matrix.mul_neg]
    rw [this]
    constructor
    · exact image_neg
    · intro h; apply image_neg; rw [neg_neg]; exact h

/-- The script as it stands, `n = 8` and `u = 1`: the circle with diameter from `i` to `2i`, moved by `z ↦ -1/(z+1)` and to the unit disc, is drawn, and
so is its image by `z ↦ (8 z - 1) / z`, and these two do not overlap. -/
example (eig : Matrix (Fin 2) (Fin 2) ℂ → Mobius.Eig) (he : Mobius.IsEig R.M (eig R.M)) : ∃ L, script eig 8 1 = .ok L ∧ ∃ c ∈ L, ∃ c' ∈ L,
    IsDiscImage (modularMap 1 1) modularSeed c ∧ IsDiscImage (modularMap 1 !![8, -1; 1, 0]) modularSeed c' ∧ (disc c).Apart (disc c') ∧
    ¬ (disc c).Touches (disc c') := by
  obtain ⟨L, hL, hm⟩ := C102_figure eig he 8 (by norm_num) 1
  have d1 : Matrix.det (1 : Matrix (Fin 2) (Fin 2) ℤ) = 1 := Matrix.det_one
  have d2 : Matrix.det (!![8, -1; 1, 0] : Matrix (Fin 2) (Fin 2) ℤ) = 1 := by rw [Matrix.det_fin_two]; simp
  have u1 : ModularUpTo 8 1 := ⟨d1, fun i j => by fin_cases i <;> fin_cases j <;> simp⟩
  have u2 : ModularUpTo 8 !![8, -1; 1, 0] := ⟨d2, fun i j => by fin_cases i <;> fin_cases j <;> simp⟩
  refine ⟨L, hL, K 1 1, (hm _).2 ⟨_, u1, K_spec 1 d1⟩, K 1 !![8, -1; 1, 0], (hm _).2 ⟨_, u2, K_spec 1 d2⟩, K_spec 1 d1, K_spec 1 d2, ?_, ?_⟩
  · refine (C102_apart 1 _ _ d1 d2 _ _ (K_spec 1 d1) (K_spec 1 d2)).2 ?_
    rintro (h | h)
    · have := congrFun (congrFun h 0) 0; simp at this
    · have := congrFun (congrFun h 0) 0; simp at this
  · rw [C102_neighbours 1 _ _ d1 d2 _ _ (K_spec 1 d1) (K_spec 1 d2)]
    rintro ⟨k, hk, hs⟩
    rw [Matrix.one_mul] at hs
    rcases hs with hs | hs <;> rcases hk with rfl | rfl | rfl <;> (have := congrFun (congrFun hs 0) 0; simp at this)

/-- The contract of `np.linalg.eig` can be satisfied: eigenvalues `exp(±iπ/3)`, eigenvectors `(1, -λ)/√2`. -/
example : ∃ e : Mobius.Eig, Mobius.IsEig R.M e := by
  have h3 : √3 ^ 2 = 3 := Real.sq_sqrt (by norm_num)
  have h2 : √2 ^ 2 = 2 := Real.sq_sqrt (by norm_num)
  have h3' : ((√3 : ℝ) : ℂ) ^ 2 = 3 := by exact_mod_cast h3
  have hI : Complex.I ^ 2 = -1 := Complex.I_sq
  obtain ⟨l, hl⟩ : ∃ l : ℂ, l = ⟨1 / 2, √3 / 2⟩ := ⟨_, rfl⟩
  have q : l * l - l + 1 = 0 := by
    rw [hl]
    apply Complex.ext
    · simp; linear_combination (-1 / 4 : ℝ) * h3
    · simp; ring
  have n1 : Complex.normSq l = 1 := by rw [hl, Complex.normSq_apply]; dsimp only; linear_combination (1 / 4 : ℝ) * h3
  have n2 : Complex.normSq (1 - l) = 1 := by
    rw [hl, Complex.normSq_apply]; simp; linear_combination (1 / 4 : ℝ) * h3
  have s2 : Complex.normSq (((√2 : ℝ) : ℂ)⁻¹) = 1 / 2 := by
    rw [Complex.normSq_inv, Complex.normSq_ofReal, ← pow_two, h2]; norm_num
  refine ⟨⟨l, 1 - l, !![((√2 : ℝ) : ℂ)⁻¹, ((√2 : ℝ) : ℂ)⁻¹; ((√2 : ℝ) : ℂ)⁻¹ * -l, ((√2 : ℝ) : ℂ)⁻¹ * -(1 - l)]⟩, ?_⟩
  rw [R_M]
  refine { tr := ?_, det := ?_, eig := ?_, unit0 := ?_, unit1 := ?_ }
  · simp
  · simp; linear_combination -q
  · ext i j
    fin_cases i <;> fin_cases j <;> simp
    · ring
    · linear_combination ((√2 : ℝ) : ℂ)⁻¹ * q
    · linear_combination ((√2 : ℝ) : ℂ)⁻¹ * q
  · rw [← Complex.normSq_eq_norm_sq, ← Complex.normSq_eq_norm_sq]
    show Complex.normSq (((√2 : ℝ) : ℂ)⁻¹) + Complex.normSq (((√2 : ℝ) : ℂ)⁻¹ * -l) = 1
    rw [Complex.normSq_mul, Complex.normSq_neg, n1, s2]; norm_num
  · rw [← Complex.normSq_eq_norm_sq, ← Complex.normSq_eq_norm_sq]
    show Complex.normSq (((√2 : ℝ) : ℂ)⁻¹) + Complex.normSq (((√2 : ℝ) : ℂ)⁻¹ * -(1 - l)) = 1
    rw [Complex.normSq_mul, Complex.normSq_neg, n2, s2]; norm_num
