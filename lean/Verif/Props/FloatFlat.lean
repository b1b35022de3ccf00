import Verif.Props.FloatTriangle

/-!
# C90: `Triangle.flatness` and `collinear_` in double precision
-/

open Spec Real Classical FG

namespace FG

theorem le_of_sq {a b : ℝ} (hb : 0 ≤ b) (h : a ^ 2 ≤ b ^ 2) : a ≤ b := by
  by_contra hc
  push Not at hc
  nlinarith

/-- The rounded sum of two rounded products. -/
theorem sum_err {P Q p q L : ℝ} (hP : IsDouble P) (hQ : IsDouble Q) (e1 : |P - p| ≤ 7 / 2 / 2 ^ 53 * |p| + tiny)
    (e2 : |Q - q| ≤ 7 / 2 / 2 ^ 53 * |q| + tiny) (hL : |p| + |q| ≤ L) : |fl (P + Q) - (p + q)| ≤ 5 / 2 ^ 53 * L + 3 * tiny := by
  have e3 := fl_add_err hP hQ
  have ht := tiny_pos
  have h1 : |P + Q| ≤ |P - p| + |Q - q| + (|p| + |q|) := by
    have : P + Q = (P - p) + (Q - q) + (p + q) := by ring
    rw [this]
    exact (abs_add_le _ _).trans (add_le_add (abs_add_le _ _) (abs_add_le _ _))
  have h2 : |fl (P + Q) - (p + q)| ≤ |fl (P + Q) - (P + Q)| + (|P - p| + |Q - q|) := by
    have : fl (P + Q) - (p + q) = (fl (P + Q) - (P + Q)) + ((P - p) + (Q - q)) := by ring
    rw [this]
    exact (abs_add_le _ _).trans (by gcongr; exact abs_add_le _ _)
  have hp := abs_nonneg p
  have hq := abs_nonneg q
  norm_num at e1 e2 e3 ⊢
  linarith

/-- Sums of absolute values of products are bounded by the product of the lengths. -/
theorem abs_cs {a b c d L : ℝ} (hL : 0 ≤ L) (h : L ^ 2 = (a ^ 2 + b ^ 2) * (c ^ 2 + d ^ 2)) : |a * c| + |b * d| ≤ L := by
  refine le_of_sq hL ?_
  rw [h, abs_mul, abs_mul]
  have := sq_nonneg (|a| * |d| - |b| * |c|)
  have ha := sq_abs a
  have hb := sq_abs b
  have hc := sq_abs c
  have hd := sq_abs d
  rw [← ha, ← hb, ← hc, ← hd]
  nlinarith

/-- The computed real and imaginary parts. -/
theorem reim_err {A B C : Pt} (hA : DoublePt A) (hB : DoublePt B) (hC : DoublePt C) {L : ℝ} (hL0 : 0 ≤ L)
    (hL : L ^ 2 = sqDist A B * sqDist A C) :
    |reF (subF B A) (subF C A) - dot (B - A) (C - A)| ≤ 5 / 2 ^ 53 * L + 3 * tiny ∧
    |imF (subF B A) (subF C A) - cross (B - A) (C - A)| ≤ 5 / 2 ^ 53 * L + 3 * tiny := by
  obtain ⟨a1, a2⟩ := hA
  obtain ⟨b1, b2⟩ := hB
  obtain ⟨c1, c2⟩ := hC
  have e1 := prod_err b1 a1 c1 a1
  have e2 := prod_err b2 a2 c2 a2
  have e3 := prod_err b1 a1 c2 a2
  have e4 := prod_err b2 a2 c1 a1
  unfold sqDist at hL
  unfold reF imF subF dot cross
  simp only [Pt.sub_x, Pt.sub_y]
  have n1 : ∀ x y : ℝ, fl (-x * y) = -fl (x * y) := fun x y => by rw [neg_mul, fl_neg]
  rw [n1, n1, sub_neg_eq_add]
  constructor
  · refine sum_err (fl_isDouble _) (fl_isDouble _) e1 e2 (abs_cs hL0 ?_)
    rw [hL]; ring
  · have e4' : |-fl (fl (B.y - A.y) * fl (C.x - A.x)) - -((B.y - A.y) * (C.x - A.x))| ≤
        7 / 2 / 2 ^ 53 * |-((B.y - A.y) * (C.x - A.x))| + tiny := by
      rw [abs_neg, ← abs_neg, neg_sub, sub_neg_eq_add, add_comm, ← sub_eq_add_neg]
      exact e4
    have := sum_err (fl_isDouble _) (isDouble_neg (fl_isDouble _)) e3 e4' (L := L) (by
      rw [abs_neg]
      refine abs_cs hL0 ?_
      rw [hL]; ring)
    rwa [← sub_eq_add_neg ((B.x - A.x) * (C.y - A.y))] at this

/-- The quotient computed from the rounded real and imaginary parts. -/
noncomputable def quot (re im : ℝ) : Option ℝ :=
  if fl (fl (re * re) + fl (im * im)) = 0 then none else some (fl (fl (re * re) / fl (fl (re * re) + fl (im * im))))

theorem flatF_quot (A B C : Pt) : flatF A B C = quot (reF (subF B A) (subF C A)) (imF (subF B A) (subF C A)) := rfl

theorem isDouble_one : IsDouble 1 := by simpa using isDouble_int (n := 1) (by norm_num)

/-- The quotient is between 0 and 1. -/
theorem quot_mem (re im f : ℝ) (h : quot re im = some f) : 0 ≤ f ∧ f ≤ 1 := by
  unfold quot at h
  split_ifs at h with h0
  rw [Option.some.injEq] at h
  have hr : 0 ≤ fl (re * re) := fl_nonneg (mul_self_nonneg _)
  have hi : 0 ≤ fl (im * im) := fl_nonneg (mul_self_nonneg _)
  have hd : 0 ≤ fl (fl (re * re) + fl (im * im)) := fl_nonneg (add_nonneg hr hi)
  have hd' : 0 < fl (fl (re * re) + fl (im * im)) := lt_of_le_of_ne hd (Ne.symm h0)
  have hle : fl (re * re) ≤ fl (fl (re * re) + fl (im * im)) := by
    have := fl_mono (show fl (re * re) ≤ fl (re * re) + fl (im * im) by linarith)
    rwa [fl_fl] at this
  rw [← h]
  refine ⟨fl_nonneg (div_nonneg hr hd), ?_⟩
  have := fl_mono ((div_le_one hd').2 hle)
  rwa [fl_double isDouble_one] at this

/-- When the imaginary part is absorbed the quotient is 1. -/
theorem quot_one {re im : ℝ} (h0 : 0 < fl (re * re)) (h : fl (im * im) ≤ fl (re * re) / 2 ^ 54) : quot re im = some 1 := by
  have := fl_absorb (fl_isDouble _) h0 (fl_nonneg (mul_self_nonneg im)) h
  unfold quot
  rw [this, if_neg h0.ne', div_self h0.ne', fl_double isDouble_one]

/-- When the quotient is 1 the imaginary part is small. -/
theorem quot_small {re im : ℝ} (h : quot re im = some 1) : fl (im * im) ≤ fl (re * re) / 2 ^ 51 := by
  unfold quot at h
  split_ifs at h with h0
  rw [Option.some.injEq] at h
  have hr : 0 ≤ fl (re * re) := fl_nonneg (mul_self_nonneg _)
  have hi : 0 ≤ fl (im * im) := fl_nonneg (mul_self_nonneg _)
  have hd : 0 ≤ fl (fl (re * re) + fl (im * im)) := fl_nonneg (add_nonneg hr hi)
  have hd' : 0 < fl (fl (re * re) + fl (im * im)) := lt_of_le_of_ne hd (Ne.symm h0)
  have ea := fl_add_err (fl_isDouble (re * re)) (fl_isDouble (im * im))
  generalize fl (re * re) = r at *
  generalize fl (im * im) = i at *
  generalize fl (r + i) = d at *
  have eq := fl_err' (r / d)
  rw [h, abs_of_nonneg (div_nonneg hr hd)] at eq
  have eq := (abs_le.1 eq).2
  have htt : tiny ≤ 1 / 2 ^ 60 := by
    unfold tiny
    rw [one_div, ← zpow_natCast, ← zpow_neg]
    exact zpow_le_zpow_right₀ (by norm_num) (by norm_num)
  have hq : 1 - 1 / 2 ^ 52 - 1 / 2 ^ 58 ≤ r / d := by
    norm_num at *
    linarith
  rw [le_div_iff₀ hd'] at hq
  rw [abs_of_nonneg (add_nonneg hr hi)] at ea
  have ea := (abs_le.1 ea).1
  norm_num at *
  linarith

/-- The squares, rounded. -/
theorem sq_err (x : ℝ) : |fl (x * x) - x ^ 2| ≤ x ^ 2 / 2 ^ 53 + tiny := by
  have := fl_err' (x * x)
  rw [abs_of_nonneg (mul_self_nonneg x)] at this
  rwa [← sq] at this ⊢

/-- The test of flatness on approximate values `re` of `D` and `im` of `X`. -/
theorem quot_test {re im D X L : ℝ} (hL : 0 < L) (hDX : D ^ 2 + X ^ 2 = L ^ 2) (h1 : |re - D| ≤ 6 / 2 ^ 53 * L)
    (h2 : |im - X| ≤ 6 / 2 ^ 53 * L) (ht : tiny ≤ L ^ 2 / 2 ^ 100) :
    (|X| ≤ L / 2 ^ 28 → quot re im = some 1) ∧ (quot re im = some 1 → |X| ≤ L / 2 ^ 25) ∧ quot re im ≠ none := by
  have er := abs_le.1 (sq_err re)
  have ei := abs_le.1 (sq_err im)
  have ht0 := tiny_pos
  have hL2 : 0 < L ^ 2 := by positivity
  have hr : 0 ≤ fl (re * re) := fl_nonneg (mul_self_nonneg _)
  have hi : 0 ≤ fl (im * im) := fl_nonneg (mul_self_nonneg _)
  refine ⟨fun hX => ?_, fun h => ?_, fun h => ?_⟩
  · have hX2 : X ^ 2 ≤ (L / 2 ^ 28) ^ 2 := by rw [← sq_abs]; gcongr
    have hD : L * (1 - 1 / 2 ^ 56) ≤ |D| := by
      refine le_of_sq (abs_nonneg _) ?_
      rw [sq_abs]
      norm_num at *
      nlinarith
    have hre : L * (1 - 1 / 2 ^ 50) ≤ |re| := by
      have := abs_sub_abs_le_abs_sub D re
      rw [abs_sub_comm D re] at this
      norm_num at *
      linarith
    have hre2 : (L * (1 - 1 / 2 ^ 50)) ^ 2 ≤ re ^ 2 := by
      rw [← sq_abs re]
      have : 0 ≤ L * (1 - 1 / 2 ^ 50) := by norm_num; linarith
      gcongr
    have him : |im| ≤ L * (1 / 2 ^ 28 + 6 / 2 ^ 53) := by
      have := abs_sub_abs_le_abs_sub im X
      norm_num at *
      linarith
    have him2 : im ^ 2 ≤ (L * (1 / 2 ^ 28 + 6 / 2 ^ 53)) ^ 2 := by
      rw [← sq_abs im]; gcongr
    rw [mul_pow] at hre2 him2
    have hrlow : L ^ 2 * (1 - 1 / 2 ^ 48) ≤ fl (re * re) := by
      norm_num at *
      linarith
    have hihigh : fl (im * im) ≤ L ^ 2 / 2 ^ 55 := by
      norm_num at *
      linarith
    apply quot_one
    · norm_num at *
      linarith
    · norm_num at *
      linarith
  · have hs := quot_small h
    have hD : |D| ≤ L := by
      refine le_of_sq hL.le ?_
      rw [sq_abs]
      nlinarith [sq_nonneg X]
    have hre : |re| ≤ L * (1 + 6 / 2 ^ 53) := by
      have := abs_sub_abs_le_abs_sub re D
      norm_num at *
      linarith
    have hre2 : re ^ 2 ≤ (L * (1 + 6 / 2 ^ 53)) ^ 2 := by
      rw [← sq_abs re]; gcongr
    rw [mul_pow] at hre2
    have him2 : im ^ 2 ≤ (L * (3 / 4 / 2 ^ 25)) ^ 2 := by
      rw [mul_pow]
      norm_num at *
      linarith
    have him : |im| ≤ L * (3 / 4 / 2 ^ 25) := by
      refine le_of_sq (by positivity) ?_
      rwa [sq_abs]
    have := abs_sub_abs_le_abs_sub X im
    rw [abs_sub_comm X im] at this
    norm_num at *
    linarith
  · unfold quot at h
    split_ifs at h with h0
    have ea := fl_add_err (fl_isDouble (re * re)) (fl_isDouble (im * im))
    rw [h0, zero_sub, abs_neg, abs_of_nonneg (add_nonneg hr hi)] at ea
    have hz : fl (re * re) + fl (im * im) = 0 := by
      norm_num at ea
      linarith
    have hr0 : fl (re * re) = 0 := by linarith
    have hi0 : fl (im * im) = 0 := by linarith
    rw [hr0] at er
    rw [hi0] at ei
    have r2 : re ^ 2 ≤ L ^ 2 / 2 ^ 90 := by norm_num at *; linarith
    have i2 : im ^ 2 ≤ L ^ 2 / 2 ^ 90 := by norm_num at *; linarith
    have r1 : |re| ≤ L / 2 ^ 45 := by
      refine le_of_sq (by positivity) ?_
      rw [sq_abs, div_pow]; norm_num at *; linarith
    have i1 : |im| ≤ L / 2 ^ 45 := by
      refine le_of_sq (by positivity) ?_
      rw [sq_abs, div_pow]; norm_num at *; linarith
    have d1 : |D| ≤ L / 2 := by
      have := abs_sub_abs_le_abs_sub D re
      rw [abs_sub_comm D re] at this
      norm_num at *; linarith
    have x1 : |X| ≤ L / 2 := by
      have := abs_sub_abs_le_abs_sub X im
      rw [abs_sub_comm X im] at this
      norm_num at *; linarith
    have d2 : D ^ 2 ≤ (L / 2) ^ 2 := by rw [← sq_abs]; gcongr
    have x2 : X ^ 2 ≤ (L / 2) ^ 2 := by rw [← sq_abs]; gcongr
    nlinarith

theorem tiny_le_pow (n : ℕ) (hn : n ≤ 1075) : tiny ≤ 2 ^ (-(n : ℤ)) := by
  unfold tiny
  exact zpow_le_zpow_right₀ (by norm_num) (by omega)

/-- The test on three points which are not too close. -/
theorem flat_test {A B C : Pt} (hA : DoublePt A) (hB : DoublePt B) (hC : DoublePt C)
    (hd : 2 ^ (-800 : ℤ) ≤ sqDist A B * sqDist A C) :
    (|cross (B - A) (C - A)| ≤ Spec.dist A B * Spec.dist A C / 2 ^ 28 → flatF A B C = some 1) ∧
    (flatF A B C = some 1 → |cross (B - A) (C - A)| ≤ Spec.dist A B * Spec.dist A C / 2 ^ 25) ∧ flatF A B C ≠ none := by
  have hs : ∀ P Q : Pt, Spec.dist P Q ^ 2 = sqDist P Q := fun P Q => Real.sq_sqrt (by unfold sqDist; positivity)
  have hn : ∀ P Q : Pt, 0 ≤ Spec.dist P Q := fun P Q => Real.sqrt_nonneg _
  obtain ⟨L, hLe⟩ : ∃ L, L = Spec.dist A B * Spec.dist A C := ⟨_, rfl⟩
  have hL0 : 0 ≤ L := by rw [hLe]; exact mul_nonneg (hn _ _) (hn _ _)
  have hL : L ^ 2 = sqDist A B * sqDist A C := by rw [hLe, mul_pow, hs, hs]
  rw [← hLe]
  rw [← hL] at hd
  have hLl : (2 : ℝ) ^ (-400 : ℤ) ≤ L := by
    refine le_of_sq hL0 ?_
    have e : ((2 : ℝ) ^ (-400 : ℤ)) ^ 2 = 2 ^ (-800 : ℤ) := by
      rw [sq, ← zpow_add₀ (by norm_num), show (-400 : ℤ) + -400 = -800 by norm_num]
    rw [e]
    exact hd
  have t2 : tiny ≤ L ^ 2 / 2 ^ 100 := by
    have := tiny_le_pow 900 (by norm_num)
    rw [le_div_iff₀ (by positivity)]
    refine le_trans ?_ hd
    calc tiny * 2 ^ 100 ≤ 2 ^ (-((900 : ℕ) : ℤ)) * 2 ^ (100 : ℤ) := by
          rw [show (2 : ℝ) ^ (100 : ℤ) = 2 ^ 100 by norm_cast]; gcongr
      _ = 2 ^ (-800 : ℤ) := by rw [← zpow_add₀ (by norm_num)]; norm_num
  have t1 : 3 * tiny ≤ L / 2 ^ 53 := by
    have := tiny_le_pow 455 (by norm_num)
    rw [le_div_iff₀ (by positivity)]
    refine le_trans ?_ hLl
    calc 3 * tiny * 2 ^ 53 ≤ 2 ^ (2 : ℤ) * 2 ^ (-((455 : ℕ) : ℤ)) * 2 ^ (53 : ℤ) := by
          rw [show (2 : ℝ) ^ (53 : ℤ) = 2 ^ 53 by norm_cast, show (2 : ℝ) ^ (2 : ℤ) = 4 by norm_num]
          have h0 := tiny_pos.le
          exact mul_le_mul_of_nonneg_right (mul_le_mul (by norm_num) this h0 (by norm_num)) (by positivity)
      _ = 2 ^ (-400 : ℤ) := by rw [← zpow_add₀ (by norm_num), ← zpow_add₀ (by norm_num)]; norm_num
  obtain ⟨e1, e2⟩ := reim_err hA hB hC hL0 hL
  have hL' : 0 < L := (two_zpow_pos _).trans_le hLl
  rw [flatF_quot]
  refine quot_test hL' ?_ (e1.trans ?_) (e2.trans ?_) t2
  · rw [hL]; unfold dot cross sqDist; simp only [Pt.sub_x, Pt.sub_y]; ring
  · have : L / 2 ^ 53 = 1 / 2 ^ 53 * L := by ring
    linarith
  · have : L / 2 ^ 53 = 1 / 2 ^ 53 * L := by ring
    linarith

/-- Points that are not close in the sense of `np.allclose` are not too close. -/
theorem not_close {P Q : Pt} (h : ¬ allclose64 P Q) : 2 ^ (-54 : ℤ) ≤ sqDist P Q := by
  have key : ∀ a b : ℝ, ¬ npClose64 a b → (2 : ℝ) ^ (-27 : ℤ) ≤ |a - b| := by
    intro a b hab
    unfold npClose64 at hab
    push Not at hab
    by_contra hc
    push Not at hc
    have d27 : fl ((2 : ℝ) ^ (-27 : ℤ)) = 2 ^ (-27 : ℤ) := fl_double (isDouble_pow _ (by norm_num))
    have h1 : |fl (a - b)| ≤ 2 ^ (-27 : ℤ) := by
      rw [abs_lt] at hc
      have u := fl_mono hc.2.le
      have l := fl_mono hc.1.le
      rw [fl_neg, d27] at l
      rw [d27] at u
      exact abs_le.2 ⟨l, u⟩
    have h2 : (2 : ℝ) ^ (-27 : ℤ) ≤ fl (1 / 10 ^ 8) := by
      have := fl_mono (show (2 : ℝ) ^ (-27 : ℤ) ≤ 1 / 10 ^ 8 by norm_num)
      rwa [d27] at this
    have h3 : fl (1 / 10 ^ 8) ≤ fl (fl (1 / 10 ^ 8) + fl (fl (1 / 10 ^ 5) * |b|)) := by
      have hnn : 0 ≤ fl (fl (1 / 10 ^ 5) * |b|) := fl_nonneg (mul_nonneg (fl_nonneg (by norm_num)) (abs_nonneg _))
      have := fl_mono (show fl (1 / 10 ^ 8) ≤ fl (1 / 10 ^ 8) + fl (fl (1 / 10 ^ 5) * |b|) by linarith)
      rwa [fl_fl] at this
    exact absurd (h1.trans (h2.trans h3)) (not_le.2 hab)
  have sqd : ∀ d : ℝ, (2 : ℝ) ^ (-27 : ℤ) ≤ |d| → (2 : ℝ) ^ (-54 : ℤ) ≤ d ^ 2 := by
    intro d hd
    have : ((2 : ℝ) ^ (-27 : ℤ)) ^ 2 ≤ |d| ^ 2 := by gcongr
    rw [sq_abs] at this
    norm_num at this ⊢
    exact this
  unfold allclose64 at h
  rw [not_and_or] at h
  unfold sqDist
  rcases h with h | h
  · have := sqd _ (key _ _ h)
    nlinarith [sq_nonneg (P.y - Q.y)]
  · have := sqd _ (key _ _ h)
    nlinarith [sq_nonneg (P.x - Q.x)]

end FG

/-- C90: the flatness computed in double precision is between 0 and 1. -/
theorem C90_flatness_range (A B C : Pt) (f : ℝ) (h : flatF A B C = some f) : 0 ≤ f ∧ f ≤ 1 := quot_mem _ _ _ h

/-- C90: in double precision the triangle is flat when the sine of the angle at `A` is at most 2^-28, and not flat when it is more
than 2^-25. -/
theorem C90_flatness (A B C : Pt) (hA : DoublePt A) (hB : DoublePt B) (hC : DoublePt C)
    (hd : 2 ^ (-800 : ℤ) ≤ sqDist A B * sqDist A C) :
    (|cross (B - A) (C - A)| ≤ Spec.dist A B * Spec.dist A C / 2 ^ 28 → flatF A B C = some 1) ∧
    (flatF A B C = some 1 → |cross (B - A) (C - A)| ≤ Spec.dist A B * Spec.dist A C / 2 ^ 25) ∧ flatF A B C ≠ none :=
  flat_test hA hB hC hd

/-- C90: `collinear_` in double precision never fails, accepts the points that are collinear up to 2^-28, and accepts only points two
of which are close or that are collinear up to 2^-25; it accepts all the points two of which are close. -/
theorem C90_collinear (A B C : Pt) (hA : DoublePt A) (hB : DoublePt B) (hC : DoublePt C) :
    ∃ b, collinear64 A B C = .ok b ∧ (allclose64 A B ∨ allclose64 A C ∨ allclose64 B C → b) ∧
      (|cross (B - A) (C - A)| ≤ Spec.dist A B * Spec.dist A C / 2 ^ 28 → b) ∧
      (b → allclose64 A B ∨ allclose64 A C ∨ allclose64 B C ∨
        |cross (B - A) (C - A)| ≤ Spec.dist A B * Spec.dist A C / 2 ^ 25) := by
  unfold collinear64
  by_cases hc : allclose64 A B ∨ allclose64 A C ∨ allclose64 B C
  · rw [if_pos hc]
    refine ⟨True, rfl, fun _ => trivial, fun _ => trivial, fun _ => ?_⟩
    tauto
  · rw [if_neg hc]
    have hc' := hc
    push Not at hc
    have h1 := not_close hc.1
    have h2 := not_close hc.2.1
    have hd : (2 : ℝ) ^ (-800 : ℤ) ≤ sqDist A B * sqDist A C := by
      have h0 : (2 : ℝ) ^ (-800 : ℤ) ≤ 2 ^ (-54 : ℤ) * 2 ^ (-54 : ℤ) := by
        rw [← zpow_add₀ (by norm_num)]
        exact zpow_le_zpow_right₀ (by norm_num) (by norm_num)
      refine h0.trans ?_
      have := two_zpow_pos (-54)
      gcongr
    obtain ⟨t1, t2, t3⟩ := flat_test hA hB hC hd
    cases hf : flatF A B C with
    | none => exact absurd hf t3
    | some f =>
      have hr := C90_flatness_range A B C f hf
      dsimp only
      refine ⟨_, rfl, fun h => absurd h hc', fun hX => ?_, fun hb => Or.inr (Or.inr (Or.inr ?_))⟩
      · have := t1 hX
        rw [hf, Option.some.injEq] at this
        exact this.ge
      · apply t2
        rw [hf, le_antisymm hr.2 hb]

set_option maxHeartbeats 1000000 in
/-- C90: with integer coordinates up to 2^11 the flatness is 1 exactly when the points are collinear. -/
theorem C90_grid (A B C : Pt) (hA : Grid (2 ^ 11) A) (hB : Grid (2 ^ 11) B) (hC : Grid (2 ^ 11) C) (hAB : A ≠ B) (hAC : A ≠ C) :
    flatF A B C = some 1 ↔ Collinear A B C := by
  obtain ⟨ax, ay, hax, hay, rfl⟩ := hA
  obtain ⟨bx, bY, hbx, hby, rfl⟩ := hB
  obtain ⟨cx, cy, hcx, hcy, rfl⟩ := hC
  have s : ∀ m n : ℤ, |m| ≤ 2 ^ 11 → |n| ≤ 2 ^ 11 → fl ((m : ℝ) - n) = ((m - n : ℤ) : ℝ) ∧ |m - n| ≤ 2 ^ 12 := by
    intro m n hm hn
    have hb : |m - n| ≤ 2 ^ 12 := by rw [abs_le] at *; constructor <;> omega
    have : IsDouble ((m - n : ℤ) : ℝ) := isDouble_int (hb.trans (by norm_num))
    have h := fl_double this
    push_cast at h ⊢
    exact ⟨h, hb⟩
  have m : ∀ m n : ℤ, |m| ≤ 2 ^ 12 → |n| ≤ 2 ^ 12 → fl ((m : ℝ) * n) = ((m * n : ℤ) : ℝ) ∧ |m * n| ≤ 2 ^ 24 := by
    intro m n hm hn
    have hb : |m * n| ≤ 2 ^ 24 := by
      rw [abs_mul]
      calc |m| * |n| ≤ 2 ^ 12 * 2 ^ 12 := by gcongr
        _ = 2 ^ 24 := by norm_num
    have : IsDouble ((m * n : ℤ) : ℝ) := isDouble_int (hb.trans (by norm_num))
    have h := fl_double this
    push_cast at h ⊢
    exact ⟨h, hb⟩
  obtain ⟨s1, k1⟩ := s _ _ hbx hax
  obtain ⟨s2, k2⟩ := s _ _ hby hay
  obtain ⟨s3, k3⟩ := s _ _ hcx hax
  obtain ⟨s4, k4⟩ := s _ _ hcy hay
  rw [flatF_quot]
  unfold subF reF imF
  dsimp only
  rw [s1, s2, s3, s4]
  have n1 : ∀ x y : ℝ, fl (-x * y) = -fl (x * y) := fun x y => by rw [neg_mul, fl_neg]
  obtain ⟨m1, l1⟩ := m _ _ k1 k3
  obtain ⟨m2, l2⟩ := m _ _ k2 k4
  obtain ⟨m3, l3⟩ := m _ _ k1 k4
  obtain ⟨m4, l4⟩ := m _ _ k2 k3
  rw [n1, n1, sub_neg_eq_add, m1, m2, m3, m4]
  have a : ∀ m n : ℤ, |m| ≤ 2 ^ 24 → |n| ≤ 2 ^ 24 → fl ((m : ℝ) + n) = ((m + n : ℤ) : ℝ) ∧ |m + n| ≤ 2 ^ 25 := by
    intro m n hm hn
    have hb : |m + n| ≤ 2 ^ 25 := by rw [abs_le] at *; constructor <;> omega
    have : IsDouble ((m + n : ℤ) : ℝ) := isDouble_int (hb.trans (by norm_num))
    have h := fl_double this
    push_cast at h ⊢
    exact ⟨h, hb⟩
  obtain ⟨a1, p1⟩ := a _ _ l1 l2
  obtain ⟨a2, p2⟩ := a _ (-((bY - ay) * (cx - ax))) l3 (by rwa [abs_neg])
  rw [Int.cast_neg] at a2
  rw [a1, a2]
  obtain ⟨r, hr⟩ : ∃ r, r = (bx - ax) * (cx - ax) + (bY - ay) * (cy - ay) := ⟨_, rfl⟩
  obtain ⟨i, hi⟩ : ∃ i, i = (bx - ax) * (cy - ay) + -((bY - ay) * (cx - ax)) := ⟨_, rfl⟩
  rw [← hr] at p1 ⊢
  rw [← hi] at p2 ⊢
  have sqz : ∀ n : ℤ, |n| ≤ 2 ^ 25 → fl ((n : ℝ) * n) = (n : ℝ) * n := by
    intro n hn
    have : IsDouble ((n * n : ℤ) : ℝ) := isDouble_int (by
      rw [abs_mul]
      calc |n| * |n| ≤ 2 ^ 25 * 2 ^ 25 := by gcongr
        _ ≤ 2 ^ 53 := by norm_num)
    have h := fl_double this
    push_cast at h
    exact h
  have hcol : Collinear ⟨ax, ay⟩ ⟨bx, bY⟩ ⟨cx, cy⟩ ↔ i = 0 := by
    unfold Spec.Collinear cross
    simp only [Pt.sub_x, Pt.sub_y]
    rw [hi, ← @Int.cast_inj ℝ]
    push_cast
    constructor <;> intro h <;> linarith
  rw [hcol]
  have hsum : r ^ 2 + i ^ 2 = ((bx - ax) ^ 2 + (bY - ay) ^ 2) * ((cx - ax) ^ 2 + (cy - ay) ^ 2) := by rw [hr, hi]; ring
  have pos : ∀ x y x' y' : ℤ, (⟨x, y⟩ : Pt) ≠ ⟨x', y'⟩ → 0 < (x' - x) ^ 2 + (y' - y) ^ 2 := by
    intro x y x' y' hne
    by_contra hc
    apply hne
    have q1 := sq_nonneg (x' - x)
    have q2 := sq_nonneg (y' - y)
    have h1 : (x' - x) ^ 2 = 0 := by omega
    have h2 : (y' - y) ^ 2 = 0 := by omega
    have h1 := pow_eq_zero_iff (two_ne_zero) |>.1 h1
    have h2 := pow_eq_zero_iff (two_ne_zero) |>.1 h2
    rw [show x' = x by omega, show y' = y by omega]
  have hpos : 0 < r ^ 2 + i ^ 2 := by rw [hsum]; exact mul_pos (pos _ _ _ _ hAB) (pos _ _ _ _ hAC)
  constructor
  · intro h
    have := quot_small h
    rw [sqz _ p1, sqz _ p2] at this
    by_contra hi0
    have hi1 : 1 ≤ i * i := by
      have : 0 < i * i := mul_self_pos.2 hi0
      omega
    have hi1 : (1 : ℝ) ≤ (i : ℝ) * i := by exact_mod_cast hi1
    have hr1 : r * r ≤ 2 ^ 25 * 2 ^ 25 := by
      rw [← abs_mul_abs_self r]; gcongr
    have hr1 : (r : ℝ) * r ≤ 2 ^ 25 * 2 ^ 25 := by exact_mod_cast hr1
    norm_num at this hr1
    linarith
  · intro h
    rw [h] at hpos ⊢
    have hr0 : (0 : ℝ) < (r : ℝ) * r := by
      have : 0 < r * r := by rw [← sq]; simpa using hpos
      exact_mod_cast this
    apply quot_one
    · rw [sqz _ p1]; exact hr0
    · rw [sqz _ p1, Int.cast_zero, mul_zero, fl_zero]; positivity

/-- C90 is false for the exact collinearity: the flatness of a triangle which is not flat is 1. -/
theorem C90_flatness_counterexample :
    flatF ⟨0, 0⟩ ⟨1, 0⟩ ⟨1, 2 ^ (-30 : ℤ)⟩ = some 1 ∧ ¬ Collinear ⟨0, 0⟩ ⟨1, 0⟩ ⟨1, 2 ^ (-30 : ℤ)⟩ := by
  have d0 : IsDouble 0 := by simpa using isDouble_int (n := 0) (by norm_num)
  refine ⟨(C90_flatness _ _ _ ⟨d0, d0⟩ ⟨isDouble_one, d0⟩ ⟨isDouble_one, isDouble_pow _ (by norm_num)⟩ ?_).1 ?_, ?_⟩
  · refine (zpow_le_zpow_right₀ (by norm_num) (by norm_num : (-800 : ℤ) ≤ 0)).trans ?_
    unfold sqDist
    norm_num
  · have h1 : Spec.dist ⟨0, 0⟩ ⟨1, 0⟩ = 1 := by unfold Spec.dist sqDist; norm_num
    have h2 : 1 ≤ Spec.dist ⟨0, 0⟩ ⟨1, 2 ^ (-30 : ℤ)⟩ := by
      unfold Spec.dist sqDist
      rw [Real.one_le_sqrt]
      norm_num
    rw [h1]
    unfold cross
    simp only [Pt.sub_x, Pt.sub_y]
    norm_num at h2 ⊢
    linarith
  · unfold Spec.Collinear cross
    simp

/-- A triangle that is recognised as not flat. -/
example : ¬ flatF ⟨0, 0⟩ ⟨3, 0⟩ ⟨0, 4⟩ = some 1 := by
  rw [C90_grid _ _ _ ⟨0, 0, by norm_num, by norm_num, by simp⟩ ⟨3, 0, by norm_num, by norm_num, by simp⟩
    ⟨0, 4, by norm_num, by norm_num, by simp⟩ (by simp) (by simp)]
  unfold Spec.Collinear cross
  simp

/-- The points `(0, 0), (1, 1), (3, 3)` are found collinear, the flatness being exactly 1. -/
example : flatF ⟨0, 0⟩ ⟨1, 1⟩ ⟨3, 3⟩ = some 1 ∧ (∃ b, collinear64 ⟨0, 0⟩ ⟨1, 1⟩ ⟨3, 3⟩ = .ok b ∧ b) ∧
    ∀ f, flatF ⟨0, 0⟩ ⟨3, 0⟩ ⟨0, 4⟩ = some f → 0 ≤ f ∧ f ≤ 1 := by
  have h0 : DoublePt ⟨0, 0⟩ := by simpa using Ex.dbl 0 0 (by norm_num) (by norm_num)
  have h1 : DoublePt ⟨1, 1⟩ := by simpa using Ex.dbl 1 1 (by norm_num) (by norm_num)
  have h3 : DoublePt ⟨3, 3⟩ := by simpa using Ex.dbl 3 3 (by norm_num) (by norm_num)
  have hc : |cross ((⟨1, 1⟩ : Pt) - ⟨0, 0⟩) (⟨3, 3⟩ - ⟨0, 0⟩)| ≤ Spec.dist (⟨0, 0⟩ : Pt) ⟨1, 1⟩ * Spec.dist (⟨0, 0⟩ : Pt) ⟨3, 3⟩ / 2 ^ 28 := by
    have e : cross ((⟨1, 1⟩ : Pt) - ⟨0, 0⟩) (⟨3, 3⟩ - ⟨0, 0⟩) = 0 := by norm_num [cross]
    rw [e, abs_zero]
    unfold Spec.dist
    positivity
  refine ⟨(C90_flatness _ _ _ h0 h1 h3 ?_).1 hc, ?_, fun f h => C90_flatness_range _ _ _ f h⟩
  · have hz : (2 : ℝ) ^ (-800 : ℤ) ≤ 2 ^ (0 : ℤ) := zpow_le_zpow_right₀ (by norm_num) (by norm_num)
    unfold sqDist; norm_num at hz ⊢; linarith
  · obtain ⟨b, h, -, hb, -⟩ := C90_collinear _ _ _ h0 h1 h3
    exact ⟨b, h, hb hc⟩
