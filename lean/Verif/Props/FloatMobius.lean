import Verif.Model.FloatMobius
import Verif.Lemmas.FloatInt
import Verif.Props.Mobius

/-!
# C126: Möbius transformations in double precision
-/

open Spec Real Classical FG FT

namespace Spec

/-- The real and the imaginary parts of the entries are integers of absolute value at most `B`. -/
def IntMat (B : ℕ) (M : Matrix (Fin 2) (Fin 2) ℂ) : Prop := ∀ i j, IntB B (M i j).re ∧ IntB B (M i j).im

end Spec

namespace FM

theorem sum_abs_nonneg (l : List (ℝ × ℝ)) : 0 ≤ (l.map fun p => |p.1 * p.2|).sum := by
  apply List.sum_nonneg
  intro x hx
  obtain ⟨p, -, rfl⟩ := List.mem_map.1 hx
  exact abs_nonneg _

/-- A sum of integers that is not too large is exact, whatever the order of the operations. -/
theorem dot_exact {l : List (ℝ × ℝ)} {v : ℝ} (h : DotEval l v) (hi : ∀ p ∈ l, ∃ n : ℤ, p.1 * p.2 = n)
    (hb : (l.map fun p => |p.1 * p.2|).sum ≤ 2 ^ 53) :
    v = (l.map fun p => p.1 * p.2).sum ∧ (∃ n : ℤ, v = n) ∧ |v| ≤ (l.map fun p => |p.1 * p.2|).sum := by
  induction h with
  | zero => exact ⟨by simp, ⟨0, by simp⟩, by simp⟩
  | one p =>
    obtain ⟨n, hn⟩ := hi p (by simp)
    have e : fl (p.1 * p.2) = p.1 * p.2 := by
      rw [hn]
      refine fl_double (isDouble_int ?_)
      have : |(n : ℝ)| ≤ 2 ^ 53 := by rw [← hn]; simpa using hb
      exact_mod_cast this
    rw [e]
    exact ⟨by simp, ⟨n, hn⟩, by simp⟩
  | @add l m v w _ _ ih1 ih2 =>
    have n1 : 0 ≤ (l.map fun p => |p.1 * p.2|).sum := FM.sum_abs_nonneg _
    have n2 : 0 ≤ (m.map fun p => |p.1 * p.2|).sum := FM.sum_abs_nonneg _
    rw [List.map_append, List.sum_append] at hb ⊢
    rw [List.map_append, List.sum_append]
    obtain ⟨e1, ⟨a, ha⟩, b1⟩ := ih1 (fun p hp => hi p (by simp [hp])) (by linarith)
    obtain ⟨e2, ⟨b, hb'⟩, b2⟩ := ih2 (fun p hp => hi p (by simp [hp])) (by linarith)
    have hs : |v + w| ≤ (l.map fun p => |p.1 * p.2|).sum + (m.map fun p => |p.1 * p.2|).sum := (abs_add_le _ _).trans (add_le_add b1 b2)
    have e : fl (v + w) = v + w := by
      have hab : v + w = ((a + b : ℤ) : ℝ) := by rw [ha, hb']; push_cast; ring
      have : |((a + b : ℤ) : ℝ)| ≤ 2 ^ 53 := by rw [← hab]; linarith
      rw [hab]
      exact fl_double (isDouble_int (by exact_mod_cast this))
    rw [e]
    exact ⟨by rw [e1, e2], ⟨a + b, by rw [ha, hb']; push_cast; ring⟩, hs⟩
  | @fma p l v _ ih =>
    have n1 : 0 ≤ (l.map fun p => |p.1 * p.2|).sum := FM.sum_abs_nonneg _
    rw [List.map_cons, List.sum_cons] at hb ⊢
    rw [List.map_cons, List.sum_cons]
    have p0 := abs_nonneg (p.1 * p.2)
    obtain ⟨e1, ⟨a, ha⟩, b1⟩ := ih (fun p hp => hi p (by simp [hp])) (by linarith)
    obtain ⟨b, hb'⟩ := hi p (by simp)
    have hs : |v + p.1 * p.2| ≤ |p.1 * p.2| + (l.map fun p => |p.1 * p.2|).sum := (abs_add_le _ _).trans (by linarith)
    have e : fl (v + p.1 * p.2) = v + p.1 * p.2 := by
      have hab : v + p.1 * p.2 = ((a + b : ℤ) : ℝ) := by rw [ha, hb']; push_cast; ring
      have : |((a + b : ℤ) : ℝ)| ≤ 2 ^ 53 := by rw [← hab]; linarith
      rw [hab]
      exact fl_double (isDouble_int (by exact_mod_cast this))
    rw [e]
    exact ⟨by rw [e1]; ring, ⟨a + b, by rw [ha, hb']; push_cast; ring⟩, hs⟩
  | @perm l m v hp _ ih =>
    have s1 := (hp.map fun p : ℝ × ℝ => |p.1 * p.2|).sum_eq
    have s2 := (hp.map fun p : ℝ × ℝ => p.1 * p.2).sum_eq
    rw [← s1] at hb ⊢
    rw [← s2]
    exact ih (fun p h => hi p (hp.mem_iff.1 h)) hb

/-- Four products of integers up to `2^25`. -/
theorem dot_four {a b c d a' b' c' d' v : ℝ} (h : DotEval [(a, a'), (b, b'), (c, c'), (d, d')] v)
    (ha : IntB (2 ^ 25) a) (hb : IntB (2 ^ 25) b) (hc : IntB (2 ^ 25) c) (hd : IntB (2 ^ 25) d)
    (ha' : IntB (2 ^ 25) a') (hb' : IntB (2 ^ 25) b') (hc' : IntB (2 ^ 25) c') (hd' : IntB (2 ^ 25) d') :
    v = a * a' + b * b' + c * c' + d * d' := by
  have i1 := FI.mul ha ha'
  have i2 := FI.mul hb hb'
  have i3 := FI.mul hc hc'
  have i4 := FI.mul hd hd'
  have b1 := FI.abs_le i1
  have b2 := FI.abs_le i2
  have b3 := FI.abs_le i3
  have b4 := FI.abs_le i4
  obtain ⟨e, -⟩ := dot_exact h (by
    intro p hp
    simp only [List.mem_cons, List.not_mem_nil, or_false] at hp
    rcases hp with rfl | rfl | rfl | rfl
    · exact ⟨_, i1.choose_spec.1⟩
    · exact ⟨_, i2.choose_spec.1⟩
    · exact ⟨_, i3.choose_spec.1⟩
    · exact ⟨_, i4.choose_spec.1⟩) (by
    simp only [List.map_cons, List.map_nil, List.sum_cons, List.sum_nil]
    norm_num at b1 b2 b3 b4 ⊢
    linarith)
  rw [e]
  simp only [List.map_cons, List.map_nil, List.sum_cons, List.sum_nil]
  ring

end FM

/-- C126: `np.matmul` is exact on complex matrices whose entries have integer parts up to `2^25`, in whatever order the products are added. -/
theorem C126_matmul {mm : Matrix (Fin 2) (Fin 2) ℂ → Matrix (Fin 2) (Fin 2) ℂ → Matrix (Fin 2) (Fin 2) ℂ} (hm : IsMatmul mm)
    (A B : Matrix (Fin 2) (Fin 2) ℂ) (hA : IntMat (2 ^ 25) A) (hB : IntMat (2 ^ 25) B) : mm A B = A * B := by
  ext i j
  obtain ⟨h1, h2⟩ := hm A B i j
  have e1 := FM.dot_four h1 (hA i 0).1 (FI.neg (hA i 0).2) (hA i 1).1 (FI.neg (hA i 1).2) (hB 0 j).1 (hB 0 j).2 (hB 1 j).1 (hB 1 j).2
  have e2 := FM.dot_four h2 (hA i 0).1 (hA i 0).2 (hA i 1).1 (hA i 1).2 (hB 0 j).2 (hB 0 j).1 (hB 1 j).2 (hB 1 j).1
  rw [Matrix.mul_apply, Fin.sum_univ_two]
  apply Complex.ext
  · rw [e1]; simp; ring
  · rw [e2]; simp; ring

/-- A product of two matrices, computed without error. -/
example {mm : Matrix (Fin 2) (Fin 2) ℂ → Matrix (Fin 2) (Fin 2) ℂ → Matrix (Fin 2) (Fin 2) ℂ} (hm : IsMatmul mm) :
    mm !![1, 2; 3, 4] !![2, 1; 1, 1] = !![4, 3; 10, 7] := by
  rw [C126_matmul hm _ _ ?_ ?_, Matrix.mul_fin_two]
  · norm_num
  · intro i j
    fin_cases i <;> fin_cases j
    · exact ⟨⟨1, by simp, by norm_num⟩, ⟨0, by simp, by norm_num⟩⟩
    · exact ⟨⟨2, by simp, by norm_num⟩, ⟨0, by simp, by norm_num⟩⟩
    · exact ⟨⟨3, by simp, by norm_num⟩, ⟨0, by simp, by norm_num⟩⟩
    · exact ⟨⟨4, by simp, by norm_num⟩, ⟨0, by simp, by norm_num⟩⟩
  · intro i j
    fin_cases i <;> fin_cases j
    · exact ⟨⟨2, by simp, by norm_num⟩, ⟨0, by simp, by norm_num⟩⟩
    · exact ⟨⟨1, by simp, by norm_num⟩, ⟨0, by simp, by norm_num⟩⟩
    · exact ⟨⟨1, by simp, by norm_num⟩, ⟨0, by simp, by norm_num⟩⟩
    · exact ⟨⟨1, by simp, by norm_num⟩, ⟨0, by simp, by norm_num⟩⟩

/-- C126: `Mobius.compose` is exact for entries with integer parts up to `2^25`. -/
theorem C126_compose {mm : Matrix (Fin 2) (Fin 2) ℂ → Matrix (Fin 2) (Fin 2) ℂ → Matrix (Fin 2) (Fin 2) ℂ} (hm : IsMatmul mm)
    (f g : Mobius) (left : Bool) (hf : IntMat (2 ^ 25) f.M) (hg : IntMat (2 ^ 25) g.M) :
    f.composeF mm g left = if left = true then ⟨g.M * f.M⟩ else ⟨f.M * g.M⟩ := by
  unfold Mobius.composeF
  rw [C126_matmul hm _ _ hg hf, C126_matmul hm _ _ hf hg]

/-- The composition of (2, 1; 1, 1) and (1, 2; 3, 4), in both orders. -/
example {mm : Matrix (Fin 2) (Fin 2) ℂ → Matrix (Fin 2) (Fin 2) ℂ → Matrix (Fin 2) (Fin 2) ℂ} (hm : IsMatmul mm) :
    (⟨!![2, 1; 1, 1]⟩ : Mobius).composeF mm ⟨!![1, 2; 3, 4]⟩ true = ⟨!![4, 3; 10, 7]⟩ ∧
    (⟨!![2, 1; 1, 1]⟩ : Mobius).composeF mm ⟨!![1, 2; 3, 4]⟩ false = ⟨!![5, 8; 4, 6]⟩ := by
  have hA : IntMat (2 ^ 25) (!![2, 1; 1, 1] : Matrix (Fin 2) (Fin 2) ℂ) := by
    intro i j
    fin_cases i <;> fin_cases j
    · exact ⟨⟨2, by simp, by norm_num⟩, ⟨0, by simp, by norm_num⟩⟩
    · exact ⟨⟨1, by simp, by norm_num⟩, ⟨0, by simp, by norm_num⟩⟩
    · exact ⟨⟨1, by simp, by norm_num⟩, ⟨0, by simp, by norm_num⟩⟩
    · exact ⟨⟨1, by simp, by norm_num⟩, ⟨0, by simp, by norm_num⟩⟩
  have hB : IntMat (2 ^ 25) (!![1, 2; 3, 4] : Matrix (Fin 2) (Fin 2) ℂ) := by
    intro i j
    fin_cases i <;> fin_cases j
    · exact ⟨⟨1, by simp, by norm_num⟩, ⟨0, by simp, by norm_num⟩⟩
    · exact ⟨⟨2, by simp, by norm_num⟩, ⟨0, by simp, by norm_num⟩⟩
    · exact ⟨⟨3, by simp, by norm_num⟩, ⟨0, by simp, by norm_num⟩⟩
    · exact ⟨⟨4, by simp, by norm_num⟩, ⟨0, by simp, by norm_num⟩⟩
  rw [C126_compose hm _ _ _ hA hB, C126_compose hm _ _ _ hA hB]
  constructor
  · simp [Matrix.mul_fin_two]; norm_num
  · simp [Matrix.mul_fin_two]; norm_num

namespace FM

theorem powLoop_exact {mm : Matrix (Fin 2) (Fin 2) ℂ → Matrix (Fin 2) (Fin 2) ℂ → Matrix (Fin 2) (Fin 2) ℂ} (hm : IsMatmul mm)
    (M : Matrix (Fin 2) (Fin 2) ℂ) (N : ℕ) (hM : ∀ j ≤ N, IntMat (2 ^ 25) (M ^ j)) (n : ℕ) :
    ∀ (p q : ℕ) (r : Option (Matrix (Fin 2) (Fin 2) ℂ)), 0 < n → p * n + q ≤ N → (r = none ∧ q = 0 ∨ r = some (M ^ q)) →
      powLoop mm (M ^ p) r n = some (M ^ (p * n + q)) := by
  induction n using Nat.strong_induction_on with
  | _ n ih =>
  intro p q r hn hN hr
  have hpN : p * 1 ≤ p * n := Nat.mul_le_mul_left p hn
  have hsplit : p * n = 2 * p * (n / 2) + p * (n % 2) := by
    conv_lhs => rw [← Nat.div_add_mod n 2]
    ring
  -- the result after this bit
  have hres : ∃ q', q' = p * (n % 2) + q ∧
      (powStep mm (M ^ p) (n % 2 = 1) r = none ∧ q' = 0 ∧ n % 2 = 0 ∨
        powStep mm (M ^ p) (n % 2 = 1) r = some (M ^ q')) := by
    refine ⟨_, rfl, ?_⟩
    rcases Nat.mod_two_eq_zero_or_one n with h0 | h1
    · rcases hr with ⟨rfl, rfl⟩ | rfl
      · left; simp [powStep, h0]
      · right; simp [powStep, h0]
    · right
      rcases hr with ⟨rfl, rfl⟩ | rfl
      · simp [powStep, h1]
      · simp only [powStep, h1, if_true]
        have hq : q ≤ N := by omega
        have hp : p ≤ N := by omega
        rw [C126_matmul hm _ _ (hM q hq) (hM p hp), ← pow_add]
        congr 2
        omega
  obtain ⟨q', hq', hres⟩ := hres
  rw [powLoop.eq_def]
  dsimp only
  split_ifs with h
  · have hn1 : n = 1 := by omega
    rcases hres with ⟨-, -, h2⟩ | h2
    · omega
    · rw [h2, hq', hn1]
  · have hz : mm (M ^ p) (M ^ p) = M ^ (2 * p) := by
      have : p ≤ N := by omega
      rw [C126_matmul hm _ _ (hM p this) (hM p this), ← pow_add, two_mul]
    rw [hz, ih (n / 2) (by omega) (2 * p) q' _ (by omega) (by omega) (by
      rcases hres with ⟨a, b, -⟩ | a
      · exact Or.inl ⟨a, b⟩
      · exact Or.inr a)]
    congr 2
    omega

theorem matrix_power_exact {mm : Matrix (Fin 2) (Fin 2) ℂ → Matrix (Fin 2) (Fin 2) ℂ → Matrix (Fin 2) (Fin 2) ℂ} (hm : IsMatmul mm)
    (M : Matrix (Fin 2) (Fin 2) ℂ) (n : ℕ) (hM : ∀ j ≤ n, IntMat (2 ^ 25) (M ^ j)) : matrix_powerF mm M n = M ^ n := by
  unfold matrix_powerF
  split_ifs with h0 h1 h2 h3
  · rw [h0, pow_zero]
  · rw [h1, pow_one]
  · have a := hM 1 (by omega)
    rw [pow_one] at a
    rw [h2, C126_matmul hm _ _ a a, sq]
  · have a := hM 1 (by omega)
    have b := hM 2 (by omega)
    rw [pow_one] at a
    rw [sq] at b
    rw [h3, C126_matmul hm _ _ a a, C126_matmul hm _ _ b a, pow_succ, sq]
  · have := powLoop_exact hm M n hM n 1 0 none (by omega) (by omega) (Or.inl ⟨rfl, rfl⟩)
    rw [pow_one] at this
    rw [this, one_mul, add_zero]
    rfl

end FM

/-- C126: `Mobius.power` is exact as long as the powers of the matrix (or of its inverse) up to the exponent have integer parts up to `2^25`. -/
theorem C126_power {mm : Matrix (Fin 2) (Fin 2) ℂ → Matrix (Fin 2) (Fin 2) ℂ → Matrix (Fin 2) (Fin 2) ℂ} (hm : IsMatmul mm)
    (f : Mobius) (n : ℕ) :
    ((∀ j ≤ n, IntMat (2 ^ 25) (f.M ^ j)) → f.powerF mm n = ⟨f.M ^ n⟩) ∧
    ((∀ j ≤ n, IntMat (2 ^ 25) (!![f.d, -f.b; -f.c, f.a] ^ j)) → f.powerF mm (-n) = ⟨!![f.d, -f.b; -f.c, f.a] ^ n⟩) := by
  constructor
  · intro h
    unfold Mobius.powerF
    rw [if_neg (by omega), Int.toNat_natCast, FM.matrix_power_exact hm _ _ h]
  · intro h
    unfold Mobius.powerF
    split_ifs with h0
    · rw [neg_neg, Int.toNat_natCast]
      exact congrArg Mobius.mk (FM.matrix_power_exact hm _ _ h)
    · have : n = 0 := by omega
      subst this
      rw [pow_zero]
      simp [matrix_powerF]

/-- The powers of the translation by one, up to the exponent `2^25`. -/
example {mm : Matrix (Fin 2) (Fin 2) ℂ → Matrix (Fin 2) (Fin 2) ℂ → Matrix (Fin 2) (Fin 2) ℂ} (hm : IsMatmul mm)
    (n : ℕ) (hn : n ≤ 2 ^ 25) : (⟨!![1, 1; 0, 1]⟩ : Mobius).powerF mm n = ⟨!![1, (n : ℂ); 0, 1]⟩ := by
  have hp : ∀ j : ℕ, (!![1, 1; 0, 1] : Matrix (Fin 2) (Fin 2) ℂ) ^ j = !![1, (j : ℂ); 0, 1] := by
    intro j
    induction j with
    | zero => simp [Matrix.one_fin_two]
    | succ j ih => rw [pow_succ, ih, Matrix.mul_fin_two]; simp; ring
  rw [(C126_power hm ⟨!![1, 1; 0, 1]⟩ n).1]
  · simp only [hp]
  · intro j hj
    have h2 : ((j : ℤ) : ℝ) ≤ 2 ^ 25 := by exact_mod_cast hj.trans hn
    simp only [hp]
    intro a b
    fin_cases a <;> fin_cases b
    · exact ⟨⟨1, by simp, by norm_num⟩, ⟨0, by simp, by norm_num⟩⟩
    · exact ⟨⟨j, by simp, by rw [abs_of_nonneg (by positivity)]; exact_mod_cast hj.trans hn⟩, ⟨0, by simp, by norm_num⟩⟩
    · exact ⟨⟨0, by simp, by norm_num⟩, ⟨0, by simp, by norm_num⟩⟩
    · exact ⟨⟨1, by simp, by norm_num⟩, ⟨0, by simp, by norm_num⟩⟩

namespace FM

/-- The relative error of a rounding without underflow. -/
theorem fl_rel {x : ℝ} (h : x = 0 ∨ 1 / 2 ^ 60 ≤ |x|) : |fl x - x| ≤ 101 / 100 / 2 ^ 53 * |x| := by
  rcases h with rfl | h
  · simp [fl_zero]
  · have h1 := fl_err' x
    have h2 := FI.tiny_small
    refine h1.trans ?_
    generalize |x| = a at *
    norm_num at *
    linarith

/-- A sum `x + a*b`, fused or not. -/
theorem maF_err (k : Bool) (x a b : ℝ) : |maF k x a b - (x + a * b)| ≤ 201 / 100 / 2 ^ 53 * (|x| + |a * b|) + 3 * tiny := by
  have t0 := tiny_pos
  have s1 := abs_add_le x (a * b)
  have x0 := abs_nonneg x
  have p0 := abs_nonneg (a * b)
  unfold maF
  split_ifs
  · refine (fl_err' _).trans ?_
    generalize |x + a * b| = w at *
    generalize |a * b| = P at *
    generalize |x| = X at *
    norm_num at *
    linarith
  · have h1 := fl_err' (a * b)
    have h2 := fl_err' (x + fl (a * b))
    have h3 : |x + fl (a * b)| ≤ |x + a * b| + |fl (a * b) - a * b| := by
      rw [show x + fl (a * b) = (x + a * b) + (fl (a * b) - a * b) by ring]
      exact abs_add_le _ _
    have h4 : |fl (x + fl (a * b)) - (x + a * b)| ≤ |fl (x + fl (a * b)) - (x + fl (a * b))| + |fl (a * b) - a * b| := by
      rw [show fl (x + fl (a * b)) - (x + a * b) = (fl (x + fl (a * b)) - (x + fl (a * b))) + (fl (a * b) - a * b) by ring]
      exact abs_add_le _ _
    refine h4.trans ?_
    generalize |fl (x + fl (a * b)) - (x + fl (a * b))| = e2 at *
    generalize |fl (a * b) - a * b| = e1 at *
    generalize |x + fl (a * b)| = w at *
    generalize |x + a * b| = w' at *
    generalize |a * b| = P at *
    generalize |x| = X at *
    norm_num at *
    linarith

/-- The same with a rounded quotient of absolute value at most one. -/
theorem maF_rat (k : Bool) (x a : ℝ) {r : ℝ} (hr : |r| ≤ 1) (h : r = 0 ∨ 1 / 2 ^ 60 ≤ |r|) :
    |maF k x a (fl r) - (x + a * r)| ≤ 31 / 10 / 2 ^ 53 * (|x| + |a * r|) + 3 * tiny := by
  have h1 := maF_err k x a (fl r)
  have h2 := fl_rel h
  have h3 : |a * fl r - a * r| ≤ 101 / 100 / 2 ^ 53 * |a * r| := by
    rw [← mul_sub, abs_mul, abs_mul]
    have := mul_le_mul_of_nonneg_left h2 (abs_nonneg a)
    linarith
  have h4 : |a * fl r| ≤ |a * r| + |a * fl r - a * r| := by
    have := abs_add_le (a * r) (a * fl r - a * r)
    rwa [add_sub_cancel] at this
  have h5 : |maF k x a (fl r) - (x + a * r)| ≤ |maF k x a (fl r) - (x + a * fl r)| + |a * fl r - a * r| := by
    rw [show maF k x a (fl r) - (x + a * r) = (maF k x a (fl r) - (x + a * fl r)) + (a * fl r - a * r) by ring]
    exact abs_add_le _ _
  have p0 := abs_nonneg (a * r)
  have x0 := abs_nonneg x
  refine h5.trans ?_
  generalize |maF k x a (fl r) - (x + a * fl r)| = e2 at *
  generalize |a * fl r - a * r| = e1 at *
  generalize |a * fl r| = w at *
  generalize |a * r| = P at *
  generalize |x| = X at *
  norm_num at *
  linarith

/-- The reciprocal of a number known up to a relative error. -/
theorem recip_err {S D : ℝ} (hD : 1 ≤ |D|) (hD2 : |D| ≤ 2 ^ 54) (h : |S - D| ≤ 32 / 10 / 2 ^ 53 * |D|) :
    |fl (1 / S) - 1 / D| ≤ 43 / 10 / 2 ^ 53 * (1 / |D|) := by
  have hD0 : D ≠ 0 := by intro e; rw [e, abs_zero] at hD; norm_num at hD
  have hS1 : |D| ≤ |S| + |S - D| := by
    have := abs_add_le S (-(S - D))
    rwa [abs_neg, show S + -(S - D) = D by ring] at this
  have hS2 : |S| ≤ |D| + |S - D| := by
    have := abs_add_le D (S - D)
    rwa [add_sub_cancel] at this
  have hS3 : (1 - 33 / 10 / 2 ^ 53) * |D| ≤ |S| := by norm_num at *; linarith
  have hS4 : |S| ≤ 2 ^ 55 := by norm_num at *; linarith
  have hSp : 0 < |S| := lt_of_lt_of_le (mul_pos (by norm_num) (by linarith)) hS3
  have hS0 : S ≠ 0 := abs_pos.1 hSp
  have e1 : |1 / S - 1 / D| ≤ 321 / 100 / 2 ^ 53 * (1 / |D|) := by
    rw [show 1 / S - 1 / D = -(S - D) / (S * D) by field_simp; ring, abs_div, abs_neg, abs_mul, div_le_iff₀ (by positivity)]
    rw [show 321 / 100 / 2 ^ 53 * (1 / |D|) * (|S| * |D|) = 321 / 100 / 2 ^ 53 * |S| by field_simp]
    norm_num at *
    linarith
  have e2 := fl_rel (x := 1 / S) (Or.inr (by
    rw [abs_div, abs_one, div_le_div_iff₀ (by norm_num) hSp]
    norm_num at *
    linarith))
  have e3 : |1 / S| ≤ 1 / |D| + |1 / S - 1 / D| := by
    have := abs_add_le (1 / D) (1 / S - 1 / D)
    rwa [add_sub_cancel, abs_div 1 D, abs_one] at this
  have e4 : |fl (1 / S) - 1 / D| ≤ |fl (1 / S) - 1 / S| + |1 / S - 1 / D| := by
    rw [show fl (1 / S) - 1 / D = (fl (1 / S) - 1 / S) + (1 / S - 1 / D) by ring]
    exact abs_add_le _ _
  have d0 : 0 < 1 / |D| := by positivity
  refine e4.trans ?_
  generalize |fl (1 / S) - 1 / S| = a at *
  generalize |1 / S - 1 / D| = b at *
  generalize |1 / S| = c at *
  generalize 1 / |D| = d at *
  norm_num at *
  linarith

/-- One coordinate of a quotient of complex numbers. -/
theorem smith (k1 k2 : Bool) {p q x1 x2 : ℝ} (hp : 1 ≤ |p|) (hp2 : |p| ≤ 2 ^ 53) (hqp : |q| ≤ |p|) (hq : q = 0 ∨ 1 ≤ |q|)
    (hX : 1 ≤ |x1| + |x2|) :
    |fl (maF k2 x1 x2 (fl (q / p)) * fl (1 / maF k1 p q (fl (q / p)))) - (x1 + x2 * (q / p)) * (1 / (p + q * (q / p)))| ≤
      9 / 2 ^ 53 * ((|x1| + |x2|) * (1 / |p + q * (q / p)|)) := by
  have hp0 : p ≠ 0 := by intro e; rw [e, abs_zero] at hp; norm_num at hp
  have pp : 0 < |p| := by linarith
  have r1 : |q / p| ≤ 1 := by rw [abs_div]; exact (div_le_one pp).2 hqp
  have r2 : q / p = 0 ∨ 1 / 2 ^ 60 ≤ |q / p| := by
    rcases hq with rfl | h
    · left; simp
    · right
      rw [abs_div, div_le_div_iff₀ (by norm_num) pp]
      norm_num at *
      linarith
  have hqr : 0 ≤ q / p * (q / p) := mul_self_nonneg _
  have eD : p + q * (q / p) = p * (1 + q / p * (q / p)) := by field_simp
  have aD : |p + q * (q / p)| = |p| + |q * (q / p)| := by
    rw [eD, abs_mul, abs_of_nonneg (by linarith : 0 ≤ 1 + q / p * (q / p)), show q * (q / p) = p * (q / p * (q / p)) by field_simp, abs_mul,
      abs_of_nonneg hqr]
    ring
  have hqq : |q * (q / p)| ≤ |p| := by
    rw [abs_mul]
    nlinarith [abs_nonneg q, abs_nonneg (q / p)]
  have m1 := maF_rat k1 p q r1 r2
  have m2 := maF_rat k2 x1 x2 r1 r2
  have ht := FI.tiny_small
  have t0 := tiny_pos
  rw [← aD] at m1
  have D1 : 1 ≤ |p + q * (q / p)| := by rw [aD]; linarith [abs_nonneg (q * (q / p))]
  have D2 : |p + q * (q / p)| ≤ 2 ^ 54 := by rw [aD]; norm_num at *; linarith
  have s := recip_err (S := maF k1 p q (fl (q / p))) D1 D2 (by
    refine m1.trans ?_
    generalize |p + q * (q / p)| = d at *
    norm_num at *
    linarith)
  have x2r : |x2 * (q / p)| ≤ |x2| := by
    rw [abs_mul]
    nlinarith [abs_nonneg x2]
  have nt : |x1 + x2 * (q / p)| ≤ |x1| + |x2| := (abs_add_le _ _).trans (by linarith)
  have n1 : |maF k2 x1 x2 (fl (q / p)) - (x1 + x2 * (q / p))| ≤ 32 / 10 / 2 ^ 53 * (|x1| + |x2|) := by
    refine m2.trans ?_
    generalize |x2 * (q / p)| = w at *
    generalize |x1| = X1 at *
    generalize |x2| = X2 at *
    norm_num at *
    linarith
  have dpos : 0 < 1 / |p + q * (q / p)| := by positivity
  have dlow : 1 / 2 ^ 54 ≤ 1 / |p + q * (q / p)| := one_div_le_one_div_of_le (by linarith) D2
  have adiv : |1 / (p + q * (q / p))| = 1 / |p + q * (q / p)| := by rw [abs_div, abs_one]
  generalize maF k2 x1 x2 (fl (q / p)) = N at *
  generalize fl (1 / maF k1 p q (fl (q / p))) = c at *
  generalize x1 + x2 * (q / p) = T at *
  generalize 1 / |p + q * (q / p)| = δ at *
  generalize 1 / (p + q * (q / p)) = d at *
  generalize |x1| + |x2| = X at *
  have cB : |c| ≤ (1 + 43 / 10 / 2 ^ 53) * δ := by
    have := abs_add_le d (c - d)
    rw [add_sub_cancel, adiv] at this
    linarith
  have e1 : |N * c - T * d| ≤ 76 / 10 / 2 ^ 53 * (X * δ) := by
    rw [show N * c - T * d = (N - T) * c + T * (c - d) by ring]
    refine (abs_add_le _ _).trans ?_
    rw [abs_mul, abs_mul]
    have a1 : |N - T| * |c| ≤ 32 / 10 / 2 ^ 53 * X * ((1 + 43 / 10 / 2 ^ 53) * δ) := mul_le_mul n1 cB (abs_nonneg _) (by positivity)
    have a2 : |T| * |c - d| ≤ X * (43 / 10 / 2 ^ 53 * δ) := mul_le_mul nt s (abs_nonneg _) (by positivity)
    have : 0 ≤ X * δ := by positivity
    norm_num at *
    linarith
  have e2 : |T * d| ≤ X * δ := by
    rw [abs_mul, adiv]
    exact mul_le_mul_of_nonneg_right nt dpos.le
  have e3 : |N * c| ≤ |T * d| + |N * c - T * d| := by
    have := abs_add_le (T * d) (N * c - T * d)
    rwa [add_sub_cancel] at this
  have e4 := fl_err' (N * c)
  have e5 : |fl (N * c) - T * d| ≤ |fl (N * c) - N * c| + |N * c - T * d| := by
    rw [show fl (N * c) - T * d = (fl (N * c) - N * c) + (N * c - T * d) by ring]
    exact abs_add_le _ _
  have e6 : 1 / 2 ^ 54 ≤ X * δ := by nlinarith
  refine e5.trans ?_
  generalize |fl (N * c) - N * c| = a at *
  generalize |N * c - T * d| = b at *
  generalize |N * c| = w at *
  generalize |T * d| = w' at *
  generalize X * δ = z at *
  norm_num at *
  linarith

end FM

namespace Spec

/-- The real and the imaginary part are integers of absolute value at most `B`. -/
def IntC (B : ℕ) (z : ℂ) : Prop := IntB B z.re ∧ IntB B z.im

end Spec

namespace FM

theorem sum_abs_le (x : ℂ) : |x.re| + |x.im| ≤ 1415 / 1000 * ‖x‖ := by
  have h := Complex.sq_norm x
  rw [Complex.normSq_apply] at h
  have n0 := norm_nonneg x
  have a0 := abs_nonneg x.re
  have b0 := abs_nonneg x.im
  have ha := abs_mul_abs_self x.re
  have hb := abs_mul_abs_self x.im
  by_contra hc
  push Not at hc
  nlinarith [sq_nonneg (|x.re| - |x.im|)]

/-- The two forms of the divisor. -/
theorem divisor_abs {y : ℂ} {p q : ℝ} (hp : p ≠ 0) (hpq : |q| ≤ |p|) (h : p ^ 2 + q ^ 2 = ‖y‖ ^ 2) : ‖y‖ ≤ |p + q * (q / p)| := by
  have e : |p + q * (q / p)| * |p| = ‖y‖ ^ 2 := by
    rw [← abs_mul, show (p + q * (q / p)) * p = p ^ 2 + q ^ 2 by field_simp, h, abs_of_nonneg (sq_nonneg _)]
  have hpy : |p| ≤ ‖y‖ := by
    have : |p| ^ 2 ≤ ‖y‖ ^ 2 := by rw [sq_abs, ← h]; nlinarith [sq_nonneg q]
    exact le_of_sq_le_sq this (norm_nonneg _)
  have pp : 0 < |p| := abs_pos.2 hp
  have : 0 < ‖y‖ := by linarith
  by_contra hc
  push Not at hc
  have : |p + q * (q / p)| * |p| < ‖y‖ * ‖y‖ := by
    calc _ < ‖y‖ * |p| := mul_lt_mul_of_pos_right hc pp
      _ ≤ _ := by gcongr
  nlinarith

end FM

/-- C126: a quotient of complex numbers with integer parts up to `2^53` is computed with an error of at most thirteen roundings of its
absolute value in each part; zero is the only divisor without a finite quotient. -/
theorem C126_div (k1 k2 k3 : Bool) (x y : ℂ) (hx : IntC (2 ^ 53) x) (hy : IntC (2 ^ 53) y) :
    (divCF k1 k2 k3 x y = .error .nonFinite ↔ y = 0) ∧
    (y ≠ 0 → ∃ w, divCF k1 k2 k3 x y = .ok w ∧ |w.re - (x / y).re| ≤ 13 / 2 ^ 53 * ‖x / y‖ ∧ |w.im - (x / y).im| ≤ 13 / 2 ^ 53 * ‖x / y‖) := by
  have main : y ≠ 0 → ∃ w, divCF k1 k2 k3 x y = .ok w ∧ |w.re - (x / y).re| ≤ 13 / 2 ^ 53 * ‖x / y‖ ∧
      |w.im - (x / y).im| ≤ 13 / 2 ^ 53 * ‖x / y‖ := by
    intro hy0
    have hn : 0 < ‖y‖ := norm_pos_iff.2 hy0
    have hy2 : y.re ^ 2 + y.im ^ 2 = ‖y‖ ^ 2 := by rw [Complex.sq_norm, Complex.normSq_apply]; ring
    have hyp : 0 < y.re ^ 2 + y.im ^ 2 := by rw [hy2]; positivity
    have qre : (x / y).re = (x.re * y.re + x.im * y.im) / (y.re ^ 2 + y.im ^ 2) := by
      rw [Complex.div_re, Complex.normSq_apply]; ring
    have qim : (x / y).im = (x.im * y.re - x.re * y.im) / (y.re ^ 2 + y.im ^ 2) := by
      rw [Complex.div_im, Complex.normSq_apply]; ring
    have zero_or : ∀ t : ℝ, IntB (2 ^ 53) t → t = 0 ∨ 1 ≤ |t| := fun t ht => by
      by_cases h : t = 0
      · exact Or.inl h
      · exact Or.inr (FI.one_le_abs ht h)
    have up : ∀ t : ℝ, IntB (2 ^ 53) t → |t| ≤ 2 ^ 53 := fun t ht => by have := FI.abs_le ht; norm_num at this ⊢; exact this
    -- from the divisor to the absolute value of the quotient
    have fin : ∀ (p q e : ℝ), p ≠ 0 → |q| ≤ |p| → p ^ 2 + q ^ 2 = ‖y‖ ^ 2 →
        e ≤ 9 / 2 ^ 53 * ((|x.re| + |x.im|) * (1 / |p + q * (q / p)|)) → e ≤ 13 / 2 ^ 53 * ‖x / y‖ := by
      intro p q e hp hpq h he
      refine he.trans ?_
      have h1 := FM.divisor_abs hp hpq h
      have h2 : 1 / |p + q * (q / p)| ≤ 1 / ‖y‖ := one_div_le_one_div_of_le hn h1
      have h3 : (|x.re| + |x.im|) * (1 / |p + q * (q / p)|) ≤ 1415 / 1000 * ‖x‖ * (1 / ‖y‖) :=
        mul_le_mul (FM.sum_abs_le x) h2 (by positivity) (by positivity)
      rw [norm_div, div_eq_mul_one_div ‖x‖]
      have h4 : 0 ≤ ‖x‖ * (1 / ‖y‖) := by positivity
      rw [mul_assoc] at h3
      generalize (|x.re| + |x.im|) * (1 / |p + q * (q / p)|) = a at *
      generalize ‖x‖ * (1 / ‖y‖) = b at *
      norm_num at *
      linarith
    by_cases hx0 : x = 0
    · have ma0 : ∀ k r, maF k 0 0 r = 0 := by intro k r; unfold maF; simp [fl_zero]
      refine ⟨0, ?_, ?_, ?_⟩
      · subst hx0
        unfold divCF
        rw [if_neg hy0]
        dsimp only
        simp only [Complex.zero_re, Complex.zero_im, neg_zero, ma0, zero_mul, fl_zero]
        split_ifs <;> rfl
      · simp [hx0]
      · simp [hx0]
    have hX : 1 ≤ |x.re| + |x.im| := by
      rcases zero_or _ hx.1 with h | h
      · rcases zero_or _ hx.2 with h' | h'
        · exact absurd (Complex.ext h h') hx0
        · linarith [abs_nonneg x.re]
      · linarith [abs_nonneg x.im]
    by_cases hc : |y.im| ≤ |y.re|
    · have hre : y.re ≠ 0 := by
        intro h
        rw [h, abs_zero] at hc
        have := abs_eq_zero.1 (le_antisymm hc (abs_nonneg _))
        exact hy0 (Complex.ext h this)
      have h1 := FI.one_le_abs hy.1 hre
      refine ⟨_, by unfold divCF; rw [if_neg hy0, if_pos hc], ?_, ?_⟩
      · have s := FM.smith k1 k2 (x1 := x.re) (x2 := x.im) h1 (up _ hy.1) hc (zero_or _ hy.2) hX
        rw [show (x.re + x.im * (y.im / y.re)) * (1 / (y.re + y.im * (y.im / y.re))) = (x / y).re by
          rw [qre]; field_simp] at s
        exact fin _ _ _ hre hc hy2 s
      · have s := FM.smith k1 k3 (x1 := x.im) (x2 := -x.re) h1 (up _ hy.1) hc (zero_or _ hy.2) (by rw [abs_neg]; linarith)
        rw [show (x.im + -x.re * (y.im / y.re)) * (1 / (y.re + y.im * (y.im / y.re))) = (x / y).im by
          rw [qim]; field_simp; ring, abs_neg, add_comm |x.im|] at s
        exact fin _ _ _ hre hc hy2 s
    · have hc' : |y.re| ≤ |y.im| := (not_le.1 hc).le
      have him : y.im ≠ 0 := by
        intro h
        rw [h, abs_zero] at hc
        exact hc (abs_nonneg _)
      have h1 := FI.one_le_abs hy.2 him
      have hy2' : y.im ^ 2 + y.re ^ 2 = ‖y‖ ^ 2 := by rw [add_comm]; exact hy2
      have hyp' : y.im ^ 2 + y.re ^ 2 ≠ 0 := by rw [add_comm]; exact hyp.ne'
      refine ⟨_, by unfold divCF; rw [if_neg hy0, if_neg hc], ?_, ?_⟩
      · have s := FM.smith k1 k2 (x1 := x.im) (x2 := x.re) h1 (up _ hy.2) hc' (zero_or _ hy.1) (by linarith)
        rw [show (x.im + x.re * (y.re / y.im)) * (1 / (y.im + y.re * (y.re / y.im))) = (x / y).re by
          rw [qre, add_comm (y.re ^ 2)]; field_simp; ring, add_comm |x.im|] at s
        exact fin _ _ _ him hc' hy2' s
      · have s := FM.smith k1 k3 (x1 := -x.re) (x2 := x.im) h1 (up _ hy.2) hc' (zero_or _ hy.1) (by rw [abs_neg]; linarith)
        rw [show (-x.re + x.im * (y.re / y.im)) * (1 / (y.im + y.re * (y.re / y.im))) = (x / y).im by
          rw [qim, add_comm (y.re ^ 2)]; field_simp; ring, abs_neg] at s
        exact fin _ _ _ him hc' hy2' s
  refine ⟨⟨fun h => ?_, fun h => ?_⟩, main⟩
  · by_contra hne
    obtain ⟨w, e, -⟩ := main hne
    rw [e] at h
    simp at h
  · unfold divCF
    rw [if_pos h]

/-- The quotient of one by `3 + 4i`. -/
example (k1 k2 k3 : Bool) : ∃ w, divCF k1 k2 k3 1 ⟨3, 4⟩ = .ok w ∧ |w.re - 3 / 25| ≤ 1 / 2 ^ 51 ∧ |w.im + 4 / 25| ≤ 1 / 2 ^ 51 := by
  have e : (1 : ℂ) / ⟨3, 4⟩ = ⟨3 / 25, -4 / 25⟩ := by
    rw [div_eq_iff (by intro h; have := congrArg Complex.re h; norm_num at this)]
    apply Complex.ext <;> simp <;> norm_num
  have n : ‖(⟨3 / 25, -4 / 25⟩ : ℂ)‖ = 1 / 5 := by
    rw [Complex.norm_def, Complex.normSq_mk, show (3 / 25 : ℝ) * (3 / 25) + -4 / 25 * (-4 / 25) = (1 / 5) ^ 2 by norm_num,
      Real.sqrt_sq (by norm_num)]
  obtain ⟨w, ew, h1, h2⟩ := (C126_div k1 k2 k3 1 ⟨3, 4⟩ ⟨⟨1, by simp, by norm_num⟩, ⟨0, by simp, by norm_num⟩⟩
    ⟨⟨3, by simp, by norm_num⟩, ⟨4, by simp, by norm_num⟩⟩).2 (by intro h; have := congrArg Complex.re h; norm_num at this)
  rw [e, n] at h1 h2
  refine ⟨w, ew, h1.trans (by norm_num), ?_⟩
  rw [show w.im + 4 / 25 = w.im - -4 / 25 by ring]
  exact h2.trans (by norm_num)

namespace FM

theorem mul_int {A : ℕ} (k1 k2 : Fma) {x y : ℂ} (hx : IntC A x) (hy : IntC A y) (h : A * A + A * A ≤ 2 ^ 53) :
    mulCF k1 k2 x y = x * y ∧ IntC (A * A + A * A) (x * y) := by
  have h1 := FI.vdot (u := ⟨x.re, -x.im⟩) (v := ⟨y.re, y.im⟩) k1 ⟨hx.1, FI.neg hx.2⟩ ⟨hy.1, hy.2⟩ h
  have h2 := FI.vdot (u := ⟨x.re, x.im⟩) (v := ⟨y.im, y.re⟩) k2 ⟨hx.1, hx.2⟩ ⟨hy.2, hy.1⟩ h
  constructor
  · unfold mulCF
    rw [h1, h2]
    apply Complex.ext
    · simp; ring
    · simp
  · constructor
    · rw [Complex.mul_re]; exact FI.sub (FI.mul hx.1 hy.1) (FI.mul hx.2 hy.2)
    · rw [Complex.mul_im]; exact FI.add (FI.mul hx.1 hy.2) (FI.mul hx.2 hy.1)

theorem add_int {A B : ℕ} {x y : ℂ} (hx : IntC A x) (hy : IntC B y) (h : A + B ≤ 2 ^ 53) :
    addCF x y = x + y ∧ IntC (A + B) (x + y) := by
  have h1 := FI.add hx.1 hy.1
  have h2 := FI.add hx.2 hy.2
  refine ⟨?_, h1, h2⟩
  unfold addCF
  rw [FI.fl h1 h, FI.fl h2 h]
  rfl

theorem intC_mono {A B : ℕ} {x : ℂ} (hx : IntC A x) (h : A ≤ B) : IntC B x := ⟨FI.mono hx.1 h, FI.mono hx.2 h⟩

theorem one_le_norm {B : ℕ} {x : ℂ} (hx : IntC B x) (h : x ≠ 0) : 1 ≤ ‖x‖ := by
  by_cases hr : x.re = 0
  · have : x.im ≠ 0 := fun h' => h (Complex.ext hr h')
    exact (FI.one_le_abs hx.2 this).trans (Complex.abs_im_le_norm x)
  · exact (FI.one_le_abs hx.1 hr).trans (Complex.abs_re_le_norm x)

end FM

/-- C126: `Mobius.transform` at a point with integer coordinates up to `2^24`, for a matrix with integer parts up to `2^24`: when the
image is finite, each coordinate is computed with an error of at most thirteen roundings of the distance of the image to the origin. -/
theorem C126_transform (k : Mobius.Rounding) (f : Mobius) (P R : Pt) (hf : IntMat (2 ^ 24) f.M) (hP : IntPt (2 ^ 24) P)
    (hd : f.c * cpx P + f.d ≠ 0) (hR : IsMobImage f.a f.b f.c f.d (.fin P) (.fin R)) :
    ∃ Q, f.transformF k (.fin P) = .ok (.fin Q) ∧ |Q.x - R.x| ≤ 13 / 2 ^ 53 * Spec.dist R ⟨0, 0⟩ ∧
      |Q.y - R.y| ≤ 13 / 2 ^ 53 * Spec.dist R ⟨0, 0⟩ := by
  have iz : IntC (2 ^ 24) (toC P) := hP
  have ia : IntC (2 ^ 24) f.a := hf 0 0
  have ib : IntC (2 ^ 24) f.b := hf 0 1
  have ic : IntC (2 ^ 24) f.c := hf 1 0
  have id : IntC (2 ^ 24) f.d := hf 1 1
  have hz : cpx P = toC P := rfl
  rw [hz] at hd
  obtain ⟨n1, n2⟩ := FM.mul_int k.a1 k.a2 ia iz (by norm_num)
  obtain ⟨n3, n4⟩ := FM.add_int n2 ib (by norm_num)
  obtain ⟨d1, d2⟩ := FM.mul_int k.c1 k.c2 ic iz (by norm_num)
  obtain ⟨d3, d4⟩ := FM.add_int d2 id (by norm_num)
  obtain ⟨w, ew, w1, w2⟩ := (C126_div k.q.1 k.q.2.1 k.q.2.2 _ _ (FM.intC_mono n4 (by norm_num)) (FM.intC_mono d4 (by norm_num))).2 hd
  have hq : (f.a * toC P + f.b) / (f.c * toC P + f.d) = toC R := by
    rw [div_eq_iff hd]
    unfold IsMobImage at hR
    simp only [num, den, mul_one] at hR
    rw [hz, show cpx R = toC R from rfl] at hR
    rw [hR]; ring
  have hnorm : ‖toC R‖ = Spec.dist R ⟨0, 0⟩ := by
    unfold Spec.dist sqDist
    rw [← Real.sqrt_sq (norm_nonneg (toC R)), Complex.sq_norm, Complex.normSq_apply]
    congr 1
    simp [toC]; ring
  rw [hq, hnorm] at w1 w2
  have hpole : ∃ o, f.poleF k = .ok o ∧ o ≠ some (toC P) := by
    unfold Mobius.poleF
    by_cases hc : f.c = 0
    · exact ⟨none, by rw [if_neg (not_not.2 hc)], by simp⟩
    · rw [if_pos hc]
      have ind : IntC (2 ^ 24) (-f.d) := ⟨FI.neg id.1, FI.neg id.2⟩
      obtain ⟨v, ev, v1, v2⟩ := (C126_div k.p.1 k.p.2.1 k.p.2.2 (-f.d) f.c (FM.intC_mono ind (by norm_num)) (FM.intC_mono ic (by norm_num))).2 hc
      refine ⟨some v, by rw [ev]; rfl, ?_⟩
      intro h
      have hv : v = toC P := by injection h
      have c1 := norm_pos_iff.2 hc
      have h1 : 1 ≤ ‖f.c * toC P + f.d‖ := FM.one_le_norm d4 hd
      have h2 : ‖v - -f.d / f.c‖ ≤ |(v - -f.d / f.c).re| + |(v - -f.d / f.c).im| := Complex.norm_le_abs_re_add_abs_im _
      have h3 : ‖f.c * toC P + f.d‖ = ‖f.c‖ * ‖v - -f.d / f.c‖ := by
        rw [← norm_mul, hv]; congr 1; field_simp; ring
      have h4 : ‖-f.d / f.c‖ = ‖f.d‖ / ‖f.c‖ := by rw [norm_div, norm_neg]
      have h5 : ‖f.d‖ ≤ 2 ^ 25 := by
        have := Complex.norm_le_abs_re_add_abs_im f.d
        have e1 := FI.abs_le id.1
        have e2 := FI.abs_le id.2
        norm_num at *
        linarith
      rw [Complex.sub_re, Complex.sub_im] at h2
      rw [h4] at v1 v2
      have h6 : ‖f.c‖ * ‖v - -f.d / f.c‖ ≤ ‖f.c‖ * (26 / 2 ^ 53 * (‖f.d‖ / ‖f.c‖)) := by
        gcongr
        refine h2.trans ?_
        generalize ‖f.d‖ / ‖f.c‖ = t at *
        norm_num at v1 v2 ⊢
        linarith
      rw [← h3, show ‖f.c‖ * (26 / 2 ^ 53 * (‖f.d‖ / ‖f.c‖)) = 26 / 2 ^ 53 * ‖f.d‖ by field_simp] at h6
      norm_num at *
      linarith
  obtain ⟨o, eo, ho⟩ := hpole
  refine ⟨from_complex_ w, ?_, w1, w2⟩
  unfold Mobius.transformF
  dsimp only
  rw [eo, Res.ok_bind, if_neg ho, n1, n3, d1, d3, ew]
  rfl

/-- The matrix (1, 2; 3, 4) at the point (1, 1): the image of `1 + i` is `(3 + i)/(7 + 3i)`, of parts `24/58` and `-2/58`. -/
example (k : Mobius.Rounding) : ∃ Q, (⟨!![1, 2; 3, 4]⟩ : Mobius).transformF k (.fin ⟨1, 1⟩) = .ok (.fin Q) ∧ |Q.x - 12 / 29| ≤ 1 / 2 ^ 49 ∧
    |Q.y + 1 / 29| ≤ 1 / 2 ^ 49 := by
  have hM : IntMat (2 ^ 24) (!![1, 2; 3, 4] : Matrix (Fin 2) (Fin 2) ℂ) := by
    intro i j
    fin_cases i <;> fin_cases j
    · exact ⟨⟨1, by simp, by norm_num⟩, ⟨0, by simp, by norm_num⟩⟩
    · exact ⟨⟨2, by simp, by norm_num⟩, ⟨0, by simp, by norm_num⟩⟩
    · exact ⟨⟨3, by simp, by norm_num⟩, ⟨0, by simp, by norm_num⟩⟩
    · exact ⟨⟨4, by simp, by norm_num⟩, ⟨0, by simp, by norm_num⟩⟩
  obtain ⟨Q, e, h1, h2⟩ := C126_transform k ⟨!![1, 2; 3, 4]⟩ ⟨1, 1⟩ ⟨12 / 29, -1 / 29⟩ hM ⟨⟨1, by norm_num, by norm_num⟩, ⟨1, by norm_num, by norm_num⟩⟩
    (by
      intro h
      have := congrArg Complex.im h
      simp [Mobius.c, Mobius.d, cpx] at this) (by
      unfold IsMobImage
      apply Complex.ext
      · simp [Mobius.a, Mobius.b, Mobius.c, Mobius.d, num, den, cpx]; norm_num
      · simp [Mobius.a, Mobius.b, Mobius.c, Mobius.d, num, den, cpx]; norm_num)
  have hd : Spec.dist ⟨12 / 29, -1 / 29⟩ ⟨0, 0⟩ ≤ 1 := by
    unfold Spec.dist sqDist
    rw [Real.sqrt_le_left (by norm_num)]
    norm_num
  refine ⟨Q, e, ?_, ?_⟩
  · refine h1.trans ?_
    norm_num at hd ⊢
    linarith
  · rw [show Q.y + 1 / 29 = Q.y - -1 / 29 by ring]
    refine h2.trans ?_
    norm_num at hd ⊢
    linarith

/-- C126: `Mobius.transform` at `inf`: `inf` exactly when `c` is zero, and otherwise `a/c` with an error of at most thirteen roundings. -/
theorem C126_transform_inf (k : Mobius.Rounding) (f : Mobius) (hf : IntMat (2 ^ 53) f.M) :
    (f.transformF k .inf = .ok .inf ↔ f.c = 0) ∧
    (f.c ≠ 0 → ∃ Q, f.transformF k .inf = .ok (.fin Q) ∧ |Q.x - (f.a / f.c).re| ≤ 13 / 2 ^ 53 * ‖f.a / f.c‖ ∧
      |Q.y - (f.a / f.c).im| ≤ 13 / 2 ^ 53 * ‖f.a / f.c‖) := by
  have main : f.c ≠ 0 → ∃ Q, f.transformF k .inf = .ok (.fin Q) ∧ |Q.x - (f.a / f.c).re| ≤ 13 / 2 ^ 53 * ‖f.a / f.c‖ ∧
      |Q.y - (f.a / f.c).im| ≤ 13 / 2 ^ 53 * ‖f.a / f.c‖ := by
    intro hc
    obtain ⟨w, e, h1, h2⟩ := (C126_div k.p.1 k.p.2.1 k.p.2.2 f.a f.c (hf 0 0) (hf 1 0)).2 hc
    refine ⟨from_complex_ w, ?_, h1, h2⟩
    unfold Mobius.transformF
    dsimp only
    rw [if_neg hc, e]
    rfl
  refine ⟨⟨fun h => ?_, fun h => ?_⟩, main⟩
  · by_contra hc
    obtain ⟨Q, e, -⟩ := main hc
    rw [e] at h
    simp at h
  · unfold Mobius.transformF
    dsimp only
    rw [if_pos h]

/-- The inversion `1/z` sends `inf` to a finite point, the translation by one does not. -/
example (k : Mobius.Rounding) : (⟨!![1, 1; 0, 1]⟩ : Mobius).transformF k .inf = .ok .inf := by
  refine (C126_transform_inf k _ ?_).1.2 (by simp [Mobius.c])
  intro i j
  fin_cases i <;> fin_cases j
  · exact ⟨⟨1, by simp, by norm_num⟩, ⟨0, by simp, by norm_num⟩⟩
  · exact ⟨⟨1, by simp, by norm_num⟩, ⟨0, by simp, by norm_num⟩⟩
  · exact ⟨⟨0, by simp, by norm_num⟩, ⟨0, by simp, by norm_num⟩⟩
  · exact ⟨⟨1, by simp, by norm_num⟩, ⟨0, by simp, by norm_num⟩⟩

namespace FM

theorem maF_zero (k : Bool) (x a : ℝ) : maF k x a 0 = fl x := by unfold maF; simp [fl_zero]

/-- The quotient by a real number. -/
theorem div_real (k1 k2 k3 : Bool) (x : ℂ) {c : ℝ} (hc : c ≠ 0) (dc : IsDouble c) (d1 : IsDouble x.re) (d2 : IsDouble x.im) :
    divCF k1 k2 k3 x c = .ok ⟨fl (x.re * fl (1 / c)), fl (x.im * fl (1 / c))⟩ := by
  unfold divCF
  rw [if_neg (by exact_mod_cast hc), if_pos (by simp)]
  simp only [Complex.ofReal_re, Complex.ofReal_im, zero_div, fl_zero, maF_zero, fl_double dc, fl_double d1, fl_double d2]

theorem at_pole (k : Mobius.Rounding) (f : Mobius) (P : Pt) (hf : IntMat (2 ^ 24) f.M) (hP : IntPt (2 ^ 24) P)
    (hd : f.c * toC P + f.d = 0) : f.transformF k (.fin P) = (f.poleF k).bind fun pole =>
      if pole = some (toC P) then Except.ok XPt.inf else Except.error Err.nonFinite := by
  have iz : IntC (2 ^ 24) (toC P) := hP
  have ic : IntC (2 ^ 24) f.c := hf 1 0
  have id : IntC (2 ^ 24) f.d := hf 1 1
  obtain ⟨d1, d2⟩ := FM.mul_int k.c1 k.c2 ic iz (by norm_num)
  obtain ⟨d3, d4⟩ := FM.add_int d2 id (by norm_num)
  have h0 : ∀ x, divCF k.q.1 k.q.2.1 k.q.2.2 x 0 = .error .nonFinite := fun x => by unfold divCF; rw [if_pos rfl]
  unfold Mobius.transformF
  dsimp only
  rw [d1, d3, hd]
  simp only [h0]
  rfl

end FM

/-- C126: at the pole with integer coordinates up to `2^24`, for a matrix with integer parts up to `2^24`, the result is `inf` or the
division by zero of the last line. -/
theorem C126_transform_pole (k : Mobius.Rounding) (f : Mobius) (P : Pt) (hf : IntMat (2 ^ 24) f.M) (hP : IntPt (2 ^ 24) P)
    (hc : f.c ≠ 0) (hd : f.c * cpx P + f.d = 0) :
    f.transformF k (.fin P) = .ok .inf ∨ f.transformF k (.fin P) = .error .nonFinite := by
  have hz : cpx P = toC P := rfl
  rw [FM.at_pole k f P hf hP (by rw [← hz]; exact hd)]
  have ic : IntC (2 ^ 24) f.c := hf 1 0
  have id : IntC (2 ^ 24) f.d := hf 1 1
  have ind : IntC (2 ^ 24) (-f.d) := ⟨FI.neg id.1, FI.neg id.2⟩
  obtain ⟨v, ev, -⟩ := (C126_div k.p.1 k.p.2.1 k.p.2.2 (-f.d) f.c (FM.intC_mono ind (by norm_num)) (FM.intC_mono ic (by norm_num))).2 hc
  have : f.poleF k = .ok (some v) := by
    unfold Mobius.poleF
    rw [if_pos hc, ev]
    rfl
  rw [this]
  simp only [Except.bind]
  split_ifs
  · left; rfl
  · right; rfl

/-- The pole `(1, 2)` of `1/((3 + 4i) z - (3 + 4i)(1 + 2i))`. -/
example (k : Mobius.Rounding) : (⟨!![0, 1; ⟨3, 4⟩, ⟨5, -10⟩]⟩ : Mobius).transformF k (.fin ⟨1, 2⟩) = .ok .inf ∨
    (⟨!![0, 1; ⟨3, 4⟩, ⟨5, -10⟩]⟩ : Mobius).transformF k (.fin ⟨1, 2⟩) = .error .nonFinite := by
  refine C126_transform_pole k _ _ ?_ ⟨⟨1, by norm_num, by norm_num⟩, ⟨2, by norm_num, by norm_num⟩⟩ ?_ ?_
  · intro i j
    fin_cases i <;> fin_cases j
    · exact ⟨⟨0, by simp, by norm_num⟩, ⟨0, by simp, by norm_num⟩⟩
    · exact ⟨⟨1, by simp, by norm_num⟩, ⟨0, by simp, by norm_num⟩⟩
    · exact ⟨⟨3, by simp, by norm_num⟩, ⟨4, by simp, by norm_num⟩⟩
    · exact ⟨⟨5, by simp, by norm_num⟩, ⟨-10, by simp, by norm_num⟩⟩
  · intro h
    have := congrArg Complex.re h
    simp [Mobius.c] at this
  · apply Complex.ext
    · simp [Mobius.c, Mobius.d, cpx]; norm_num
    · simp [Mobius.c, Mobius.d, cpx]; norm_num

/-- C126: when `c` is a power of two, the image of the pole is `inf`. -/
theorem C126_transform_pole_pow (k : Mobius.Rounding) (f : Mobius) (P : Pt) (m : ℕ) (hm : m ≤ 24) (hf : IntMat (2 ^ 24) f.M)
    (hP : IntPt (2 ^ 24) P) (hc : f.c = ((2 ^ m : ℝ) : ℂ)) (hd : f.c * cpx P + f.d = 0) : f.transformF k (.fin P) = .ok .inf := by
  have hz : cpx P = toC P := rfl
  rw [hz] at hd
  rw [FM.at_pole k f P hf hP hd]
  have id : IntC (2 ^ 24) f.d := hf 1 1
  have p0 : (2 ^ m : ℝ) ≠ 0 := by positivity
  have hc0 : f.c ≠ 0 := by rw [hc]; exact_mod_cast p0
  have hdm : -f.d = ((2 ^ m : ℝ) : ℂ) * toC P := by rw [← hc]; linear_combination -hd
  have hre : (-f.d).re = 2 ^ m * P.x := by rw [hdm, Complex.re_ofReal_mul]; rfl
  have him : (-f.d).im = 2 ^ m * P.y := by rw [hdm, Complex.im_ofReal_mul]; rfl
  have dm : IsDouble (2 ^ m : ℝ) := by
    have := isDouble_pow (m : ℤ) (by omega)
    rwa [zpow_natCast] at this
  have dr : fl (1 / 2 ^ m : ℝ) = 1 / 2 ^ m := by
    have := fl_double (isDouble_pow (-(m : ℤ)) (by omega))
    rwa [zpow_neg, zpow_natCast, inv_eq_one_div] at this
  have hpole : f.poleF k = .ok (some (toC P)) := by
    unfold Mobius.poleF
    rw [if_pos hc0, hc, FM.div_real _ _ _ _ p0 dm (FI.isDouble (FI.neg id.1) (by norm_num)) (FI.isDouble (FI.neg id.2) (by norm_num)), hre, him,
      dr, show 2 ^ m * P.x * (1 / 2 ^ m) = P.x by field_simp, show 2 ^ m * P.y * (1 / 2 ^ m) = P.y by field_simp,
      FI.fl hP.1 (by norm_num), FI.fl hP.2 (by norm_num)]
    rfl
  rw [hpole]
  simp only [Except.bind, if_true]

/-- The pole of `1/(2z - 6)`. -/
example (k : Mobius.Rounding) : (⟨!![0, 1; 2, -6]⟩ : Mobius).transformF k (.fin ⟨3, 0⟩) = .ok .inf := by
  refine C126_transform_pole_pow k _ _ 1 (by norm_num) ?_ ⟨⟨3, by norm_num, by norm_num⟩, ⟨0, by norm_num, by norm_num⟩⟩
    (by simp [Mobius.c]) ?_
  · intro i j
    fin_cases i <;> fin_cases j
    · exact ⟨⟨0, by simp, by norm_num⟩, ⟨0, by simp, by norm_num⟩⟩
    · exact ⟨⟨1, by simp, by norm_num⟩, ⟨0, by simp, by norm_num⟩⟩
    · exact ⟨⟨2, by simp, by norm_num⟩, ⟨0, by simp, by norm_num⟩⟩
    · exact ⟨⟨-6, by simp, by norm_num⟩, ⟨0, by simp, by norm_num⟩⟩
  · apply Complex.ext
    · simp [Mobius.c, Mobius.d, cpx]; norm_num
    · simp [Mobius.c, Mobius.d, cpx]

/-- C126: in general the image of the pole is not `inf`: `-d/c` is computed with a reciprocal, and `49 * (1/49)` is not one in double
precision; for the matrix (1, 0; 49, -49) and the point (1, 0) the program divides by zero. -/
theorem C126_transform_pole_counterexample (k : Mobius.Rounding) :
    (⟨!![1, 0; 49, -49]⟩ : Mobius).transformF k (.fin ⟨1, 0⟩) = .error .nonFinite ∧
    (⟨!![1, 0; 49, -49]⟩ : Mobius).transform (.fin ⟨1, 0⟩) = .ok .inf := by
  have hM : IntMat (2 ^ 24) (!![1, 0; 49, -49] : Matrix (Fin 2) (Fin 2) ℂ) := by
    intro i j
    fin_cases i <;> fin_cases j
    · exact ⟨⟨1, by simp, by norm_num⟩, ⟨0, by simp, by norm_num⟩⟩
    · exact ⟨⟨0, by simp, by norm_num⟩, ⟨0, by simp, by norm_num⟩⟩
    · exact ⟨⟨49, by simp, by norm_num⟩, ⟨0, by simp, by norm_num⟩⟩
    · exact ⟨⟨-49, by simp, by norm_num⟩, ⟨0, by simp, by norm_num⟩⟩
  have hd : (⟨!![1, 0; 49, -49]⟩ : Mobius).c * toC ⟨1, 0⟩ + (⟨!![1, 0; 49, -49]⟩ : Mobius).d = 0 := by
    apply Complex.ext
    · simp [Mobius.c, Mobius.d, toC]
    · simp [Mobius.c, Mobius.d, toC]
  have hc : (⟨!![1, 0; 49, -49]⟩ : Mobius).c = ((49 : ℝ) : ℂ) := by simp [Mobius.c]
  have hd' : -(⟨!![1, 0; 49, -49]⟩ : Mobius).d = ((49 : ℝ) : ℂ) := by simp [Mobius.d]
  constructor
  · rw [FM.at_pole k _ _ hM ⟨⟨1, by norm_num, by norm_num⟩, ⟨0, by norm_num, by norm_num⟩⟩ hd]
    have f1 : fl (1 / 49) = 5882252574524729 / 2 ^ 58 := by
      rw [fl_eval (e := -58) (n := 5882252574524729) (by norm_num) (by norm_num [abs_of_pos]) (by norm_num [abs_of_pos]) (by norm_num [abs_lt])]
      norm_num
    have f2 : fl (49 * (5882252574524729 / 2 ^ 58)) = 9007199254740991 / 2 ^ 53 := by
      rw [fl_eval (e := -53) (n := 9007199254740991) (by norm_num) (by norm_num [abs_of_pos]) (by norm_num [abs_of_pos]) (by norm_num [abs_lt])]
      norm_num
    have d49 : IsDouble (49 : ℝ) := by have := isDouble_int (n := 49) (by norm_num); push_cast at this; exact this
    have d0 : IsDouble (0 : ℝ) := by have := isDouble_int (n := 0) (by norm_num); push_cast at this; exact this
    have hp : (⟨!![1, 0; 49, -49]⟩ : Mobius).poleF k = .ok (some ⟨9007199254740991 / 2 ^ 53, 0⟩) := by
      unfold Mobius.poleF
      rw [if_pos (by rw [hc]; norm_num), hd', hc, FM.div_real _ _ _ _ (by norm_num) d49 d49 d0]
      simp only [Complex.ofReal_re, Complex.ofReal_im, f1, f2, zero_mul, fl_zero]
      rfl
    rw [hp]
    simp only [Except.bind]
    rw [if_neg]
    intro h
    have := congrArg (fun o : Option ℂ => (o.getD 0).re) h
    simp [toC] at this
    norm_num at this
  · unfold Mobius.transform
    dsimp only
    rw [if_pos]
    refine ⟨by rw [hc]; norm_num, ?_⟩
    rw [hd', hc, div_self (by norm_num)]
    apply Complex.ext <;> simp [toC]
