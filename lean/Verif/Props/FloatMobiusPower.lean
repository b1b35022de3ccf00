import Verif.Props.FloatMobius

/-!
# C126, continued: a bound on the entries and the exponent under which `Mobius.power` is exact in double precision
-/

open Spec Real Classical FG FT

namespace FM

theorem intMat_mul {A B : ℕ} {M N : Matrix (Fin 2) (Fin 2) ℂ} (hM : IntMat A M) (hN : IntMat B N) : IntMat (4 * (A * B)) (M * N) := by
  intro i j
  rw [Matrix.mul_apply, Fin.sum_univ_two, Complex.add_re, Complex.add_im, Complex.mul_re, Complex.mul_re, Complex.mul_im, Complex.mul_im]
  refine ⟨FI.mono (FI.add (FI.sub (FI.mul (hM i 0).1 (hN 0 j).1) (FI.mul (hM i 0).2 (hN 0 j).2)) (FI.sub (FI.mul (hM i 1).1 (hN 1 j).1) (FI.mul (hM i 1).2 (hN 1 j).2))) ?_,
    FI.mono (FI.add (FI.add (FI.mul (hM i 0).1 (hN 0 j).2) (FI.mul (hM i 0).2 (hN 0 j).1)) (FI.add (FI.mul (hM i 1).1 (hN 1 j).2) (FI.mul (hM i 1).2 (hN 1 j).1))) ?_⟩ <;> omega

theorem intMat_one : IntMat 1 (1 : Matrix (Fin 2) (Fin 2) ℂ) := by
  intro i j
  fin_cases i <;> fin_cases j
  · exact ⟨⟨1, by simp, by norm_num⟩, ⟨0, by simp, by norm_num⟩⟩
  · exact ⟨⟨0, by simp, by norm_num⟩, ⟨0, by simp, by norm_num⟩⟩
  · exact ⟨⟨0, by simp, by norm_num⟩, ⟨0, by simp, by norm_num⟩⟩
  · exact ⟨⟨1, by simp, by norm_num⟩, ⟨0, by simp, by norm_num⟩⟩

theorem intMat_pow {B : ℕ} {M : Matrix (Fin 2) (Fin 2) ℂ} (hM : IntMat B M) (j : ℕ) : IntMat ((4 * B) ^ j) (M ^ j) := by
  induction j with
  | zero => simpa using intMat_one
  | succ j ih =>
    rw [pow_succ, pow_succ]
    have := intMat_mul ih hM
    rwa [show 4 * ((4 * B) ^ j * B) = (4 * B) ^ j * (4 * B) by ring] at this

theorem intMat_pow_le {B n : ℕ} {M : Matrix (Fin 2) (Fin 2) ℂ} (hB : 1 ≤ B) (hM : IntMat B M) (h : (4 * B) ^ n ≤ 2 ^ 25) : ∀ j ≤ n, IntMat (2 ^ 25) (M ^ j) := by
  intro j hj a b
  have hl := (Nat.pow_le_pow_right (show 0 < 4 * B by omega) hj).trans h
  exact ⟨FI.mono (intMat_pow hM j a b).1 hl, FI.mono (intMat_pow hM j a b).2 hl⟩

end FM

/-- C126: if the entries of the matrix have integer parts up to `B` and `(4B)^n ≤ 2^25`, then `Mobius.power` makes no error for the exponents `n` and `-n`. -/
theorem C126_power_bound {mm : Matrix (Fin 2) (Fin 2) ℂ → Matrix (Fin 2) (Fin 2) ℂ → Matrix (Fin 2) (Fin 2) ℂ} (hm : IsMatmul mm)
    (f : Mobius) {B n : ℕ} (hB : 1 ≤ B) (hf : IntMat B f.M) (h : (4 * B) ^ n ≤ 2 ^ 25) :
    f.powerF mm n = ⟨f.M ^ n⟩ ∧ f.powerF mm (-n) = ⟨!![f.d, -f.b; -f.c, f.a] ^ n⟩ := by
  refine ⟨(C126_power hm f n).1 (FM.intMat_pow_le hB hf h), (C126_power hm f n).2 (FM.intMat_pow_le hB ?_ h)⟩
  intro i j
  fin_cases i <;> fin_cases j
  · exact hf 1 1
  · exact ⟨FI.neg (hf 0 1).1, FI.neg (hf 0 1).2⟩
  · exact ⟨FI.neg (hf 1 0).1, FI.neg (hf 1 0).2⟩
  · exact hf 0 0

-- Entries up to 8 and the fifth power.
example {mm : Matrix (Fin 2) (Fin 2) ℂ → Matrix (Fin 2) (Fin 2) ℂ → Matrix (Fin 2) (Fin 2) ℂ} (hm : IsMatmul mm) :
    (⟨!![1, 8; 0, 1]⟩ : Mobius).powerF mm (-5) = ⟨!![1, -40; 0, 1]⟩ := by
  have h := (C126_power_bound hm ⟨!![1, 8; 0, 1]⟩ (B := 8) (n := 5) (by norm_num) (by
    intro i j
    fin_cases i <;> fin_cases j
    · exact ⟨⟨1, by simp, by norm_num⟩, ⟨0, by simp, by norm_num⟩⟩
    · exact ⟨⟨8, by simp, by norm_num⟩, ⟨0, by simp, by norm_num⟩⟩
    · exact ⟨⟨0, by simp, by norm_num⟩, ⟨0, by simp, by norm_num⟩⟩
    · exact ⟨⟨1, by simp, by norm_num⟩, ⟨0, by simp, by norm_num⟩⟩) (by norm_num)).2
  have e : ((5 : ℕ) : ℤ) = 5 := rfl
  rw [e] at h
  rw [h]
  congr 1
  simp only [Mobius.a, Mobius.b, Mobius.c, Mobius.d, pow_succ, pow_zero, one_mul]
  simp [Matrix.mul_fin_two]
  norm_num
