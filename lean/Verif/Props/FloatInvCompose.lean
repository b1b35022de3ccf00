import Verif.Model.FloatInvCompose
import Verif.Props.FloatMobius
import Verif.Props.InvCompose

/-!
# C147: the composition of two inversions in double precision
-/

open Spec Real Classical FG FT

namespace FInv

/-- The matrix of an inversion is exact, with integer entries. -/
theorem matrix {A K : ℕ} {iota : Inversion} (hp : IntPt A iota.pole) (hk : IntB K iota.power) (h : K + (A * A + A * A) ≤ 2 ^ 25) (h1 : 1 ≤ A) :
    inversion_to_conjugate_mobiusF iota = inversion_to_conjugate_mobius_ iota ∧ IntMat (2 ^ 25) (inversion_to_conjugate_mobius_ iota) ∧
    IntMat (2 ^ 25) ((inversion_to_conjugate_mobius_ iota).map (starRingEnd ℂ)) := by
  have i1 := FI.mul hp.1 hp.1
  have i2 := FI.mul hp.2 hp.2
  have i3 := FI.add i1 i2
  have i4 := FI.sub hk i3
  have hA : A ≤ A * A := Nat.le_mul_of_pos_left A h1
  have z : IntB (2 ^ 25) 0 := ⟨0, by norm_num, by norm_num⟩
  have o : IntB (2 ^ 25) 1 := ⟨1, by norm_num, by norm_num⟩
  have px : IntB (2 ^ 25) iota.pole.x := FI.mono hp.1 (by omega)
  have py : IntB (2 ^ 25) iota.pole.y := FI.mono hp.2 (by omega)
  have pk : IntB (2 ^ 25) (iota.power - (iota.pole.x * iota.pole.x + iota.pole.y * iota.pole.y)) := FI.mono i4 h
  have e : (((iota.power : ℝ) : ℂ) - ((mod2_ (toC iota.pole) : ℝ) : ℂ)) = ((iota.power - (iota.pole.x * iota.pole.x + iota.pole.y * iota.pole.y) : ℝ) : ℂ) := by
    rw [← Complex.ofReal_sub]
    rfl
  refine ⟨?_, ?_, ?_⟩
  · unfold inversion_to_conjugate_mobiusF inversion_to_conjugate_mobius_
    dsimp only
    rw [e]
    change !![toC iota.pole, ((fl (iota.power - fl (fl (iota.pole.x * iota.pole.x) + fl (iota.pole.y * iota.pole.y))) : ℝ) : ℂ); 1, -(starRingEnd ℂ) (toC iota.pole)] = _
    rw [FI.fl i1 (by omega), FI.fl i2 (by omega), FI.fl i3 (by omega), FI.fl i4 (by omega)]
  · unfold inversion_to_conjugate_mobius_
    dsimp only
    rw [e]
    intro i j
    fin_cases i <;> fin_cases j
    · exact ⟨px, py⟩
    · refine ⟨?_, ?_⟩
      · simpa using pk
      · simpa using z
    · refine ⟨?_, ?_⟩
      · simpa using o
      · simpa using z
    · refine ⟨?_, ?_⟩
      · simpa [toC] using FI.neg px
      · simpa [toC] using py
  · unfold inversion_to_conjugate_mobius_
    dsimp only
    rw [e]
    intro i j
    fin_cases i <;> fin_cases j
    · refine ⟨?_, ?_⟩
      · simpa [toC] using px
      · simpa [toC] using FI.neg py
    · refine ⟨?_, ?_⟩
      · simpa using pk
      · simpa using z
    · refine ⟨?_, ?_⟩
      · simpa using o
      · simpa using z
    · refine ⟨?_, ?_⟩
      · simpa [toC] using FI.neg px
      · simpa [toC] using FI.neg py

end FInv

/-- **C147.** For poles with integer coordinates up to `2 ^ 11` and integer powers up to `2 ^ 23`, `Inversion.compose` in double precision returns exactly the
Möbius transformation that it returns without rounding. -/
theorem C147_compose {mm : Matrix (Fin 2) (Fin 2) ℂ → Matrix (Fin 2) (Fin 2) ℂ → Matrix (Fin 2) (Fin 2) ℂ} (hm : IsMatmul mm) (i j : Inversion) (left : Bool)
    (hi : IntPt (2 ^ 11) i.pole) (hj : IntPt (2 ^ 11) j.pole) (ki : IntB (2 ^ 23) i.power) (kj : IntB (2 ^ 23) j.power) :
    i.composeF mm j left = i.compose j left := by
  obtain ⟨e1, a1, b1⟩ := FInv.matrix hi ki (by norm_num) (by norm_num)
  obtain ⟨e2, a2, b2⟩ := FInv.matrix hj kj (by norm_num) (by norm_num)
  unfold Inversion.composeF Inversion.compose Mobius.compose
  dsimp only
  have c1 := C126_compose hm ⟨(inversion_to_conjugate_mobius_ i).map (starRingEnd ℂ)⟩ ⟨inversion_to_conjugate_mobius_ j⟩ true b1 a2
  have c2 := C126_compose hm ⟨(inversion_to_conjugate_mobius_ j).map (starRingEnd ℂ)⟩ ⟨inversion_to_conjugate_mobius_ i⟩ true b2 a1
  rw [e1, e2, c1, c2]

/-- The transformation composed in double precision, applied in double precision: for data up to 64, powers up to 4096 and a point with integer coordinates up to
`2 ^ 24`, the error is at most 13 roundings of the distance of the image from the origin. -/
theorem C147_transform {mm : Matrix (Fin 2) (Fin 2) ℂ → Matrix (Fin 2) (Fin 2) ℂ → Matrix (Fin 2) (Fin 2) ℂ} (hm : IsMatmul mm) (k : Mobius.Rounding) (i j : Inversion)
    (hi : IntPt 64 i.pole) (hj : IntPt 64 j.pole) (ki : IntB 4096 i.power) (kj : IntB 4096 j.power) (i0 : i.power ≠ 0) (j0 : j.power ≠ 0) (M K : Pt) (N : XPt)
    (hM : IntPt (2 ^ 24) M) (h1 : IsXInverse i.pole i.power (.fin M) N) (h2 : IsXInverse j.pole j.power N (.fin K)) :
    ∃ Q, (i.composeF mm j).transformF k (.fin M) = .ok (.fin Q) ∧ |Q.x - K.x| ≤ 13 / 2 ^ 53 * Spec.dist K ⟨0, 0⟩ ∧ |Q.y - K.y| ≤ 13 / 2 ^ 53 * Spec.dist K ⟨0, 0⟩ := by
  have up : ∀ {P : Pt}, IntPt 64 P → IntPt (2 ^ 11) P := fun h => ⟨FI.mono h.1 (by norm_num), FI.mono h.2 (by norm_num)⟩
  rw [C147_compose hm i j true (up hi) (up hj) (FI.mono ki (by norm_num)) (FI.mono kj (by norm_num))]
  obtain ⟨⟨hdet, h⟩, -⟩ := C28_compose i j i0 j0
  have im := (C49_transform _ hdet _ _).1 (h _ _ _ h1 h2)
  refine C126_transform k _ M K ?_ hM ?_ im
  · -- the entries
    have q1 := FI.sub ki (FI.add (FI.mul hi.1 hi.1) (FI.mul hi.2 hi.2))
    have q2 := FI.sub kj (FI.add (FI.mul hj.1 hj.1) (FI.mul hj.2 hj.2))
    have e : (i.compose j).M = inversion_to_conjugate_mobius_ j * (inversion_to_conjugate_mobius_ i).map (starRingEnd ℂ) := by
      simp only [Inversion.compose, Mobius.compose, if_true]
    rw [e]
    intro s t
    fin_cases s <;> fin_cases t
    · refine ⟨?_, ?_⟩
      · have h : IntB (2 ^ 24) (j.pole.x * i.pole.x + j.pole.y * i.pole.y + (j.power - (j.pole.x * j.pole.x + j.pole.y * j.pole.y))) :=
          FI.mono (FI.add (FI.add (FI.mul hj.1 hi.1) (FI.mul hj.2 hi.2)) q2) (by norm_num)
        simpa [inversion_to_conjugate_mobius_, Matrix.mul_apply, Fin.sum_univ_two, toC, mod2_] using h
      · have h : IntB (2 ^ 24) (-(j.pole.x * i.pole.y) + j.pole.y * i.pole.x) :=
          FI.mono (FI.add (FI.neg (FI.mul hj.1 hi.2)) (FI.mul hj.2 hi.1)) (by norm_num)
        simpa [inversion_to_conjugate_mobius_, Matrix.mul_apply, Fin.sum_univ_two, toC, mod2_] using h
    · refine ⟨?_, ?_⟩
      · have h : IntB (2 ^ 24) (j.pole.x * (i.power - (i.pole.x * i.pole.x + i.pole.y * i.pole.y)) + -((j.power - (j.pole.x * j.pole.x + j.pole.y * j.pole.y)) * i.pole.x)) :=
          FI.mono (FI.add (FI.mul hj.1 q1) (FI.neg (FI.mul q2 hi.1))) (by norm_num)
        simpa [inversion_to_conjugate_mobius_, Matrix.mul_apply, Fin.sum_univ_two, toC, mod2_] using h
      · have h : IntB (2 ^ 24) (j.pole.y * (i.power - (i.pole.x * i.pole.x + i.pole.y * i.pole.y)) + -((j.power - (j.pole.x * j.pole.x + j.pole.y * j.pole.y)) * i.pole.y)) :=
          FI.mono (FI.add (FI.mul hj.2 q1) (FI.neg (FI.mul q2 hi.2))) (by norm_num)
        simpa [inversion_to_conjugate_mobius_, Matrix.mul_apply, Fin.sum_univ_two, toC, mod2_] using h
    · refine ⟨?_, ?_⟩
      · have h : IntB (2 ^ 24) (i.pole.x + -j.pole.x) := FI.mono (FI.add hi.1 (FI.neg hj.1)) (by norm_num)
        simpa [inversion_to_conjugate_mobius_, Matrix.mul_apply, Fin.sum_univ_two, toC, mod2_] using h
      · have h : IntB (2 ^ 24) (-i.pole.y + j.pole.y) := FI.mono (FI.add (FI.neg hi.2) hj.2) (by norm_num)
        simpa [inversion_to_conjugate_mobius_, Matrix.mul_apply, Fin.sum_univ_two, toC, mod2_] using h
    · refine ⟨?_, ?_⟩
      · have h : IntB (2 ^ 24) (i.power - (i.pole.x * i.pole.x + i.pole.y * i.pole.y) + (j.pole.x * i.pole.x + j.pole.y * i.pole.y)) :=
          FI.mono (FI.add q1 (FI.add (FI.mul hj.1 hi.1) (FI.mul hj.2 hi.2))) (by norm_num)
        simpa [inversion_to_conjugate_mobius_, Matrix.mul_apply, Fin.sum_univ_two, toC, mod2_] using h
      · have h : IntB (2 ^ 24) (j.pole.x * i.pole.y + -(j.pole.y * i.pole.x)) := FI.mono (FI.add (FI.mul hj.1 hi.2) (FI.neg (FI.mul hj.2 hi.1))) (by norm_num)
        simpa [inversion_to_conjugate_mobius_, Matrix.mul_apply, Fin.sum_univ_two, toC, mod2_] using h
  · intro hc
    apply hdet
    unfold IsMobImage num den at im
    dsimp only at im
    change (i.compose j).M 1 0 * cpx M + (i.compose j).M 1 1 = 0 at hc
    rw [mul_one, mul_one, mul_one, hc, zero_mul] at im
    rw [Matrix.det_fin_two]
    linear_combination (i.compose j).M 0 0 * hc - (i.compose j).M 1 0 * im

-- The inversions of pole 0 and power 4 and of pole `(1, 0)` and power 9 map `(2, 0)` to `(10, 0)`.
example {mm : Matrix (Fin 2) (Fin 2) ℂ → Matrix (Fin 2) (Fin 2) ℂ → Matrix (Fin 2) (Fin 2) ℂ} (hm : IsMatmul mm) (k : Mobius.Rounding) :
    (⟨⟨0, 0⟩, 4⟩ : Inversion).composeF mm ⟨⟨1, 0⟩, 9⟩ = (⟨⟨0, 0⟩, 4⟩ : Inversion).compose ⟨⟨1, 0⟩, 9⟩ ∧
    ∃ Q, ((⟨⟨0, 0⟩, 4⟩ : Inversion).composeF mm ⟨⟨1, 0⟩, 9⟩).transformF k (.fin ⟨2, 0⟩) = .ok (.fin Q) ∧ |Q.x - 10| ≤ 130 / 2 ^ 53 := by
  have i : ∀ (B : ℕ) (n : ℤ), |n| ≤ B → IntB B n := fun B n hn => ⟨n, rfl, hn⟩
  have z : ∀ B : ℕ, IntB B 0 := fun B => by simpa using i B 0 (by simp)
  have o : ∀ B : ℕ, 1 ≤ B → IntB B 1 := fun B h => by simpa using i B 1 (by simpa using h)
  constructor
  · exact C147_compose hm _ _ _ ⟨z _, z _⟩ ⟨o _ (by norm_num), z _⟩ ⟨4, by norm_num, by norm_num⟩ ⟨9, by norm_num, by norm_num⟩
  · obtain ⟨Q, hQ, h, -⟩ := C147_transform hm k ⟨⟨0, 0⟩, 4⟩ ⟨⟨1, 0⟩, 9⟩ ⟨z _, z _⟩ ⟨o _ (by norm_num), z _⟩ ⟨4, by norm_num, by norm_num⟩
      ⟨9, by norm_num, by norm_num⟩ (by norm_num) (by norm_num) ⟨2, 0⟩ ⟨10, 0⟩ (.fin ⟨2, 0⟩) ⟨⟨2, by norm_num, by norm_num⟩, z _⟩
      (by norm_num [IsXInverse, IsInverse, cross, dot, Pt.ext_iff]) (by norm_num [IsXInverse, IsInverse, cross, dot, Pt.ext_iff])
    refine ⟨Q, hQ, h.trans ?_⟩
    have : Spec.dist (⟨10, 0⟩ : Pt) ⟨0, 0⟩ = 10 := by
      unfold Spec.dist sqDist
      rw [show ((10 : ℝ) - 0) ^ 2 + (0 - 0) ^ 2 = 10 ^ 2 by norm_num, Real.sqrt_sq (by norm_num)]
    rw [this]
    norm_num
