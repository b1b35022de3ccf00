import Verif.Props.Mobius

/-!
# C28: composition of two inversions
-/

open Spec Real Classical

theorem inv_matrix {O : Pt} {k : ℝ} (hk : k ≠ 0) {N K : XPt} (h : IsXInverse O k N K) :
    ∃ ν : ℂ, ν ≠ 0 ∧
      cpx O * (starRingEnd ℂ) (num N) + ((k : ℂ) - mod2_ (cpx O)) * (starRingEnd ℂ) (den N) = ν * num K ∧
      1 * (starRingEnd ℂ) (num N) + -(starRingEnd ℂ) (cpx O) * (starRingEnd ℂ) (den N) = ν * den K := by
  have hm : ((mod2_ (cpx O) : ℝ) : ℂ) = cpx O * (starRingEnd ℂ) (cpx O) := by
    rw [Complex.mul_conj, Complex.normSq_apply]; rfl
  rw [hm]
  cases N with
  | fin N =>
    cases K with
    | fin K =>
      obtain ⟨hne, hcr, hdot⟩ := h
      have e : (cpx K - cpx O) * ((starRingEnd ℂ) (cpx N) - (starRingEnd ℂ) (cpx O)) = k := by
        simp only [dot, cross, Pt.sub_x, Pt.sub_y] at hcr hdot
        apply Complex.ext
        · simp [cpx]; linear_combination hdot
        · simp [cpx]; linear_combination hcr
      refine ⟨(starRingEnd ℂ) (cpx N) - (starRingEnd ℂ) (cpx O), ?_, ?_, ?_⟩
      · rw [← map_sub]
        intro h0
        exact hne (cpx_inj (sub_eq_zero.1 ((map_eq_zero _).1 h0)))
      · simp only [num_fin, den_fin, map_one]
        linear_combination -e
      · simp only [num_fin, den_fin, map_one]
        ring
    | inf =>
      have h' : N = O := h
      subst h'
      refine ⟨k, by exact_mod_cast hk, ?_, ?_⟩
      · simp
      · simp
  | inf =>
    cases K with
    | fin K =>
      have h' : K = O := h
      subst h'
      exact ⟨1, one_ne_zero, by simp, by simp⟩
    | inf => exact absurd h (by simp [IsXInverse])

/-- C28: the composition has a nonzero determinant, and maps every point (`inf` included) to the inverse by `iota2` of its
inverse by `iota1`; with `left=False` the other way round.  The inverses are the exact ones. -/
theorem C28_compose (iota1 iota2 : Inversion) (h1 : iota1.power ≠ 0) (h2 : iota2.power ≠ 0) :
    (Matrix.det (iota1.compose iota2).M ≠ 0 ∧ ∀ M N K, IsXInverse iota1.pole iota1.power M N →
      IsXInverse iota2.pole iota2.power N K → (iota1.compose iota2).transform M = .ok K) ∧
    (Matrix.det (iota1.compose iota2 false).M ≠ 0 ∧ ∀ M N K, IsXInverse iota2.pole iota2.power M N →
      IsXInverse iota1.pole iota1.power N K → (iota1.compose iota2 false).transform M = .ok K) := by
  have key : ∀ i j : Inversion, i.power ≠ 0 → j.power ≠ 0 → Matrix.det (i.compose j).M ≠ 0 ∧
      ∀ M N K, IsXInverse i.pole i.power M N → IsXInverse j.pole j.power N K → (i.compose j).transform M = .ok K := by
    intro i j hi hj
    have e0 : (i.compose j).M = inversion_to_conjugate_mobius_ j * (inversion_to_conjugate_mobius_ i).map (starRingEnd ℂ) := by
      simp only [Inversion.compose, Mobius.compose, if_true]
    have dj : ∀ j : Inversion, j.power ≠ 0 → Matrix.det (inversion_to_conjugate_mobius_ j) ≠ 0 := by
      intro j hj
      rw [det_ne_iff]
      show toC j.pole * -(starRingEnd ℂ) (toC j.pole) - ((j.power : ℂ) - mod2_ (toC j.pole)) * 1 ≠ 0
      have hm : ((mod2_ (toC j.pole) : ℝ) : ℂ) = toC j.pole * (starRingEnd ℂ) (toC j.pole) := by
        rw [Complex.mul_conj, Complex.normSq_apply]; rfl
      rw [hm]
      have : toC j.pole * -(starRingEnd ℂ) (toC j.pole) - ((j.power : ℂ) - toC j.pole * (starRingEnd ℂ) (toC j.pole)) * 1 =
        -(j.power : ℂ) := by ring
      rw [this]
      exact neg_ne_zero.2 (by exact_mod_cast hj)
    have hd : Matrix.det (i.compose j).M ≠ 0 := by
      rw [e0, Matrix.det_mul]
      refine mul_ne_zero (dj j hj) ?_
      have := dj i hi
      have e : Matrix.det ((inversion_to_conjugate_mobius_ i).map (starRingEnd ℂ)) =
          (starRingEnd ℂ) (Matrix.det (inversion_to_conjugate_mobius_ i)) := by
        rw [Matrix.det_fin_two, Matrix.det_fin_two]
        simp
      rw [e]
      exact (map_ne_zero _).2 this
    refine ⟨hd, fun M N K hMN hNK => ?_⟩
    rw [C49_transform _ hd]
    obtain ⟨μ, hμ, a1, a2⟩ := inv_matrix hi hMN
    obtain ⟨ν, hν, b1, b2⟩ := inv_matrix hj hNK
    have a1' := congrArg (starRingEnd ℂ) a1
    have a2' := congrArg (starRingEnd ℂ) a2
    simp only [map_add, map_mul, map_sub, map_neg, Complex.conj_conj, Complex.conj_ofReal, map_one] at a1' a2'
    simp only [e0, Matrix.mul_apply, Fin.sum_univ_two, inversion_to_conjugate_mobius_, Matrix.map_apply, Matrix.of_apply,
      Matrix.cons_val', Matrix.cons_val_zero, Matrix.cons_val_one, Matrix.cons_val_fin_one, map_sub, map_neg, map_one,
      Complex.conj_conj, Complex.conj_ofReal, toC_eq_cpx]
    unfold IsMobImage
    generalize cpx i.pole = C at *
    generalize cpx j.pole = D at *
    generalize (starRingEnd ℂ) C = C' at *
    generalize (starRingEnd ℂ) D = D' at *
    generalize ((mod2_ C : ℝ) : ℂ) = mC at *
    generalize ((mod2_ D : ℝ) : ℂ) = mD at *
    generalize (starRingEnd ℂ) (num N) = n1 at *
    generalize (starRingEnd ℂ) (den N) = n2 at *
    generalize (starRingEnd ℂ) μ = μ' at *
    have c1 : (D * C' + ((j.power : ℂ) - mD) * 1) * num M + (D * ((i.power : ℂ) - mC) + ((j.power : ℂ) - mD) * -C) * den M
      = μ' * ν * num K := by
      linear_combination D * a1' + ((j.power : ℂ) - mD) * a2' + μ' * b1
    have c2 : (1 * C' + -D' * 1) * num M + (1 * ((i.power : ℂ) - mC) + -D' * -C) * den M
      = μ' * ν * den K := by
      linear_combination a1' - D' * a2' + μ' * b2
    rw [c1, c2]; ring
  have e : iota1.compose iota2 false = iota2.compose iota1 := by
    simp only [Inversion.compose, if_true, Bool.false_eq_true, if_false]
  rw [e]
  exact ⟨key iota1 iota2 h1 h2, key iota2 iota1 h2 h1⟩

/-- The inversions of pole `(0, 0)` and powers 1 and 4 compose to the homothety of ratio 4, and to that of ratio 1/4 in the other order. -/
example : ((⟨⟨0, 0⟩, 1⟩ : Inversion).compose ⟨⟨0, 0⟩, 4⟩).transform (.fin ⟨1, 2⟩) = .ok (.fin ⟨4, 8⟩) ∧
    ((⟨⟨0, 0⟩, 1⟩ : Inversion).compose ⟨⟨0, 0⟩, 4⟩ false).transform (.fin ⟨4, 8⟩) = .ok (.fin ⟨1, 2⟩) ∧
    ((⟨⟨0, 0⟩, 1⟩ : Inversion).compose ⟨⟨0, 0⟩, 4⟩).transform .inf = .ok .inf := by
  have h := C28_compose ⟨⟨0, 0⟩, 1⟩ ⟨⟨0, 0⟩, 4⟩ (by norm_num) (by norm_num)
  refine ⟨h.1.2 _ (.fin ⟨1 / 5, 2 / 5⟩) _ ?_ ?_, h.2.2 _ (.fin ⟨1 / 5, 2 / 5⟩) _ ?_ ?_, h.1.2 _ (.fin ⟨0, 0⟩) _ rfl rfl⟩
  all_goals simp only [IsXInverse, IsInverse]; norm_num [cross, dot, Pt.sub_x, Pt.sub_y]

/-- `invert` is exact at `M`: if `M` is within the tolerance of the pole then it is the pole. -/
def ExactAt (iota : Inversion) (M : XPt) : Prop := ∀ P, M = .fin P → allclose iota.pole P → P = iota.pole

theorem invert_exact (iota : Inversion) (M : XPt) (h : ExactAt iota M) :
    IsXInverse iota.pole iota.power M (iota.invert M) := by
  cases M with
  | inf => exact rfl
  | fin P =>
    by_cases hc : allclose iota.pole P
    · rw [h P rfl hc, (C24_invert_inf iota).2]
      exact rfl
    · obtain ⟨N, e, -, -, hi⟩ := C24_invert iota P hc
      rw [e]; exact hi

/-- C28, partial: the composition agrees with `invert` after `invert`.  Missing from the full claim: points, or images by
the first inversion, that differ from the pole of the inversion and are `np.allclose` to it; it is false for those
(`C28_near_pole_counterexample`). -/
theorem C28_compose_invert_partial (iota1 iota2 : Inversion) (h1 : iota1.power ≠ 0) (h2 : iota2.power ≠ 0) (M : XPt) :
    (ExactAt iota1 M → ExactAt iota2 (iota1.invert M) →
      (iota1.compose iota2).transform M = .ok (iota2.invert (iota1.invert M))) ∧
    (ExactAt iota2 M → ExactAt iota1 (iota2.invert M) →
      (iota1.compose iota2 false).transform M = .ok (iota1.invert (iota2.invert M))) :=
  ⟨fun a b => (C28_compose iota1 iota2 h1 h2).1.2 _ _ _ (invert_exact _ _ a) (invert_exact _ _ b),
    fun a b => (C28_compose iota1 iota2 h1 h2).2.2 _ _ _ (invert_exact _ _ a) (invert_exact _ _ b)⟩

example : ∃ (i j : Inversion) (M : XPt), i.power ≠ 0 ∧ j.power ≠ 0 ∧ ExactAt i M ∧ ExactAt j (i.invert M) := by
  refine ⟨⟨⟨0, 0⟩, 1⟩, ⟨⟨0, 0⟩, 2⟩, .fin ⟨0, 0⟩, by norm_num, by norm_num, ?_, ?_⟩
  · intro P h _
    simpa using h.symm
  · intro P h _
    rw [show (⟨0, 0⟩ : Pt) = (⟨⟨0, 0⟩, 1⟩ : Inversion).pole from rfl, (C24_invert_inf _).2] at h
    simp at h

/-- C28, failure: the unit inversion composed with itself fixes `(10^-9, 0)`, but `invert` sends this point to `inf`, and
then to the pole. -/
theorem C28_near_pole_counterexample :
    let i : Inversion := ⟨⟨0, 0⟩, 1⟩
    let M : Pt := ⟨1 / 10 ^ 9, 0⟩
    (i.compose i).transform (.fin M) = .ok (.fin M) ∧ i.invert (i.invert (.fin M)) = .fin ⟨0, 0⟩ := by
  intro i M
  constructor
  · have hk : i.power ≠ 0 := by norm_num [i]
    refine (C28_compose i i hk hk).1.2 _ (.fin ⟨10 ^ 9, 0⟩) _ ?_ ?_
    · refine ⟨by norm_num [M, i, Pt.ext_iff], by norm_num [M, i, cross], by norm_num [M, i, dot]⟩
    · refine ⟨by norm_num [M, i, Pt.ext_iff], by norm_num [M, i, cross], by norm_num [M, i, dot]⟩
  · have : i.invert (.fin M) = .inf := by
      unfold Inversion.invert
      dsimp only
      rw [if_pos (by unfold allclose npClose; norm_num [abs_of_pos, i, M])]
    rw [this]
    rfl
