import Verif.Props.Mobius

/-!
# C51: generalized powers of Möbius transformations
-/

open Spec Real Classical

theorem npPow_ne {α : ℂ} (h : α ≠ 0) (t : ℝ) : npPow α t = .ok (α ^ (t : ℂ)) := by
  unfold npPow
  rw [if_neg (fun e => h e.1)]

theorem cpow_add' {α : ℂ} (h : α ≠ 0) (s t : ℝ) : α ^ ((s + t : ℝ) : ℂ) = α ^ (s : ℂ) * α ^ (t : ℂ) := by
  rw [Complex.ofReal_add, Complex.cpow_add _ _ h]

theorem cpow_sub_one {α : ℂ} (h : α ≠ 0) (t : ℝ) : α ^ ((t - 1 : ℝ) : ℂ) * α = α ^ (t : ℂ) := by
  rw [Complex.ofReal_sub, Complex.cpow_sub _ _ h, Complex.ofReal_one, Complex.cpow_one]
  field_simp

/-- The one-parameter group computed by the code. -/
structure PowerGroup (M : Matrix (Fin 2) (Fin 2) ℂ) (F : ℝ → Matrix (Fin 2) (Fin 2) ℂ) : Prop where
  one : F 1 = M
  add : ∀ s t, F (s + t) = F s * F t

theorem conj_group {M P : Matrix (Fin 2) (Fin 2) ℂ} {J : ℝ → Matrix (Fin 2) (Fin 2) ℂ} (hP : Matrix.det P ≠ 0)
    (hM : M * P = P * J 1) (hJ : ∀ s t, J (s + t) = J s * J t) : PowerGroup M (fun t => P * J t * P⁻¹) := by
  have hu : IsUnit (Matrix.det P) := isUnit_iff_ne_zero.2 hP
  constructor
  · rw [← hM, Matrix.mul_assoc, Matrix.mul_nonsing_inv _ hu, Matrix.mul_one]
  · intro s t
    rw [hJ]
    have : P * J s * P⁻¹ * (P * J t * P⁻¹) = P * J s * (P⁻¹ * P) * (J t * P⁻¹) := by simp only [Matrix.mul_assoc]
    rw [this, Matrix.nonsing_inv_mul _ hu, Matrix.mul_one]
    simp only [Matrix.mul_assoc]

/-- The exact cases of `gpower`: the trace and the determinant are far from `tr² = 4 det` (beyond the tolerance), or this
equality holds and the matrix is scalar, or is not `np.allclose` to a scalar matrix. -/
def ExactPower (M : Matrix (Fin 2) (Fin 2) ℂ) : Prop :=
  sepsilon_ ≤ ‖Matrix.trace M ^ 2 - 4 * Matrix.det M‖ ∨
  (Matrix.trace M ^ 2 = 4 * Matrix.det M ∧
    ((∃ α : ℂ, M = !![α, 0; 0, α]) ∨
      ¬ (npCloseC (M 0 0) (Matrix.trace M / 2) ∧ npCloseC (M 0 1) 0 ∧ npCloseC (M 1 0) 0 ∧
        npCloseC (M 1 1) (Matrix.trace M / 2))))

theorem npCloseC_zero (z : ℂ) (h : z = 0) : npCloseC z 0 := by
  unfold npCloseC; rw [h]; simp

theorem npCloseC_refl (z : ℂ) : npCloseC z z := by
  unfold npCloseC; simp; positivity

set_option maxHeartbeats 1000000 in
theorem gpower_group (eig : Matrix (Fin 2) (Fin 2) ℂ → Mobius.Eig) (f : Mobius) (h : Matrix.det f.M ≠ 0)
    (he : Mobius.IsEig f.M (eig f.M)) (hx : ExactPower f.M) :
    ∃ F, PowerGroup f.M F ∧ ∀ t, f.gpower eig t = .ok ⟨F t⟩ := by
  obtain ⟨M⟩ := f
  dsimp only at h he hx ⊢
  unfold ExactPower at hx
  rw [Matrix.trace_fin_two] at hx
  have hdet := Matrix.det_fin_two M
  rw [hdet] at h hx
  have hcond : (M 0 0 + M 1 1) * (M 0 0 + M 1 1) - 4 * (M 0 0 * M 1 1 - M 1 0 * M 0 1) =
      (M 0 0 + M 1 1) ^ 2 - 4 * (M 0 0 * M 1 1 - M 0 1 * M 1 0) := by ring
  unfold Mobius.gpower
  dsimp only
  rw [hcond]
  rcases hx with hx | ⟨hx, hx2⟩
  · -- distinct eigenvalues
    simp only [if_neg (not_lt.2 hx)]
    obtain ⟨htr, hdt, heig, hu0, hu1⟩ := he
    generalize eig M = e at *
    have h0 : e.val0 ≠ 0 := by rintro e1; rw [e1, zero_mul] at hdt; exact h hdt.symm
    have h1 : e.val1 ≠ 0 := by rintro e1; rw [e1, mul_zero] at hdt; exact h hdt.symm
    have hne : e.val0 ≠ e.val1 := by
      intro e1
      have : (M 0 0 + M 1 1) ^ 2 - 4 * (M 0 0 * M 1 1 - M 0 1 * M 1 0) = 0 := by
        rw [← htr, ← hdt, e1]; ring
      rw [this, norm_zero] at hx
      linarith [sepsilon_pos]
    have q00 := congrFun (congrFun heig 0) 0
    have q01 := congrFun (congrFun heig 0) 1
    have q10 := congrFun (congrFun heig 1) 0
    have q11 := congrFun (congrFun heig 1) 1
    simp [Matrix.mul_apply, Fin.sum_univ_two] at q00 q01 q10 q11
    have hP : Matrix.det e.vec ≠ 0 := by
      rw [Matrix.det_fin_two]
      intro hz
      -- the eigenvectors are parallel, so that the eigenvalues are equal
      have c1 : (e.val0 - e.val1) * (e.vec 0 0 * e.vec 0 1) = 0 := by
        linear_combination (-M 0 1) * hz - e.vec 0 1 * q00 + e.vec 0 0 * q01
      have c2 : (e.val0 - e.val1) * (e.vec 1 0 * e.vec 1 1) = 0 := by
        linear_combination M 1 0 * hz - e.vec 1 1 * q10 + e.vec 1 0 * q11
      have c3 : (e.val0 - e.val1) * (e.vec 0 0 * e.vec 1 1) = 0 := by
        linear_combination (M 0 0 - e.val1) * hz - e.vec 1 1 * q00 + e.vec 1 0 * q01
      have c4 : (e.val0 - e.val1) * (e.vec 1 0 * e.vec 0 1) = 0 := by
        linear_combination (e.val1 - M 1 1) * hz - e.vec 0 1 * q10 + e.vec 0 0 * q11
      have hs := sub_ne_zero.2 hne
      have d1 := (mul_eq_zero.1 c1).resolve_left hs
      have d2 := (mul_eq_zero.1 c2).resolve_left hs
      have d3 := (mul_eq_zero.1 c3).resolve_left hs
      have d4 := (mul_eq_zero.1 c4).resolve_left hs
      have n1 : ¬ (e.vec 0 0 = 0 ∧ e.vec 1 0 = 0) := by
        rintro ⟨a, b⟩; rw [a, b] at hu0; simp at hu0
      have n2 : ¬ (e.vec 0 1 = 0 ∧ e.vec 1 1 = 0) := by
        rintro ⟨a, b⟩; rw [a, b] at hu1; simp at hu1
      by_cases a : e.vec 0 0 = 0
      · have b : e.vec 1 0 ≠ 0 := fun b => n1 ⟨a, b⟩
        exact n2 ⟨(mul_eq_zero.1 d4).resolve_left b, (mul_eq_zero.1 d2).resolve_left b⟩
      · exact n2 ⟨(mul_eq_zero.1 d1).resolve_left a, (mul_eq_zero.1 d3).resolve_left a⟩
    refine ⟨fun t => e.vec * !![e.val0 ^ (t : ℂ), 0; 0, e.val1 ^ (t : ℂ)] * e.vec⁻¹, ?_, ?_⟩
    · apply conj_group hP
      · rw [heig]; simp
      · intro s t
        rw [cpow_add' h0, cpow_add' h1]
        ext i j
        fin_cases i <;> fin_cases j <;> simp [Matrix.mul_apply, Fin.sum_univ_two]
    · intro t
      rw [npPow_ne h0, npPow_ne h1, Res.ok_bind, Res.ok_bind, if_neg hP]
      rfl
  · -- equal eigenvalues
    have hz : (M 0 0 + M 1 1) ^ 2 - 4 * (M 0 0 * M 1 1 - M 0 1 * M 1 0) = 0 := by linear_combination hx
    rw [hz, norm_zero]
    simp only [if_pos sepsilon_pos]
    obtain ⟨α, hα⟩ : ∃ α, α = (M 0 0 + M 1 1) / 2 := ⟨_, rfl⟩
    have hα0 : α ≠ 0 := by
      intro e1
      apply h
      have : M 0 0 + M 1 1 = 0 := by linear_combination (-2 : ℂ) * hα + 2 * e1
      rw [this] at hx
      linear_combination (-1 / 4 : ℂ) * hx
    rw [← hα] at hx2 ⊢
    by_cases hcl : npCloseC (M 0 0) α ∧ npCloseC (M 0 1) 0 ∧ npCloseC (M 1 0) 0 ∧ npCloseC (M 1 1) α
    · simp only [if_pos hcl]
      obtain ⟨β, hβ⟩ := hx2.resolve_right (fun hh => hh hcl)
      have hab : α = β := by rw [hα, hβ]; simp
      refine ⟨fun t => !![α ^ (t : ℂ), 0; 0, α ^ (t : ℂ)], ⟨?_, ?_⟩, ?_⟩
      · rw [hβ, ← hab]; simp
      · intro s t
        rw [cpow_add' hα0]
        ext i j
        fin_cases i <;> fin_cases j <;> simp [Matrix.mul_apply, Fin.sum_univ_two]
      · intro t
        rw [npPow_ne hα0, Res.ok_bind]
        rfl
    · simp only [if_neg hcl]
      obtain ⟨p, hp⟩ : ∃ p, M 0 0 = α + p := ⟨M 0 0 - α, by ring⟩
      have hq : M 1 1 = α - p := by linear_combination -hp - 2 * hα
      have hnil : p ^ 2 = -(M 0 1 * M 1 0) := by
        have := hz
        rw [hp, hq] at this
        linear_combination this / 4
      have jord : ∀ P : Matrix (Fin 2) (Fin 2) ℂ, Matrix.det P ≠ 0 → M * P = P * !![α, 1; 0, α] →
          ∃ F, PowerGroup M F ∧ ∀ t, (do
            let alpha_t ← npPow α t
            let alpha_t1 ← npPow α (t - 1)
            if Matrix.det P = 0 then .error .linAlgError
            else return (⟨P * !![alpha_t, (t : ℂ) * alpha_t1; 0, alpha_t] * P⁻¹⟩ : Mobius)) = (.ok ⟨F t⟩ : Res Mobius) := by
        intro P hP hMP
        refine ⟨fun t => P * !![α ^ (t : ℂ), (t : ℂ) * α ^ ((t - 1 : ℝ) : ℂ); 0, α ^ (t : ℂ)] * P⁻¹, ?_, ?_⟩
        · apply conj_group hP
          · rw [hMP]; simp
          · intro s t
            rw [cpow_add' hα0, ← cpow_sub_one hα0 s, ← cpow_sub_one hα0 t,
              show s + t - 1 = (s - 1) + ((t - 1) + 1) by ring, cpow_add' hα0, cpow_add' hα0, Complex.ofReal_one,
              Complex.cpow_one]
            ext i j
            fin_cases i <;> fin_cases j <;> simp [Matrix.mul_apply, Fin.sum_univ_two] <;> ring
        · intro t
          rw [npPow_ne hα0, npPow_ne hα0, Res.ok_bind, Res.ok_bind, if_neg hP]
          rfl
      by_cases hcol : npCloseC (M 0 1) 0 ∧ npCloseC (M 1 1 - α) 0
      · have hN10 : M 1 0 ≠ 0 := by
          intro e1
          have hp0 : p = 0 := by
            rw [e1, mul_zero, neg_zero] at hnil
            exact pow_eq_zero_iff two_ne_zero |>.1 hnil
          apply hcl
          rw [hp, hq, hp0, e1, add_zero, sub_zero]
          exact ⟨npCloseC_refl _, hcol.1, npCloseC_zero 0 rfl, npCloseC_refl _⟩
        obtain ⟨F, hF, hF'⟩ := jord !![M 0 0 - α, 1; M 1 0, 0] (by
          rw [Matrix.det_fin_two]; simp [hN10]) (by
          ext i j
          fin_cases i <;> fin_cases j <;> simp [Matrix.mul_apply, Fin.sum_univ_two] <;> rw [hp]
          · linear_combination hnil
          · rw [hq]; ring)
        refine ⟨F, hF, fun t => ?_⟩
        have h1 : (!![M 0 0 - α, M 0 1; M 1 0, M 1 1 - α] : Matrix (Fin 2) (Fin 2) ℂ) 0 1 = M 0 1 := rfl
        have h2 : (!![M 0 0 - α, M 0 1; M 1 0, M 1 1 - α] : Matrix (Fin 2) (Fin 2) ℂ) 1 1 = M 1 1 - α := rfl
        simp only [h1, h2, if_pos hcol]
        exact hF' t
      · have hN01 : M 0 1 ≠ 0 := by
          intro e1
          have hp0 : p = 0 := by
            rw [e1, zero_mul, neg_zero] at hnil
            exact pow_eq_zero_iff two_ne_zero |>.1 hnil
          apply hcol
          rw [hq, hp0, e1]
          exact ⟨npCloseC_zero 0 rfl, npCloseC_zero _ (by ring)⟩
        obtain ⟨F, hF, hF'⟩ := jord !![M 0 1, 0; M 1 1 - α, 1] (by
          rw [Matrix.det_fin_two]; simp [hN01]) (by
          ext i j
          fin_cases i <;> fin_cases j <;> simp [Matrix.mul_apply, Fin.sum_univ_two] <;> rw [hq]
          · rw [hp]; ring
          · linear_combination hnil)
        refine ⟨F, hF, fun t => ?_⟩
        have h1 : (!![M 0 0 - α, M 0 1; M 1 0, M 1 1 - α] : Matrix (Fin 2) (Fin 2) ℂ) 0 1 = M 0 1 := rfl
        have h2 : (!![M 0 0 - α, M 0 1; M 1 0, M 1 1 - α] : Matrix (Fin 2) (Fin 2) ℂ) 1 1 = M 1 1 - α := rfl
        simp only [h1, h2, if_neg hcol]
        exact hF' t

theorem PowerGroup.perm {f : Mobius} {F : ℝ → Matrix (Fin 2) (Fin 2) ℂ} (h : Matrix.det f.M ≠ 0)
    (hF : PowerGroup f.M F) (e : Equiv.Perm XPt) (he : ∀ P, f.transform P = .ok (e P)) :
    ∃ b : ℝ → Equiv.Perm XPt, (∀ t P, (⟨F t⟩ : Mobius).transform P = .ok (b t P)) ∧
      (∀ t, Matrix.det (F t) ≠ 0) ∧ (∀ s t, b (s + t) = b s * b t) ∧ ∀ k : ℤ, b k = e ^ k := by
  have hdet : ∀ t, Matrix.det (F t) ≠ 0 := by
    intro t h0
    apply h
    have : F 1 = F t * F (1 - t) := by rw [← hF.add]; ring_nf
    rw [hF.one] at this
    rw [this, Matrix.det_mul, h0, zero_mul]
  choose b hb using fun t => C49_bijection ⟨F t⟩ (hdet t)
  have hadd : ∀ s t, b (s + t) = b s * b t := by
    intro s t
    ext1 P
    have := (C49_compose ⟨F s⟩ ⟨F t⟩ (hdet s) (hdet t) P).2.1
    rw [hb, Res.ok_bind, hb] at this
    have h2 := hb (s + t) P
    rw [hF.add] at h2
    have h3 : (Mobius.compose ⟨F s⟩ ⟨F t⟩ false) = ⟨F s * F t⟩ := by
      simp only [Mobius.compose, Bool.false_eq_true, if_false]
    rw [h3, h2, Except.ok.injEq] at this
    exact this
  have h1 : b 1 = e := by
    ext1 P
    have := hb 1 P
    rw [hF.one, he, Except.ok.injEq] at this
    exact this.symm
  have h0 : b 0 = 1 := by
    have := hadd 0 0
    rw [add_zero] at this
    exact left_eq_mul.1 this
  have hm : b (-1) = e⁻¹ := by
    have := hadd (-1) 1
    rw [neg_add_cancel, h0, h1] at this
    exact eq_inv_of_mul_eq_one_left this.symm
  refine ⟨b, hb, hdet, hadd, fun k => ?_⟩
  induction k using Int.induction_on with
  | zero => simpa using h0
  | succ n ih => push_cast at ih ⊢; rw [hadd, ih, h1]; rw [zpow_add_one]
  | pred n ih => push_cast at ih ⊢; rw [sub_eq_add_neg, hadd, ih, hm]; rw [zpow_sub_one]

/-- C51, partial: in the exact cases (`ExactPower`; `eig` satisfies the contract of `np.linalg.eig`), `gpower` returns an
invertible transformation for every real exponent, agrees with `power` at every integer, and `gpower(s+t)` acts as
`gpower(s)` after `gpower(t)`.

Missing: the matrices with `0 < |tr² - 4 det| < sepsilon_`, and the non scalar matrices which are `np.allclose` to a scalar
one, for which the claim is false, see the counterexamples below. -/
theorem C51_gpower_partial (eig : Matrix (Fin 2) (Fin 2) ℂ → Mobius.Eig) (f : Mobius) (h : Matrix.det f.M ≠ 0)
    (he : Mobius.IsEig f.M (eig f.M)) (hx : ExactPower f.M) :
    ∃ F : ℝ → Mobius, (∀ t, f.gpower eig t = .ok (F t) ∧ Matrix.det (F t).M ≠ 0) ∧
      (∀ s t P, (F (s + t)).transform P = ((F t).transform P >>= (F s).transform)) ∧
      ∀ k : ℤ, ∃ g, f.power k = .ok g ∧ ∀ P, (F k).transform P = g.transform P := by
  obtain ⟨F, hF, hg⟩ := gpower_group eig f h he hx
  obtain ⟨e, hee⟩ := C49_bijection f h
  obtain ⟨b, hb, hdet, hadd, hk⟩ := hF.perm h e hee
  refine ⟨fun t => ⟨F t⟩, fun t => ⟨hg t, hdet t⟩, ?_, ?_⟩
  · intro s t P
    rw [hb, hb, Res.ok_bind, hb, hadd]; rfl
  · intro k
    obtain ⟨g, e1, -, e2⟩ := C50_power f h e hee k
    exact ⟨g, e1, fun P => by rw [e2, hb, hk]⟩

/-- C51 for the multiples of the identity matrix, zero included (the constructor does not look at the determinant): `gpower(t)` is the multiple by
`α^t`; it is not finite exactly for the zero matrix and a negative exponent. -/
theorem C51_scalar (eig : Matrix (Fin 2) (Fin 2) ℂ → Mobius.Eig) (α : ℂ) (t : ℝ) :
    (α = 0 ∧ t < 0 → (⟨!![α, 0; 0, α]⟩ : Mobius).gpower eig t = .error .nonFinite) ∧
    (¬ (α = 0 ∧ t < 0) → (⟨!![α, 0; 0, α]⟩ : Mobius).gpower eig t = .ok ⟨!![α ^ (t : ℂ), 0; 0, α ^ (t : ℂ)]⟩) := by
  have h1 : ‖((α + α) * (α + α) - 4 * (α * α - 0 * 0))‖ < sepsilon_ := by
    rw [show (α + α) * (α + α) - 4 * (α * α - 0 * 0) = 0 by ring, norm_zero]; exact sepsilon_pos
  have h2 : (α + α) / 2 = α := by ring
  have h3 : ∀ z : ℂ, npCloseC z z := by
    intro z; unfold npCloseC; rw [sub_self, norm_zero]; positivity
  have ev : (⟨!![α, 0; 0, α]⟩ : Mobius).gpower eig t = (do
      let a ← npPow α t
      return ⟨!![a, 0; 0, a]⟩) := by
    have m00 : (!![α, 0; 0, α] : Matrix (Fin 2) (Fin 2) ℂ) 0 0 = α := rfl
    have m01 : (!![α, 0; 0, α] : Matrix (Fin 2) (Fin 2) ℂ) 0 1 = 0 := rfl
    have m10 : (!![α, 0; 0, α] : Matrix (Fin 2) (Fin 2) ℂ) 1 0 = 0 := rfl
    have m11 : (!![α, 0; 0, α] : Matrix (Fin 2) (Fin 2) ℂ) 1 1 = α := rfl
    unfold Mobius.gpower
    simp only [m00, m01, m10, m11, if_pos h1, h2]
    rw [if_pos ⟨h3 _, h3 _, h3 _, h3 _⟩]
  rw [ev]
  unfold npPow
  exact ⟨fun h => by rw [if_pos h]; rfl, fun h => by rw [if_neg h]; rfl⟩

/-- The square of the scalar matrix 3, and the failure for zero with a negative exponent. -/
example (eig : Matrix (Fin 2) (Fin 2) ℂ → Mobius.Eig) : (⟨!![3, 0; 0, 3]⟩ : Mobius).gpower eig 2 = .ok ⟨!![9, 0; 0, 9]⟩ ∧
    (⟨!![0, 0; 0, 0]⟩ : Mobius).gpower eig (-1) = .error .nonFinite := by
  constructor
  · rw [(C51_scalar eig 3 2).2 (by norm_num), show (((2 : ℝ) : ℂ)) = ((2 : ℕ) : ℂ) by norm_num, Complex.cpow_natCast]
    norm_num
  · exact (C51_scalar eig 0 (-1)).1 (by norm_num)

/-- Counterexample to C51: `gpower` of `z ↦ z / 1.0001`, with two distinct eigenvalues `1` and `1.0001`, raises
`LinAlgError` whatever the exponent, although `power` succeeds. -/
theorem C51_raises_counterexample (eig : Matrix (Fin 2) (Fin 2) ℂ → Mobius.Eig) (t : ℝ) :
    let f : Mobius := ⟨!![1, 0; 0, 10001 / 10000]⟩
    Matrix.det f.M ≠ 0 ∧ f.gpower eig t = .error .linAlgError := by
  intro f
  refine ⟨by simp [f], ?_⟩
  have hα : (1 + 10001 / 10000 : ℂ) / 2 = ((20001 / 20000 : ℝ) : ℂ) := by push_cast; norm_num
  have hα0 : ((20001 / 20000 : ℝ) : ℂ) ≠ 0 := by norm_num
  have h1 : ‖((1 + 10001 / 10000 : ℂ) * (1 + 10001 / 10000) - 4 * (1 * (10001 / 10000) - 0 * 0))‖ < sepsilon_ := by
    have : ((1 + 10001 / 10000 : ℂ) * (1 + 10001 / 10000) - 4 * (1 * (10001 / 10000) - 0 * 0)) =
        ((1 / 10 ^ 8 : ℝ) : ℂ) := by push_cast; norm_num
    rw [this, Complex.norm_real, Real.norm_of_nonneg (by norm_num)]
    unfold sepsilon_; norm_num
  have h2 : ¬ npCloseC (1 : ℂ) ((20001 / 20000 : ℝ) : ℂ) := by
    unfold npCloseC
    have : (1 : ℂ) - ((20001 / 20000 : ℝ) : ℂ) = ((-(1 / 20000) : ℝ) : ℂ) := by push_cast; norm_num
    rw [this, Complex.norm_real, Complex.norm_real, Real.norm_of_nonpos (by norm_num), Real.norm_of_nonneg (by norm_num)]
    norm_num
  have h3 : ¬ npCloseC ((10001 / 10000 : ℂ) - ((20001 / 20000 : ℝ) : ℂ)) 0 := by
    unfold npCloseC
    have : (10001 / 10000 : ℂ) - ((20001 / 20000 : ℝ) : ℂ) = ((1 / 20000 : ℝ) : ℂ) := by push_cast; norm_num
    rw [this, sub_zero, Complex.norm_real, Real.norm_of_nonneg (by norm_num), norm_zero]
    norm_num
  have m00 : f.M 0 0 = 1 := rfl
  have m01 : f.M 0 1 = 0 := rfl
  have m10 : f.M 1 0 = 0 := rfl
  have m11 : f.M 1 1 = 10001 / 10000 := rfl
  unfold Mobius.gpower
  simp only [m00, m01, m10, m11, if_pos h1, hα, npPow_ne hα0, Res.ok_bind]
  rw [if_neg (fun e => h2 e.1)]
  have n1 : ∀ a : ℂ, (!![a, 0; 0, 10001 / 10000 - ((20001 / 20000 : ℝ) : ℂ)] : Matrix (Fin 2) (Fin 2) ℂ) 1 1 =
    10001 / 10000 - ((20001 / 20000 : ℝ) : ℂ) := fun a => rfl
  have n2 : ∀ a : ℂ, (!![a, 0; 0, 10001 / 10000 - ((20001 / 20000 : ℝ) : ℂ)] : Matrix (Fin 2) (Fin 2) ℂ) 0 1 = 0 :=
    fun a => rfl
  simp only [n1, n2]
  have h4 : ¬ (npCloseC (0 : ℂ) 0 ∧ npCloseC ((10001 / 10000 : ℂ) - ((20001 / 20000 : ℝ) : ℂ)) 0) := fun e => h3 e.2
  simp only [if_neg h4]
  rw [if_pos (by simp)]

/-- Counterexample to C51: the translation by `1e-9` is treated as the identity map, so that `gpower(1)` does not act as
`power(1)`, nor as the transformation. -/
theorem C51_near_scalar_counterexample (eig : Matrix (Fin 2) (Fin 2) ℂ → Mobius.Eig) :
    let f : Mobius := ⟨!![1, 1 / 10 ^ 9; 0, 1]⟩
    ∃ g h, f.gpower eig 1 = .ok g ∧ f.power (1 : ℤ) = .ok h ∧ g.transform (.fin ⟨0, 0⟩) = .ok (.fin ⟨0, 0⟩) ∧
      h.transform (.fin ⟨0, 0⟩) = .ok (.fin ⟨1 / 10 ^ 9, 0⟩) := by
  intro f
  have hd : Matrix.det f.M ≠ 0 := by simp [f]
  obtain ⟨e, he⟩ := C49_bijection f hd
  obtain ⟨h, hp, -, ht⟩ := C50_power f hd e he 1
  have m00 : f.M 0 0 = 1 := rfl
  have m01 : f.M 0 1 = 1 / 10 ^ 9 := rfl
  have m10 : f.M 1 0 = 0 := rfl
  have m11 : f.M 1 1 = 1 := rfl
  have hα : ((1 : ℂ) + 1) / 2 = 1 := by norm_num
  have h1 : ‖(((1 : ℂ) + 1) * (1 + 1) - 4 * (1 * 1 - 0 * (1 / 10 ^ 9)))‖ < sepsilon_ := by
    have : (((1 : ℂ) + 1) * (1 + 1) - 4 * (1 * 1 - 0 * (1 / 10 ^ 9))) = 0 := by norm_num
    rw [this, norm_zero]; exact sepsilon_pos
  have h2 : npCloseC (1 / 10 ^ 9 : ℂ) 0 := by
    unfold npCloseC
    have : (1 / 10 ^ 9 : ℂ) - 0 = ((1 / 10 ^ 9 : ℝ) : ℂ) := by push_cast; norm_num
    rw [this, Complex.norm_real, Real.norm_of_nonneg (by norm_num), norm_zero]
    norm_num
  refine ⟨⟨!![1, 0; 0, 1]⟩, h, ?_, hp, ?_, ?_⟩
  · unfold Mobius.gpower
    simp only [m00, m01, m10, m11, if_pos h1, hα, npPow_ne one_ne_zero, Res.ok_bind]
    rw [if_pos ⟨npCloseC_refl _, h2, npCloseC_zero 0 rfl, npCloseC_refl _⟩, Complex.one_cpow]
    rfl
  · rw [C49_transform _ (by simp)]
    simp [IsMobImage, cpx]
  · rw [ht, zpow_one, ← he, C49_transform _ hd]
    simp only [IsMobImage, m00, m01, m10, m11, num_fin, den_fin, cpx]
    apply Complex.ext <;> norm_num [Complex.div_re, Complex.div_im, Complex.normSq]

/-- The hypotheses of `C51_gpower_partial` hold for `z ↦ z/2`, with its normalized eigenvectors, and for `z ↦ z + 1`. -/
example : Mobius.IsEig !![1, 0; 0, 2] ⟨1, 2, !![1, 0; 0, 1]⟩ ∧ ExactPower !![1, 0; 0, 2] ∧
    Mobius.IsEig !![1, 1; 0, 1] ⟨1, 1, !![1, 1; 0, 0]⟩ ∧ ExactPower !![1, 1; 0, 1] := by
  refine ⟨⟨?_, ?_, ?_, ?_, ?_⟩, Or.inl ?_, ⟨?_, ?_, ?_, ?_, ?_⟩, Or.inr ⟨?_, Or.inr ?_⟩⟩
  all_goals try (simp; done)
  · have : (Matrix.trace (!![1, 0; 0, 2] : Matrix (Fin 2) (Fin 2) ℂ) ^ 2 - 4 * Matrix.det !![1, 0; 0, 2]) = (1 : ℂ) := by
      simp [Matrix.trace_fin_two]; norm_num
    rw [this, norm_one]
    unfold sepsilon_; norm_num
  · simp [Matrix.trace_fin_two]; norm_num
  · rintro ⟨-, h, -⟩
    unfold npCloseC at h
    simp at h
    norm_num at h
