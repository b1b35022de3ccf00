import Verif.Lemmas.Mobius
import Verif.Props.Inversion

/-!
# C28, C49, C50, C55, C56, C57: Möbius transformations
-/

open Spec Real Classical

/-! ## C49 -/

/-- C49: `transform` is the homographic map `z ↦ (az+b)/(cz+d)` of the plane with a point at infinity: it returns the
unique image. -/
theorem C49_transform (f : Mobius) (h : Matrix.det f.M ≠ 0) (P Q : XPt) :
    f.transform P = .ok Q ↔ IsMobImage (f.M 0 0) (f.M 0 1) (f.M 1 0) (f.M 1 1) P Q :=
  f.transform_iff ((det_ne_iff _).1 h)

/-- C49: `compose` acts as the second transformation after the first, and in the other order with `left=False`. -/
theorem C49_compose (f g : Mobius) (hf : Matrix.det f.M ≠ 0) (hg : Matrix.det g.M ≠ 0) (P : XPt) :
    (f.compose g).transform P = (f.transform P >>= g.transform) ∧
    (f.compose g false).transform P = (g.transform P >>= f.transform) ∧
    Matrix.det (f.compose g).M ≠ 0 ∧ Matrix.det (f.compose g false).M ≠ 0 := by
  have key : ∀ f g : Mobius, Matrix.det f.M ≠ 0 → Matrix.det g.M ≠ 0 → ∀ P,
      (⟨g.M * f.M⟩ : Mobius).transform P = (f.transform P >>= g.transform) := by
    intro f g hf hg P
    obtain ⟨Q, e1, h1⟩ := f.transform_spec ((det_ne_iff _).1 hf) P
    obtain ⟨R, e2, h2⟩ := g.transform_spec ((det_ne_iff _).1 hg) Q
    have hd : Matrix.det (g.M * f.M) ≠ 0 := by rw [Matrix.det_mul]; exact mul_ne_zero hg hf
    rw [e1, Res.ok_bind, e2, C49_transform ⟨g.M * f.M⟩ hd]
    have := mobImage_comp ((det_ne_iff _).1 hf) ((det_ne_iff _).1 hg) h1 h2
    simpa only [Mobius.a, Mobius.b, Mobius.c, Mobius.d, Matrix.mul_apply, Fin.sum_univ_two] using this
  refine ⟨key f g hf hg P, key g f hg hf P, ?_, ?_⟩
  · show Matrix.det (g.M * f.M) ≠ 0
    rw [Matrix.det_mul]; exact mul_ne_zero hg hf
  · show Matrix.det (f.M * g.M) ≠ 0
    rw [Matrix.det_mul]; exact mul_ne_zero hf hg

/-- C49: `inverse` undoes `transform` on both sides. -/
theorem C49_inverse (f : Mobius) (h : Matrix.det f.M ≠ 0) (P : XPt) :
    (f.transform P >>= f.inverse.transform) = .ok P ∧ (f.inverse.transform P >>= f.transform) = .ok P ∧
    Matrix.det f.inverse.M ≠ 0 := by
  have h0 := (det_ne_iff _).1 h
  have hi : Matrix.det f.inverse.M ≠ 0 := by
    rw [det_ne_iff]
    show f.M 1 1 * f.M 0 0 - (-f.M 0 1) * (-f.M 1 0) ≠ 0
    intro e; apply h0; linear_combination e
  have key : ∀ P Q, f.transform P = .ok Q → f.inverse.transform Q = .ok P := by
    intro P Q e
    rw [C49_transform _ hi]
    exact mobImage_symm h0 ((C49_transform _ h _ _).1 e)
  refine ⟨?_, ?_, hi⟩
  · obtain ⟨Q, e, -⟩ := f.transform_spec h0 P
    rw [e, Res.ok_bind, key P Q e]
  · obtain ⟨Q, e, hq⟩ := f.inverse.transform_spec ((det_ne_iff _).1 hi) P
    rw [e, Res.ok_bind, C49_transform _ h]
    have := mobImage_symm ((det_ne_iff _).1 hi) hq
    simpa only [Mobius.inverse, Mobius.a, Mobius.b, Mobius.c, Mobius.d, Matrix.of_apply, Matrix.cons_val', Matrix.cons_val_zero,
      Matrix.cons_val_one, Matrix.cons_val_fin_one, neg_neg] using this

/-- C49: `transform` is a bijection of the plane with a point at infinity. -/
theorem C49_bijection (f : Mobius) (h : Matrix.det f.M ≠ 0) :
    ∃ e : Equiv.Perm XPt, ∀ P, f.transform P = .ok (e P) := by
  choose g hg hg' using f.transform_spec ((det_ne_iff _).1 h)
  choose k hk hk' using f.inverse.transform_spec ((det_ne_iff _).1 (C49_inverse f h .inf).2.2)
  refine ⟨⟨g, k, ?_, ?_⟩, hg⟩
  · intro P
    have := (C49_inverse f h P).1
    rw [hg, Res.ok_bind, hk, Except.ok.injEq] at this
    exact this
  · intro P
    have := (C49_inverse f h P).2.1
    rw [hk, Res.ok_bind, hg, Except.ok.injEq] at this
    exact this

/-- The translation by 1 followed by the inversion `z ↦ 1 / z`, in both orders, at the point 1; and back. -/
example : ((⟨!![1, 1; 0, 1]⟩ : Mobius).compose ⟨!![0, 1; 1, 0]⟩).transform (.fin ⟨1, 0⟩) = .ok (.fin ⟨1 / 2, 0⟩) ∧
    ((⟨!![1, 1; 0, 1]⟩ : Mobius).compose ⟨!![0, 1; 1, 0]⟩ false).transform (.fin ⟨1, 0⟩) = .ok (.fin ⟨2, 0⟩) ∧
    (⟨!![1, 1; 0, 1]⟩ : Mobius).inverse.transform (.fin ⟨2, 0⟩) = .ok (.fin ⟨1, 0⟩) := by
  have d1 : Matrix.det (⟨!![1, 1; 0, 1]⟩ : Mobius).M ≠ 0 := by rw [Matrix.det_fin_two]; norm_num
  have d2 : Matrix.det (⟨!![0, 1; 1, 0]⟩ : Mobius).M ≠ 0 := by rw [Matrix.det_fin_two]; norm_num
  have t1 : ∀ x : ℝ, (⟨!![1, 1; 0, 1]⟩ : Mobius).transform (.fin ⟨x, 0⟩) = .ok (.fin ⟨x + 1, 0⟩) := by
    intro x
    rw [C49_transform _ d1]
    simp [IsMobImage, num, den, cpx, Complex.ext_iff]
  have t2 : ∀ x : ℝ, x ≠ 0 → (⟨!![0, 1; 1, 0]⟩ : Mobius).transform (.fin ⟨x, 0⟩) = .ok (.fin ⟨1 / x, 0⟩) := by
    intro x hx
    rw [C49_transform _ d2]
    simp [IsMobImage, num, den, cpx, Complex.ext_iff, hx]
  have c := C49_compose _ _ d1 d2 (.fin ⟨1, 0⟩)
  have i := (C49_inverse _ d1 (.fin ⟨1, 0⟩)).1
  rw [t1, Res.ok_bind] at i
  refine ⟨?_, ?_, ?_⟩
  · rw [c.1, t1, Res.ok_bind, t2 _ (by norm_num)]; norm_num
  · rw [c.2.1, t2 _ (by norm_num), Res.ok_bind, t1]; norm_num
  · norm_num at i; exact i

example : Matrix.det (!![1, Complex.I; 2, 3] : Matrix (Fin 2) (Fin 2) ℂ) ≠ 0 ∧
    (⟨!![1, Complex.I; 2, 3]⟩ : Mobius).transform .inf = .ok (.fin ⟨1 / 2, 0⟩) := by
  constructor
  · rw [Matrix.det_fin_two]
    intro h
    have := congrArg Complex.re h
    norm_num at this
  · unfold Mobius.transform
    simp only [Mobius.c, Mobius.a]
    norm_num [from_complex_]

/-! ## C50 -/

/-- C50: `power(k)` acts as the `k`-fold iterate of the bijection, for every integer `k`; `e ^ k` is the power in the
group of bijections, so that `power(j+k)` is `power(j)` after `power(k)`. -/
theorem C50_power (f : Mobius) (h : Matrix.det f.M ≠ 0) (e : Equiv.Perm XPt) (he : ∀ P, f.transform P = .ok (e P))
    (k : ℤ) : ∃ g, f.power k = .ok g ∧ Matrix.det g.M ≠ 0 ∧ ∀ P, g.transform P = .ok ((e ^ k) P) := by
  have nat : ∀ (f : Mobius) (_ : Matrix.det f.M ≠ 0) (e : Equiv.Perm XPt) (_ : ∀ P, f.transform P = .ok (e P)) (n : ℕ),
      Matrix.det (f.M ^ n) ≠ 0 ∧ ∀ P, (⟨f.M ^ n⟩ : Mobius).transform P = .ok ((e ^ n) P) := by
    intro f h e he n
    induction n with
    | zero =>
      refine ⟨by simp, fun P => ?_⟩
      rw [C49_transform _ (by simp)]
      simp [IsMobImage]
      ring
    | succ n ih =>
      refine ⟨by rw [Matrix.det_pow]; exact pow_ne_zero _ h, fun P => ?_⟩
      have := (C49_compose f ⟨f.M ^ n⟩ h ih.1 P).1
      rw [he, Res.ok_bind, ih.2] at this
      rw [pow_succ, pow_succ]
      exact this
  have htr : (if (0 : ℝ) ≤ (k : ℝ) then ⌊(k : ℝ)⌋ else ⌈(k : ℝ)⌉) = k := by
    split_ifs <;> simp
  unfold Mobius.power
  simp only [htr, ne_eq, not_true, if_false]
  by_cases hk : k < 0
  · simp only [if_pos hk]
    refine ⟨_, rfl, ?_⟩
    have hi := (C49_inverse f h .inf).2.2
    have he' : ∀ P, f.inverse.transform P = .ok (e⁻¹ P) := by
      intro P
      have := (C49_inverse f h (e⁻¹ P)).1
      rw [he, Res.ok_bind, show e (e⁻¹ P) = P from e.apply_symm_apply P] at this
      exact this
    have := nat f.inverse hi e⁻¹ he' (-k).toNat
    refine ⟨this.1, fun P => ?_⟩
    rw [this.2 P, inv_pow, ← zpow_natCast, Int.toNat_of_nonneg (by omega), zpow_neg, inv_inv]
  · simp only [if_neg hk]
    refine ⟨_, rfl, ?_⟩
    have := nat f h e he k.toNat
    refine ⟨this.1, fun P => ?_⟩
    rw [this.2 P, ← zpow_natCast, Int.toNat_of_nonneg (by omega)]

/-- C50: `power(j+k)` acts as `power(j)` after `power(k)`. -/
theorem C50_power_add (f : Mobius) (h : Matrix.det f.M ≠ 0) (j k : ℤ) (fj fk fjk : Mobius)
    (hj : f.power j = .ok fj) (hk : f.power k = .ok fk) (hjk : f.power ((j + k : ℤ) : ℝ) = .ok fjk) (P : XPt) :
    fjk.transform P = (fk.transform P >>= fj.transform) := by
  obtain ⟨e, he⟩ := C49_bijection f h
  obtain ⟨g1, e1, -, t1⟩ := C50_power f h e he j
  obtain ⟨g2, e2, -, t2⟩ := C50_power f h e he k
  obtain ⟨g3, e3, -, t3⟩ := C50_power f h e he (j + k)
  rw [hj, Except.ok.injEq] at e1
  rw [hk, Except.ok.injEq] at e2
  rw [hjk, Except.ok.injEq] at e3
  subst e1 e2 e3
  rw [t3, t2, Res.ok_bind, t1, zpow_add]
  rfl

/-- C50: a `ValueError` is raised exactly for the exponents that are not integers. -/
theorem C50_power_error (f : Mobius) (k : ℝ) :
    (¬ ∃ n : ℤ, (n : ℝ) = k) ↔ f.power k = .error (.valueError "The power `k` must be an integer.") := by
  unfold Mobius.power
  dsimp only
  constructor
  · intro hn
    rw [if_pos (fun e => hn ⟨_, e⟩)]
  · rintro h ⟨n, rfl⟩
    have htr : (if (0 : ℝ) ≤ (n : ℝ) then ⌊(n : ℝ)⌋ else ⌈(n : ℝ)⌉) = n := by split_ifs <;> simp
    rw [htr] at h
    simp at h

/-- `power(1/2)` is refused; the third power of the translation by 1 is a transformation, the composition of its first
and second. -/
example : (⟨!![1, 1; 0, 1]⟩ : Mobius).power (1 / 2) = .error (.valueError "The power `k` must be an integer.") ∧
    ∃ g1 g2 g3, (⟨!![1, 1; 0, 1]⟩ : Mobius).power (1 : ℤ) = .ok g1 ∧ (⟨!![1, 1; 0, 1]⟩ : Mobius).power (2 : ℤ) = .ok g2 ∧
      (⟨!![1, 1; 0, 1]⟩ : Mobius).power ((1 + 2 : ℤ) : ℝ) = .ok g3 ∧
      ∀ P, g3.transform P = (g2.transform P >>= g1.transform) := by
  have d : Matrix.det (⟨!![1, 1; 0, 1]⟩ : Mobius).M ≠ 0 := by rw [Matrix.det_fin_two]; norm_num
  obtain ⟨e, he⟩ := C49_bijection _ d
  obtain ⟨g1, h1, -⟩ := C50_power _ d e he 1
  obtain ⟨g2, h2, -⟩ := C50_power _ d e he 2
  obtain ⟨g3, h3, -⟩ := C50_power _ d e he (1 + 2)
  refine ⟨(C50_power_error _ _).1 ?_, g1, g2, g3, h1, h2, h3, C50_power_add _ d 1 2 g1 g2 g3 h1 h2 h3⟩
  rintro ⟨n, hn⟩
  have : ((2 * n : ℤ) : ℝ) = (1 : ℤ) := by push_cast; linarith
  have := Int.cast_injective this
  omega

/-! ## C55 -/

theorem toZeroOneInf_det {z1 z2 z3 : ℂ} (h12 : z1 ≠ z2) (h13 : z1 ≠ z3) (h23 : z2 ≠ z3) :
    Matrix.det (Mobius.toZeroOneInf z1 z2 z3) ≠ 0 := by
  rw [det_ne_iff]
  show (z2 - z3) / (z2 - z1) * (-z3) - -((z2 - z3) / (z2 - z1)) * z1 * 1 ≠ 0
  have : (z2 - z3) / (z2 - z1) * (-z3) - -((z2 - z3) / (z2 - z1)) * z1 * 1 = (z2 - z3) / (z2 - z1) * (z1 - z3) := by ring
  rw [this]
  exact mul_ne_zero (div_ne_zero (sub_ne_zero.2 h23) (sub_ne_zero.2 h12.symm)) (sub_ne_zero.2 h13)

theorem toZeroOneInf_spec {P1 P2 P3 : Pt} (h12 : P1 ≠ P2) (h13 : P1 ≠ P3) (h23 : P2 ≠ P3) :
    let g : Mobius := ⟨Mobius.toZeroOneInf (toC P1) (toC P2) (toC P3)⟩
    Matrix.det g.M ≠ 0 ∧ g.transform (.fin P1) = .ok (.fin ⟨0, 0⟩) ∧ g.transform (.fin P2) = .ok (.fin ⟨1, 0⟩) ∧
      g.transform (.fin P3) = .ok .inf := by
  have hd : Matrix.det (Mobius.toZeroOneInf (toC P1) (toC P2) (toC P3)) ≠ 0 := toZeroOneInf_det (fun e => h12 (cpx_inj e)) (fun e => h13 (cpx_inj e)) (fun e => h23 (cpx_inj e))
  have h0 : toC P2 - toC P1 ≠ 0 := sub_ne_zero.2 (fun e => h12 (cpx_inj e).symm)
  have c0 : cpx ⟨0, 0⟩ = 0 := rfl
  have c1 : cpx ⟨1, 0⟩ = 1 := rfl
  refine ⟨hd, ?_, ?_, ?_⟩
  · refine (C49_transform ⟨Mobius.toZeroOneInf (toC P1) (toC P2) (toC P3)⟩ hd _ _).2 ?_
    simp [IsMobImage, Mobius.toZeroOneInf, c0, toC_eq_cpx]
  · refine (C49_transform ⟨Mobius.toZeroOneInf (toC P1) (toC P2) (toC P3)⟩ hd _ _).2 ?_
    simp only [toC_eq_cpx] at h0
    simp [IsMobImage, Mobius.toZeroOneInf, c1, toC_eq_cpx]
    field_simp
    ring
  · refine (C49_transform ⟨Mobius.toZeroOneInf (toC P1) (toC P2) (toC P3)⟩ hd _ _).2 ?_
    simp [IsMobImage, Mobius.toZeroOneInf, toC_eq_cpx]

/-- C55: `None` is returned exactly when two of the `P`s or two of the `Q`s coincide. -/
theorem C55_none_iff (P1 P2 P3 Q1 Q2 Q3 : XPt) :
    Mobius.from_mapping_three_points P1 P2 P3 Q1 Q2 Q3 = .ok none ↔
      (P1 = P2 ∨ P1 = P3 ∨ P2 = P3) ∨ (Q1 = Q2 ∨ Q1 = Q3 ∨ Q2 = Q3) := by
  unfold Mobius.from_mapping_three_points
  by_cases hP : P1 = P2 ∨ P1 = P3 ∨ P2 = P3
  · simp [hP]
  · by_cases hQ : Q1 = Q2 ∨ Q1 = Q3 ∨ Q2 = Q3
    · simp [hQ]
    · rw [if_neg hP, if_neg hQ]
      simp only [hP, hQ, or_self, iff_false]
      cases P1 <;> cases P2 <;> cases P3 <;> cases Q1 <;> cases Q2 <;> cases Q3 <;> simp

/-- With a repeated point `None` is returned. -/
example : Mobius.from_mapping_three_points (.fin ⟨1, 2⟩) (.fin ⟨1, 2⟩) .inf (.fin ⟨0, 0⟩) (.fin ⟨1, 0⟩) (.fin ⟨2, 0⟩) = .ok none :=
  (C55_none_iff _ _ _ _ _ _).2 (Or.inl (Or.inl rfl))

/-- C55, partial: for finite points the returned transformation has a nonzero determinant and maps each `Pi` to `Qi`.
Missing from the full claim: `inf` among the points, for which no usable transformation is returned
(`C55_inf_counterexample`). -/
theorem C55_from_mapping_partial (P1 P2 P3 Q1 Q2 Q3 : Pt) (hP : P1 ≠ P2 ∧ P1 ≠ P3 ∧ P2 ≠ P3)
    (hQ : Q1 ≠ Q2 ∧ Q1 ≠ Q3 ∧ Q2 ≠ Q3) :
    ∃ f, Mobius.from_mapping_three_points (.fin P1) (.fin P2) (.fin P3) (.fin Q1) (.fin Q2) (.fin Q3) = .ok (some f) ∧
      Matrix.det f.M ≠ 0 ∧ f.transform (.fin P1) = .ok (.fin Q1) ∧ f.transform (.fin P2) = .ok (.fin Q2) ∧
      f.transform (.fin P3) = .ok (.fin Q3) := by
  obtain ⟨d1, a1, a2, a3⟩ := toZeroOneInf_spec hP.1 hP.2.1 hP.2.2
  obtain ⟨d2, b1, b2, b3⟩ := toZeroOneInf_spec hQ.1 hQ.2.1 hQ.2.2
  have di := (C49_inverse _ d2 .inf).2.2
  have key : ∀ P Q Z, (⟨Mobius.toZeroOneInf (toC P1) (toC P2) (toC P3)⟩ : Mobius).transform P = .ok Z →
      (⟨Mobius.toZeroOneInf (toC Q1) (toC Q2) (toC Q3)⟩ : Mobius).transform Q = .ok Z →
      ((⟨Mobius.toZeroOneInf (toC P1) (toC P2) (toC P3)⟩ : Mobius).compose
        (⟨Mobius.toZeroOneInf (toC Q1) (toC Q2) (toC Q3)⟩ : Mobius).inverse).transform P = .ok Q := by
    intro P Q Z e1 e2
    rw [(C49_compose _ _ d1 di P).1, e1, Res.ok_bind]
    have := (C49_inverse _ d2 Q).1
    rwa [e2, Res.ok_bind] at this
  refine ⟨_, ?_, (C49_compose _ _ d1 di .inf).2.2.1, key _ _ _ a1 b1, key _ _ _ a2 b2, key _ _ _ a3 b3⟩
  unfold Mobius.from_mapping_three_points
  rw [if_neg (by simp [hP.1, hP.2.1, hP.2.2]), if_neg (by simp [hQ.1, hQ.2.1, hQ.2.2])]

example : ∃ P1 P2 P3 Q1 Q2 Q3 : Pt, (P1 ≠ P2 ∧ P1 ≠ P3 ∧ P2 ≠ P3) ∧ (Q1 ≠ Q2 ∧ Q1 ≠ Q3 ∧ Q2 ≠ Q3) :=
  ⟨⟨0, 0⟩, ⟨1, 0⟩, ⟨0, 1⟩, ⟨2, 3⟩, ⟨-1, 0⟩, ⟨5, 5⟩, by norm_num [Pt.ext_iff], by norm_num [Pt.ext_iff]⟩

/-- C55, failure: with `inf` among pairwise distinct points the matrix is never finite. -/
theorem C55_inf_counterexample (P1 P2 P3 Q1 Q2 Q3 : XPt) (hP : P1 ≠ P2 ∧ P1 ≠ P3 ∧ P2 ≠ P3)
    (hQ : Q1 ≠ Q2 ∧ Q1 ≠ Q3 ∧ Q2 ≠ Q3)
    (h : P1 = .inf ∨ P2 = .inf ∨ P3 = .inf ∨ Q1 = .inf ∨ Q2 = .inf ∨ Q3 = .inf) :
    Mobius.from_mapping_three_points P1 P2 P3 Q1 Q2 Q3 = .error .nonFinite := by
  unfold Mobius.from_mapping_three_points
  rw [if_neg (by simp [hP.1, hP.2.1, hP.2.2]), if_neg (by simp [hQ.1, hQ.2.1, hQ.2.2])]
  cases P1 <;> cases P2 <;> cases P3 <;> cases Q1 <;> cases Q2 <;> cases Q3 <;> simp_all

/-! ## C56 -/

theorem mobImage_smul {a b c d k : ℂ} (hk : k ≠ 0) {P Q : XPt} :
    IsMobImage (k * a) (k * b) (k * c) (k * d) P Q ↔ IsMobImage a b c d P Q := by
  unfold IsMobImage
  constructor
  · intro h; apply mul_left_cancel₀ hk; linear_combination h
  · intro h; linear_combination k * h

theorem sin_270 : Real.sin (270 * (π / 180)) = -1 := by
  have : 270 * (π / 180) = π / 2 + π := by ring
  rw [this, Real.sin_add_pi, Real.sin_pi_div_two]
theorem cos_270 : Real.cos (270 * (π / 180)) = 0 := by
  have : 270 * (π / 180) = π / 2 + π := by ring
  rw [this, Real.cos_add_pi, Real.cos_pi_div_two, neg_zero]
theorem sin_90 : Real.sin (90 * (π / 180)) = 1 := by
  have : 90 * (π / 180) = π / 2 := by ring
  rw [this, Real.sin_pi_div_two]
theorem cos_90 : Real.cos (90 * (π / 180)) = 0 := by
  have : 90 * (π / 180) = π / 2 := by ring
  rw [this, Real.cos_pi_div_two]
theorem sin_180 : Real.sin (180 * (π / 180)) = 0 := by
  have : 180 * (π / 180) = π := by ring
  rw [this, Real.sin_pi]
theorem cos_180 : Real.cos (180 * (π / 180)) = -1 := by
  have : 180 * (π / 180) = π := by ring
  rw [this, Real.cos_pi]

/-- The image of `z` is `O2 - r1 r2 / (z - O1)`. -/
theorem one_circle_matrix (c1 c2 : Circle) :
    let M := (Mobius.from_mapping_one_circle c1 c2).M
    let k : ℂ := -4 * c1.radius * c2.radius * Complex.I
    M 0 0 = k * cpx c2.center ∧ M 0 1 = k * (-(c1.radius * c2.radius) - cpx c1.center * cpx c2.center) ∧ M 1 0 = k ∧
      M 1 1 = k * (-cpx c1.center) := by
  have hz : ∀ (c : Circle) (t : ℝ), toC (c.point_from_angle t) =
      cpx c.center + c.radius * (Real.cos (t * (π / 180)) + Real.sin (t * (π / 180)) * Complex.I) := by
    intro c t
    apply Complex.ext <;> simp [toC, cpx, Circle.point_from_angle, unit_vector_, -Complex.ofReal_cos, -Complex.ofReal_sin]
  simp only [Mobius.from_mapping_one_circle, hz, sin_270, cos_270, sin_90, cos_90, sin_180, cos_180, zero_mul, Real.cos_zero,
    Real.sin_zero, Mobius.compose, Mobius.inverse, Mobius.oneCircleMatrix, Mobius.a, Mobius.b, Mobius.c, Mobius.d, if_true,
    Matrix.mul_apply, Fin.sum_univ_two, Matrix.of_apply, Matrix.cons_val', Matrix.cons_val_zero,
    Matrix.cons_val_one, Matrix.cons_val_fin_one]
  push_cast
  generalize cpx c1.center = O1
  generalize cpx c2.center = O2
  generalize (c1.radius : ℂ) = r1
  generalize (c2.radius : ℂ) = r2
  have h3 : Complex.I ^ 3 = -Complex.I := by rw [pow_succ, Complex.I_sq]; ring
  refine ⟨?_, ?_, ?_, ?_⟩ <;> ring_nf <;> simp only [Complex.I_sq, h3] <;> ring

theorem onCircle_iff_norm (O : Pt) (r : ℝ) (P : Pt) :
    OnCircle O r P ↔ Complex.normSq (cpx P - cpx O) = r ^ 2 := by
  unfold OnCircle sqDist
  rw [Complex.normSq_apply]
  simp only [Complex.sub_re, Complex.sub_im, cpx]
  constructor <;> intro h <;> linarith

/-- C56: the returned transformation has a nonzero determinant, a point is on the first circle iff its image is on
the second circle. -/
theorem C56_from_mapping_one_circle (c1 c2 : Circle) (h1 : c1.Valid) (h2 : c2.Valid) :
    Matrix.det (Mobius.from_mapping_one_circle c1 c2).M ≠ 0 ∧
    ∀ P Q, (Mobius.from_mapping_one_circle c1 c2).transform P = .ok Q →
      (XOnCircle c1.center c1.radius P ↔ XOnCircle c2.center c2.radius Q) := by
  obtain ⟨ea, eb, ec, ed⟩ := one_circle_matrix c1 c2
  have hr1 : (c1.radius : ℂ) ≠ 0 := by exact_mod_cast h1.ne'
  have hr2 : (c2.radius : ℂ) ≠ 0 := by exact_mod_cast h2.ne'
  have hk : (-4 * c1.radius * c2.radius * Complex.I : ℂ) ≠ 0 :=
    mul_ne_zero (mul_ne_zero (mul_ne_zero (by norm_num) hr1) hr2) Complex.I_ne_zero
  have hd : Matrix.det (Mobius.from_mapping_one_circle c1 c2).M ≠ 0 := by
    rw [det_ne_iff, ea, eb, ec, ed]
    generalize (-4 * c1.radius * c2.radius * Complex.I : ℂ) = k at hk
    have : k * cpx c2.center * (k * -cpx c1.center) - k * (-(c1.radius * c2.radius) - cpx c1.center * cpx c2.center) * k =
      k * k * (c1.radius * c2.radius) := by ring
    rw [this]
    exact mul_ne_zero (mul_ne_zero hk hk) (mul_ne_zero hr1 hr2)
  refine ⟨hd, fun P Q e => ?_⟩
  rw [C49_transform _ hd, ea, eb, ec, ed] at e
  have e' : IsMobImage (cpx c2.center) (-(c1.radius * c2.radius) - cpx c1.center * cpx c2.center) 1 (-cpx c1.center) P Q :=
    (mobImage_smul hk).1 (by rwa [mul_one])
  unfold IsMobImage at e'
  cases P with
  | fin P =>
    cases Q with
    | fin Q =>
      simp only [num_fin, den_fin, mul_one, one_mul] at e'
      have e2 : (cpx P - cpx c1.center) * (cpx Q - cpx c2.center) = -(c1.radius * c2.radius : ℝ) := by
        push_cast; linear_combination -e'
      have e3 := congrArg Complex.normSq e2
      rw [Complex.normSq_mul, Complex.normSq_neg, Complex.normSq_ofReal] at e3
      show OnCircle _ _ _ ↔ OnCircle _ _ _
      rw [onCircle_iff_norm, onCircle_iff_norm]
      have p1 := pow_pos h1 2
      have p2 := pow_pos h2 2
      constructor
      · intro h
        rw [h] at e3
        apply mul_left_cancel₀ p1.ne'
        rw [e3]; ring
      · intro h
        rw [h] at e3
        apply mul_right_cancel₀ p2.ne'
        rw [e3]; ring
    | inf =>
      simp only [num_fin, den_fin, num_inf, den_inf, mul_one, one_mul, mul_zero] at e'
      have : P = c1.center := cpx_inj (by linear_combination -e')
      subst this
      simp only [XOnCircle, OnCircle, iff_false]
      intro h
      simp only [sqDist] at h
      simp only [sub_self] at h
      nlinarith [pow_pos h1 2]
  | inf =>
    cases Q with
    | fin Q =>
      simp only [num_fin, den_fin, num_inf, den_inf, mul_one, one_mul, mul_zero, add_zero] at e'
      have : Q = c2.center := (cpx_inj e').symm
      subst this
      simp only [XOnCircle, OnCircle, false_iff]
      intro h
      simp only [sqDist] at h
      simp only [sub_self] at h
      nlinarith [pow_pos h2 2]
    | inf => simp at e'

/-- From the unit circle to the circle of center `(1, 2)` and radius 5: the image of `(1, 0)` is on that circle, the image
of the origin is not. -/
example (Q R : Pt) (hQ : (Mobius.from_mapping_one_circle ⟨⟨0, 0⟩, 1⟩ ⟨⟨1, 2⟩, 5⟩).transform (.fin ⟨1, 0⟩) = .ok (.fin Q))
    (hR : (Mobius.from_mapping_one_circle ⟨⟨0, 0⟩, 1⟩ ⟨⟨1, 2⟩, 5⟩).transform (.fin ⟨0, 0⟩) = .ok (.fin R)) :
    OnCircle ⟨1, 2⟩ 5 Q ∧ ¬ OnCircle ⟨1, 2⟩ 5 R := by
  have h := (C56_from_mapping_one_circle ⟨⟨0, 0⟩, 1⟩ ⟨⟨1, 2⟩, 5⟩ (by unfold Circle.Valid; norm_num)
    (by unfold Circle.Valid; norm_num)).2
  refine ⟨(h _ _ hQ).1 (by norm_num [XOnCircle, OnCircle, sqDist]), fun hc => ?_⟩
  have := (h _ _ hR).2 hc
  norm_num [XOnCircle, OnCircle, sqDist] at this

/-! ## C57 -/

/-- C57: a `ValueError` is raised exactly when two of the points coincide. -/
theorem C57_error_iff (A B C D : Pt) :
    cross_ratio A B C D = .error (.valueError "The four points must be distinct.") ↔
      A = B ∨ A = C ∨ A = D ∨ B = C ∨ B = D ∨ C = D := by
  have h : ∀ P Q, toC P = toC Q ↔ P = Q := fun P Q => ⟨cpx_inj, fun e => by rw [e]⟩
  unfold cross_ratio
  simp only [h]
  split_ifs with hh <;> simp [hh]

theorem cross_ratio_ok {A B C D : Pt} {z : ℂ} (h : cross_ratio A B C D = .ok z) :
    (A ≠ B ∧ A ≠ C ∧ A ≠ D ∧ B ≠ C ∧ B ≠ D ∧ C ≠ D) ∧
    z * ((cpx A - cpx B) * (cpx C - cpx D)) = (cpx A - cpx D) * (cpx C - cpx B) := by
  have hi : ∀ P Q, toC P = toC Q ↔ P = Q := fun P Q => ⟨cpx_inj, fun e => by rw [e]⟩
  unfold cross_ratio at h
  dsimp only at h
  split_ifs at h with hh
  simp only [hi, not_or] at hh
  refine ⟨hh, ?_⟩
  have h1 : cpx A - cpx B ≠ 0 := sub_ne_zero.2 (fun e => hh.1 (cpx_inj e))
  have h2 : cpx C - cpx D ≠ 0 := sub_ne_zero.2 (fun e => hh.2.2.2.2.2 (cpx_inj e))
  rw [Except.ok.injEq] at h
  rw [← h]
  simp only [toC_eq_cpx]
  field_simp

theorem sub_im_zero_iff {z u v : ℂ} (hu : u ≠ 0) (h : z * u = v) : z.im = 0 ↔ (v * (starRingEnd ℂ) u).im = 0 := by
  have : v * (starRingEnd ℂ) u = z * (Complex.normSq u : ℂ) := by
    rw [← h, mul_assoc, Complex.mul_conj]
  rw [this, Complex.mul_im, Complex.ofReal_im, Complex.ofReal_re, mul_zero, zero_add, mul_eq_zero]
  constructor
  · intro h; exact Or.inl h
  · rintro (h | h)
    · exact h
    · exact absurd (Complex.normSq_eq_zero.1 h) hu

set_option maxHeartbeats 1000000 in
/-- C57: the cross ratio is real exactly when the four points lie on a circle or on a line. -/
theorem C57_real_iff (A B C D : Pt) (z : ℂ) (h : cross_ratio A B C D = .ok z) :
    z.im = 0 ↔ (∃ O r, 0 < r ∧ OnCircle O r A ∧ OnCircle O r B ∧ OnCircle O r C ∧ OnCircle O r D) ∨
      (OnLine A B C ∧ OnLine A B D) := by
  obtain ⟨hne, hz⟩ := cross_ratio_ok h
  have h1 : cpx A - cpx B ≠ 0 := sub_ne_zero.2 (fun e => hne.1 (cpx_inj e))
  have h2 : cpx C - cpx D ≠ 0 := sub_ne_zero.2 (fun e => hne.2.2.2.2.2 (cpx_inj e))
  rw [sub_im_zero_iff (mul_ne_zero h1 h2) hz, onLine_iff_cross hne.1, onLine_iff_cross hne.1]
  have key : ((cpx A - cpx D) * (cpx C - cpx B) * (starRingEnd ℂ) ((cpx A - cpx B) * (cpx C - cpx D))).im =
      -(cross (B - A) (C - A) * sqDist A D - cross (B - A) (D - A) * sqDist A C + cross (C - A) (D - A) * sqDist A B) := by
    simp [cpx, cross, sqDist]
    ring
  rw [key, neg_eq_zero]
  have hb := sqDist_pos hne.1
  have hc := sqDist_pos hne.2.1
  have hbc := sqDist_pos hne.2.2.2.1
  obtain ⟨bx, hbx⟩ : ∃ t, B.x = A.x + t := ⟨B.x - A.x, by ring⟩
  obtain ⟨by', hby⟩ : ∃ t, B.y = A.y + t := ⟨B.y - A.y, by ring⟩
  obtain ⟨cx, hcx⟩ : ∃ t, C.x = A.x + t := ⟨C.x - A.x, by ring⟩
  obtain ⟨cy, hcy⟩ : ∃ t, C.y = A.y + t := ⟨C.y - A.y, by ring⟩
  obtain ⟨dx, hdx⟩ : ∃ t, D.x = A.x + t := ⟨D.x - A.x, by ring⟩
  obtain ⟨dy, hdy⟩ : ∃ t, D.y = A.y + t := ⟨D.y - A.y, by ring⟩
  simp only [cross, sqDist, OnCircle, Pt.sub_x, Pt.sub_y, hbx, hby, hcx, hcy, hdx, hdy] at hb hc hbc ⊢
  have hb' : bx ^ 2 + by' ^ 2 ≠ 0 := by nlinarith
  have hc' : cx ^ 2 + cy ^ 2 ≠ 0 := by nlinarith
  have hbc' : (bx - cx) ^ 2 + (by' - cy) ^ 2 ≠ 0 := by nlinarith
  clear hb hc hbc
  constructor
  · intro e
    by_cases hN : bx * cy - by' * cx = 0
    · right
      have hdot : bx * cx + by' * cy ≠ 0 := by
        intro h0
        apply mul_ne_zero hb' hc'
        linear_combination (bx * cx + by' * cy) * h0 + (bx * cy - by' * cx) * hN
      have hdot2 : bx * cx + by' * cy - (bx ^ 2 + by' ^ 2) ≠ 0 := by
        intro h0
        have : (bx ^ 2 + by' ^ 2) * ((bx - cx) ^ 2 + (by' - cy) ^ 2) = 0 := by
          linear_combination (bx * cx + by' * cy - (bx ^ 2 + by' ^ 2)) * h0 + (bx * cy - by' * cx) * hN
        exact mul_ne_zero hb' hbc' this
      have h3 : (bx * dy - by' * dx) * ((bx * cx + by' * cy) * (bx * cx + by' * cy - (bx ^ 2 + by' ^ 2))) = 0 := by
        have e' : (bx * cy - by' * cx) * (dx ^ 2 + dy ^ 2) - (bx * dy - by' * dx) * (cx ^ 2 + cy ^ 2) +
          (cx * dy - cy * dx) * (bx ^ 2 + by' ^ 2) = 0 := by linear_combination e
        linear_combination (-(bx ^ 2 + by' ^ 2)) * e' + ((bx ^ 2 + by' ^ 2) * (dx ^ 2 + dy ^ 2)
          - (bx * dy - by' * dx) * (bx * cy - by' * cx) - (bx * dx + by' * dy) * (bx ^ 2 + by' ^ 2)) * hN
      have h4 := (mul_eq_zero.1 h3).resolve_right (mul_ne_zero hdot hdot2)
      exact ⟨by linear_combination hN, by linear_combination h4⟩
    · left
      have hc2 : ∃ ox oy : ℝ, 2 * (ox * bx + oy * by') = bx ^ 2 + by' ^ 2 ∧ 2 * (ox * cx + oy * cy) = cx ^ 2 + cy ^ 2 := by
        obtain ⟨N, hNe⟩ : ∃ N, N = bx * cy - by' * cx := ⟨_, rfl⟩
        rw [← hNe] at hN
        refine ⟨(cy * (bx ^ 2 + by' ^ 2) - by' * (cx ^ 2 + cy ^ 2)) / (2 * N),
          (bx * (cx ^ 2 + cy ^ 2) - cx * (bx ^ 2 + by' ^ 2)) / (2 * N), ?_, ?_⟩
        · field_simp; rw [hNe]; ring
        · field_simp; rw [hNe]; ring
      obtain ⟨ox, oy, h3, h4⟩ := hc2
      have h5 : 2 * (ox * dx + oy * dy) = dx ^ 2 + dy ^ 2 := by
        apply mul_left_cancel₀ hN
        linear_combination (-1 : ℝ) * e + (cy * dx - cx * dy) * h3 + (bx * dy - by' * dx) * h4
      have hr : 0 < ox ^ 2 + oy ^ 2 := by
        rcases lt_or_eq_of_le (show 0 ≤ ox ^ 2 + oy ^ 2 by positivity) with h | h
        · exact h
        · exfalso
          have hx : ox = 0 := pow_eq_zero_iff two_ne_zero |>.1 (by linarith [sq_nonneg ox, sq_nonneg oy] : ox ^ 2 = 0)
          have hy : oy = 0 := pow_eq_zero_iff two_ne_zero |>.1 (by linarith [sq_nonneg ox, sq_nonneg oy] : oy ^ 2 = 0)
          rw [hx, hy] at h3
          apply hb'; linarith
      refine ⟨⟨A.x + ox, A.y + oy⟩, sqrt (ox ^ 2 + oy ^ 2), Real.sqrt_pos.2 hr, ?_, ?_, ?_, ?_⟩ <;>
        rw [Real.sq_sqrt hr.le] <;> simp only
      · ring
      · linear_combination -h3
      · linear_combination -h4
      · linear_combination -h5
  · rintro (⟨O, r, -, hA, hB, hC, hD⟩ | ⟨h3, h4⟩)
    · have h3 : bx ^ 2 + by' ^ 2 = 2 * ((O.x - A.x) * bx + (O.y - A.y) * by') := by linear_combination hB - hA
      have h4 : cx ^ 2 + cy ^ 2 = 2 * ((O.x - A.x) * cx + (O.y - A.y) * cy) := by linear_combination hC - hA
      have h5 : dx ^ 2 + dy ^ 2 = 2 * ((O.x - A.x) * dx + (O.y - A.y) * dy) := by linear_combination hD - hA
      linear_combination (bx * cy - by' * cx) * h5 - (bx * dy - by' * dx) * h4 + (cx * dy - cy * dx) * h3
    · linear_combination (dx ^ 2 + dy ^ 2 - (bx * dx + by' * dy)) * h3 + (bx * cx + by' * cy - (cx ^ 2 + cy ^ 2)) * h4

/-- The cross ratio of four points of the unit circle is real, and a repeated point is refused. -/
example : (∀ z, cross_ratio ⟨1, 0⟩ ⟨0, 1⟩ ⟨-1, 0⟩ ⟨0, -1⟩ = .ok z → z.im = 0) ∧
    cross_ratio ⟨1, 0⟩ ⟨0, 1⟩ ⟨1, 0⟩ ⟨0, -1⟩ = .error (.valueError "The four points must be distinct.") := by
  refine ⟨fun z h => (C57_real_iff _ _ _ _ z h).2 (Or.inl ⟨⟨0, 0⟩, 1, ?_⟩), (C57_error_iff _ _ _ _).2 (Or.inr (Or.inl rfl))⟩
  norm_num [OnCircle, sqDist]

/-- C57: the cross ratio is invariant under the Möbius transformations that send the four points to finite points. -/
theorem C57_invariant (f : Mobius) (h : Matrix.det f.M ≠ 0) (A B C D A' B' C' D' : Pt)
    (hA : f.transform (.fin A) = .ok (.fin A')) (hB : f.transform (.fin B) = .ok (.fin B'))
    (hC : f.transform (.fin C) = .ok (.fin C')) (hD : f.transform (.fin D) = .ok (.fin D')) :
    cross_ratio A' B' C' D' = cross_ratio A B C D := by
  have inj : ∀ P Q P' Q', f.transform (.fin P) = .ok (.fin P') → f.transform (.fin Q) = .ok (.fin Q') →
      (toC P' = toC Q' ↔ toC P = toC Q) := by
    intro P Q P' Q' hP hQ
    constructor
    · intro e
      have e' : P' = Q' := cpx_inj e
      have i1 := (C49_inverse f h (.fin P)).1
      have i2 := (C49_inverse f h (.fin Q)).1
      rw [hP, Res.ok_bind] at i1
      rw [hQ, Res.ok_bind, ← e', i1] at i2
      have : P = Q := by simpa using i2
      rw [this]
    · intro e
      have e' : P = Q := cpx_inj e
      rw [e', hQ] at hP
      have : Q' = P' := by simpa using hP
      rw [this]
  unfold cross_ratio
  simp only [inj _ _ _ _ hA hB, inj _ _ _ _ hA hC, inj _ _ _ _ hA hD, inj _ _ _ _ hB hC, inj _ _ _ _ hB hD, inj _ _ _ _ hC hD]
  by_cases hh : toC A = toC B ∨ toC A = toC C ∨ toC A = toC D ∨ toC B = toC C ∨ toC B = toC D ∨ toC C = toC D
  · rw [if_pos hh, if_pos hh]
  · rw [if_neg hh, if_neg hh]
    congr 1
    simp only [not_or] at hh
    have n1 : toC A' - toC B' ≠ 0 := sub_ne_zero.2 (fun e => hh.1 ((inj _ _ _ _ hA hB).1 e))
    have n2 : toC C' - toC D' ≠ 0 := sub_ne_zero.2 (fun e => hh.2.2.2.2.2 ((inj _ _ _ _ hC hD).1 e))
    have n3 : toC A - toC B ≠ 0 := sub_ne_zero.2 hh.1
    have n4 : toC C - toC D ≠ 0 := sub_ne_zero.2 hh.2.2.2.2.2
    have h0 := (det_ne_iff _).1 h
    have key : ∀ P P', f.transform (.fin P) = .ok (.fin P') → ∃ μ : ℂ, μ ≠ 0 ∧ f.a * toC P + f.b = μ * toC P' ∧
        f.c * toC P + f.d = μ := by
      intro P P' hP
      obtain ⟨μ, h1, h2, h3⟩ := (mobImage_iff h0 _ _).1 ((C49_transform _ h _ _).1 hP)
      simp only [num_fin, den_fin, mul_one] at h2 h3
      exact ⟨μ, h1, h2, h3⟩
    have diff : ∀ P P' Q Q' (μ ν : ℂ), f.a * toC P + f.b = μ * toC P' → f.c * toC P + f.d = μ →
        f.a * toC Q + f.b = ν * toC Q' → f.c * toC Q + f.d = ν →
        μ * ν * (toC P' - toC Q') = (f.a * f.d - f.b * f.c) * (toC P - toC Q) := by
      intro P P' Q Q' μ ν h1 h2 h3 h4
      linear_combination (-ν) * h1 + μ * h3 + (f.a * toC Q + f.b) * h2 - (f.a * toC P + f.b) * h4
    obtain ⟨α, hα, a1, a2⟩ := key _ _ hA
    obtain ⟨β, hβ, b1, b2⟩ := key _ _ hB
    obtain ⟨γ, hγ, c1, c2⟩ := key _ _ hC
    obtain ⟨δ, hδ, d1, d2⟩ := key _ _ hD
    have e1 := diff _ _ _ _ _ _ a1 a2 d1 d2
    have e2 := diff _ _ _ _ _ _ c1 c2 b1 b2
    have e3 := diff _ _ _ _ _ _ a1 a2 b1 b2
    have e4 := diff _ _ _ _ _ _ c1 c2 d1 d2
    have h0' : (f.a * f.d - f.b * f.c) ≠ 0 := h0
    generalize toC A' - toC B' = AB' at *
    generalize toC C' - toC D' = CD' at *
    generalize toC A' - toC D' = AD' at *
    generalize toC C' - toC B' = CB' at *
    generalize toC A - toC B = AB at *
    generalize toC C - toC D = CD at *
    generalize toC A - toC D = AD at *
    generalize toC C - toC B = CB at *
    generalize f.a * f.d - f.b * f.c = Δ at *
    have goal' : AD' * CB' * (AB * CD) = AD * CB * (AB' * CD') := by
      have hz : α * β * γ * δ * Δ * Δ ≠ 0 := by
        repeat' apply mul_ne_zero <;> try assumption
      apply mul_left_cancel₀ hz
      linear_combination (α * δ * AD') * (γ * β * CB') * 0 + (γ * β * CB' * Δ * AB * Δ * CD) * e1 +
        (Δ * AD * Δ * AB * Δ * CD) * e2 - (Δ * AD * Δ * CB * (γ * δ * CD')) * e3 - (Δ * AD * Δ * CB * Δ * AB) * e4
    field_simp
    linear_combination goal'

example : ∃ z, cross_ratio ⟨1, 0⟩ ⟨0, 1⟩ ⟨-1, 0⟩ ⟨0, -1⟩ = .ok z := by
  unfold cross_ratio
  rw [if_neg (by norm_num [toC, Complex.ext_iff])]
  exact ⟨_, rfl⟩
