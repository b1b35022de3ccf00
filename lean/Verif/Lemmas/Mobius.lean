import Verif.Model.Mobius
import Verif.Spec.Mobius
import Verif.Lemmas.Basic

open Spec Classical

theorem toC_from (z : ℂ) : toC (from_complex_ z) = z := rfl
theorem from_toC (P : Pt) : from_complex_ (toC P) = P := rfl
theorem cpx_from (z : ℂ) : cpx (from_complex_ z) = z := rfl
theorem toC_eq_cpx (P : Pt) : toC P = cpx P := rfl
theorem cpx_inj {P Q : Pt} (h : cpx P = cpx Q) : P = Q := by
  have h1 := congrArg Complex.re h
  have h2 := congrArg Complex.im h
  exact Pt.ext h1 h2

@[simp] theorem num_fin (P : Pt) : num (.fin P) = cpx P := rfl
@[simp] theorem num_inf : num .inf = 1 := rfl
@[simp] theorem den_fin (P : Pt) : den (.fin P) = 1 := rfl
@[simp] theorem den_inf : den .inf = 0 := rfl

/-- Proportionality with a nonzero factor. -/
theorem mobImage_iff {a b c d : ℂ} (h : a * d - b * c ≠ 0) (P Q : XPt) :
    IsMobImage a b c d P Q ↔ ∃ μ : ℂ, μ ≠ 0 ∧ a * num P + b * den P = μ * num Q ∧ c * num P + d * den P = μ * den Q := by
  have hv : ¬ (a * num P + b * den P = 0 ∧ c * num P + d * den P = 0) := by
    rintro ⟨h1, h2⟩
    have e1 : (a * d - b * c) * num P = 0 := by linear_combination d * h1 - b * h2
    have e2 : (a * d - b * c) * den P = 0 := by linear_combination a * h2 - c * h1
    cases P with
    | fin P => simp at e2; exact h e2
    | inf => simp at e1; exact h e1
  unfold IsMobImage
  constructor
  · intro e
    cases Q with
    | fin Q =>
      simp only [num_fin, num_inf, den_fin, den_inf, mul_one] at e ⊢
      refine ⟨c * num P + d * den P, ?_, e, rfl⟩
      intro h0
      exact hv ⟨by rw [e, h0, zero_mul], h0⟩
    | inf =>
      simp only [num_fin, num_inf, den_fin, den_inf, mul_one, mul_zero] at e ⊢
      refine ⟨a * num P + b * den P, ?_, rfl, e.symm⟩
      intro h0
      exact hv ⟨h0, e.symm⟩
  · rintro ⟨μ, -, e1, e2⟩
    rw [e1, e2]; ring

theorem mobImage_unique {a b c d : ℂ} (h : a * d - b * c ≠ 0) {P Q Q' : XPt}
    (h1 : IsMobImage a b c d P Q) (h2 : IsMobImage a b c d P Q') : Q = Q' := by
  obtain ⟨μ, hμ, e1, e2⟩ := (mobImage_iff h _ _).1 h1
  obtain ⟨ν, hν, f1, f2⟩ := (mobImage_iff h _ _).1 h2
  rw [e1] at f1
  rw [e2] at f2
  cases Q with
  | fin Q =>
    cases Q' with
    | fin Q' =>
      simp only [num_fin, num_inf, den_fin, den_inf, mul_one] at f1 f2
      rw [f2] at f1
      rw [cpx_inj (mul_left_cancel₀ hν f1)]
    | inf => simp only [num_fin, num_inf, den_fin, den_inf, mul_one, mul_zero] at f2; exact absurd f2 hμ
  | inf =>
    cases Q' with
    | fin Q' => simp only [num_fin, num_inf, den_fin, den_inf, mul_one, mul_zero] at f2; exact absurd f2.symm hν
    | inf => rfl

theorem mobImage_comp {a b c d a' b' c' d' : ℂ} (h : a * d - b * c ≠ 0) (h' : a' * d' - b' * c' ≠ 0) {P Q R : XPt}
    (h1 : IsMobImage a b c d P Q) (h2 : IsMobImage a' b' c' d' Q R) :
    IsMobImage (a' * a + b' * c) (a' * b + b' * d) (c' * a + d' * c) (c' * b + d' * d) P R := by
  obtain ⟨μ, hμ, e1, e2⟩ := (mobImage_iff h _ _).1 h1
  obtain ⟨ν, hν, f1, f2⟩ := (mobImage_iff h' _ _).1 h2
  unfold IsMobImage
  have g1 : (a' * a + b' * c) * num P + (a' * b + b' * d) * den P = μ * ν * num R := by
    linear_combination a' * e1 + b' * e2 + μ * f1
  have g2 : (c' * a + d' * c) * num P + (c' * b + d' * d) * den P = μ * ν * den R := by
    linear_combination c' * e1 + d' * e2 + μ * f2
  rw [g1, g2]; ring

theorem mobImage_symm {a b c d : ℂ} (h : a * d - b * c ≠ 0) {P Q : XPt} (h1 : IsMobImage a b c d P Q) :
    IsMobImage d (-b) (-c) a Q P := by
  obtain ⟨μ, hμ, e1, e2⟩ := (mobImage_iff h _ _).1 h1
  unfold IsMobImage
  have g1 : μ * (d * num Q + -b * den Q) = (a * d - b * c) * num P := by
    linear_combination -d * e1 + b * e2
  have g2 : μ * (-c * num Q + a * den Q) = (a * d - b * c) * den P := by
    linear_combination c * e1 - a * e2
  apply mul_left_cancel₀ hμ
  linear_combination g1 * den P - g2 * num P

theorem det_ne_iff (M : Matrix (Fin 2) (Fin 2) ℂ) :
    Matrix.det M ≠ 0 ↔ M 0 0 * M 1 1 - M 0 1 * M 1 0 ≠ 0 := by
  rw [Matrix.det_fin_two]

namespace Mobius


theorem transform_spec (f : Mobius) (h : f.a * f.d - f.b * f.c ≠ 0) (P : XPt) :
    ∃ Q, f.transform P = .ok Q ∧ IsMobImage f.a f.b f.c f.d P Q := by
  unfold transform
  cases P with
  | inf =>
    dsimp only
    by_cases hc : f.c = 0
    · rw [if_pos hc]
      exact ⟨_, rfl, by simp [IsMobImage, num, den, hc]⟩
    · rw [if_neg hc]
      refine ⟨_, rfl, ?_⟩
      simp only [IsMobImage, num, den, cpx_from]
      field_simp
      simp
  | fin P =>
    dsimp only
    by_cases hc : f.c ≠ 0 ∧ toC P = -f.d / f.c
    · rw [if_pos hc]
      refine ⟨_, rfl, ?_⟩
      simp only [IsMobImage, num_fin, num_inf, den_fin, den_inf, ← toC_eq_cpx, hc.2]
      have := hc.1
      field_simp
      simp
    · rw [if_neg hc]
      have hd : f.c * toC P + f.d ≠ 0 := by
        intro e
        by_cases hc0 : f.c = 0
        · rw [hc0] at e h
          simp only [zero_mul, zero_add] at e
          rw [e] at h; simp at h
        · exact hc ⟨hc0, by field_simp; linear_combination e⟩
      unfold npDivC
      rw [if_neg hd]
      refine ⟨_, rfl, ?_⟩
      simp only [IsMobImage, num_fin, den_fin, cpx_from, ← toC_eq_cpx]
      rw [toC_from]
      simp only [mul_one]
      rw [mul_comm (f.c * toC P + f.d), div_mul_cancel₀ _ hd]

theorem transform_eq (f : Mobius) (h : f.a * f.d - f.b * f.c ≠ 0) {P Q : XPt}
    (hi : IsMobImage f.a f.b f.c f.d P Q) : f.transform P = .ok Q := by
  obtain ⟨Q', e, h'⟩ := transform_spec f h P
  rw [e, mobImage_unique h hi h']

theorem transform_iff (f : Mobius) (h : f.a * f.d - f.b * f.c ≠ 0) {P Q : XPt} :
    f.transform P = .ok Q ↔ IsMobImage f.a f.b f.c f.d P Q := by
  constructor
  · intro e
    obtain ⟨Q', e', h'⟩ := transform_spec f h P
    rw [e, Except.ok.injEq] at e'
    rwa [e']
  · exact transform_eq f h

end Mobius
