import Verif.Spec.Modular
import Verif.Model.ModularTessellation
import Verif.Lemmas.MobiusDisc
import Verif.Props.GasketMobius
import Verif.Props.MobiusPower

/-! Lemmas for the scripts `ModularTessellation.py` and `ModularTessellation_animation.py`. -/

open Spec Real Classical

namespace Modular

theorem sin_third_pos : 0 < sin (π / 3) := by rw [sin_pi_div_three]; positivity

theorem rot_coeffs (u : ℝ) : sin ((1 - u) * (π / 3)) + sin (u * (π / 3)) * (1 / 2) = sin (π / 3) * cos (u * (π / 3)) := by
  rw [show (1 - u) * (π / 3) = π / 3 - u * (π / 3) by ring, sin_sub, cos_pi_div_three]; ring

theorem rot_coeffs' (u : ℝ) : sin ((1 + u) * (π / 3)) = sin ((1 - u) * (π / 3)) + sin (u * (π / 3)) := by
  rw [show (1 - u) * (π / 3) = π / 3 - u * (π / 3) by ring, show (1 + u) * (π / 3) = π / 3 + u * (π / 3) by ring, sin_sub, sin_add,
    cos_pi_div_three]; ring

theorem R_M : R.M = !![0, -1; 1, 1] := by
  simp [R, Mobius.compose, U, T]

/-- The power of an eigenvalue. -/
theorem eig_pow {l : ℂ} (h : l * l - l + 1 = 0) (u : ℝ) :
    l ^ (u : ℂ) = ((1 / sin (π / 3) * sin ((1 - u) * (π / 3)) : ℝ) : ℂ) + ((1 / sin (π / 3) * sin (u * (π / 3)) : ℝ) : ℂ) * l := by
  have hs := sin_third_pos
  have h3 : √3 ^ 2 = 3 := Real.sq_sqrt (by norm_num)
  have h3' : ((√3 : ℝ) : ℂ) ^ 2 = 3 := by exact_mod_cast h3
  have hI : Complex.I ^ 2 = -1 := Complex.I_sq
  have hpos : ∀ s : ℝ, (s = 1 ∨ s = -1) → l = 1 / 2 + s * (√3 / 2) * Complex.I → l ^ (u : ℂ) =
      ((1 / sin (π / 3) * sin ((1 - u) * (π / 3)) : ℝ) : ℂ) + ((1 / sin (π / 3) * sin (u * (π / 3)) : ℝ) : ℂ) * l := by
    intro s hs1 hl
    have habs : |s * (π / 3)| < π := by
      rcases hs1 with rfl | rfl <;> rw [abs_lt] <;> constructor <;> nlinarith [pi_pos]
    rw [abs_lt] at habs
    have hcs : cos (s * (π / 3)) = 1 / 2 ∧ sin (s * (π / 3)) = s * (√3 / 2) := by
      rcases hs1 with rfl | rfl
      · rw [one_mul, one_mul]; exact ⟨cos_pi_div_three, sin_pi_div_three⟩
      · rw [neg_one_mul, neg_one_mul, cos_neg, sin_neg, cos_pi_div_three, sin_pi_div_three]; exact ⟨rfl, rfl⟩
    have he : l = Complex.exp (((s * (π / 3) : ℝ) : ℂ) * Complex.I) := by
      rw [Complex.exp_mul_I, ← Complex.ofReal_cos, ← Complex.ofReal_sin, hcs.1, hcs.2, hl]
      push_cast; ring
    have hlog : Complex.log l = ((s * (π / 3) : ℝ) : ℂ) * Complex.I := by
      rw [he, Complex.log_exp]
      · simpa using habs.1
      · simpa using habs.2.le
    have hne : l ≠ 0 := by rw [he]; exact Complex.exp_ne_zero _
    rw [Complex.cpow_def_of_ne_zero hne, hlog]
    have e2 : ((s * (π / 3) : ℝ) : ℂ) * Complex.I * (u : ℂ) = ((s * (u * (π / 3)) : ℝ) : ℂ) * Complex.I := by push_cast; ring
    rw [e2, Complex.exp_mul_I, ← Complex.ofReal_cos, ← Complex.ofReal_sin]
    have hcs' : cos (s * (u * (π / 3))) = cos (u * (π / 3)) ∧ sin (s * (u * (π / 3))) = s * sin (u * (π / 3)) := by
      rcases hs1 with rfl | rfl
      · simp
      · simp
    rw [hcs'.1, hcs'.2, hl]
    have k1 : cos (u * (π / 3)) = 1 / sin (π / 3) * sin ((1 - u) * (π / 3)) + 1 / sin (π / 3) * sin (u * (π / 3)) * (1 / 2) := by
      rw [mul_assoc, ← mul_add, rot_coeffs u, ← mul_assoc, one_div_mul_cancel hs.ne', one_mul]
    have k2 : 1 / sin (π / 3) * (√3 / 2) = 1 := by
      rw [sin_pi_div_three]
      have : √3 ≠ 0 := by intro h; rw [h] at h3; norm_num at h3
      field_simp
    rw [k1]
    generalize 1 / sin (π / 3) = w at *
    have k2' : (w : ℂ) * ((√3 : ℝ) / 2 : ℂ) = 1 := by exact_mod_cast k2
    push_cast
    linear_combination (-(s : ℂ) * Complex.sin (u * (π / 3)) * Complex.I) * k2'
  have hfac : (l - (1 / 2 + (1 : ℝ) * (√3 / 2) * Complex.I)) * (l - (1 / 2 + (-1 : ℝ) * (√3 / 2) * Complex.I)) = 0 := by
    push_cast
    linear_combination h + (-(1 : ℂ) / 4) * ((√3 : ℝ) : ℂ) ^ 2 * hI + (1 / 4 : ℂ) * h3'
  rcases mul_eq_zero.1 hfac with h1 | h1
  · exact hpos 1 (Or.inl rfl) (sub_eq_zero.1 h1)
  · exact hpos (-1) (Or.inr rfl) (sub_eq_zero.1 h1)

theorem R_det : Matrix.det R.M = 1 := by rw [R_M, Matrix.det_fin_two]; simp

theorem R_exact : ExactPower R.M := by
  left
  rw [R_M, Matrix.trace_fin_two, Matrix.det_fin_two]
  simp only [Matrix.of_apply, Matrix.cons_val', Matrix.cons_val_zero, Matrix.cons_val_one, Matrix.cons_val_fin_one]
  rw [show ((0 : ℂ) + 1) ^ 2 - 4 * (0 * 1 - -1 * 1) = -3 by ring, norm_neg]
  unfold sepsilon_
  norm_num

/-- The generalized powers computed by the script. -/
theorem Rt_eq (eig : Matrix (Fin 2) (Fin 2) ℂ → Mobius.Eig) (he : Mobius.IsEig R.M (eig R.M)) (u : ℝ) :
    Rt eig u = .ok ⟨(modularRot u).map (fun x => (x : ℂ))⟩ := by
  have hx := R_exact
  have hd : Matrix.det R.M ≠ 0 := by rw [R_det]; exact one_ne_zero
  obtain ⟨F, hF, hg⟩ := gpower_group eig R hd he hx
  have hgu := hg u
  unfold Rt
  rw [hgu]
  unfold Mobius.gpower at hgu
  dsimp only at hgu
  have hcond : ¬ ‖(R.M 0 0 + R.M 1 1) * (R.M 0 0 + R.M 1 1) - 4 * (R.M 0 0 * R.M 1 1 - R.M 1 0 * R.M 0 1)‖ < sepsilon_ := by
    rw [R_M]
    simp only [Matrix.of_apply, Matrix.cons_val', Matrix.cons_val_zero, Matrix.cons_val_one, Matrix.cons_val_fin_one]
    rw [show ((0 : ℂ) + 1) * (0 + 1) - 4 * (0 * 1 - 1 * -1) = -3 by ring, norm_neg]
    unfold sepsilon_
    norm_num
  rw [if_neg hcond] at hgu
  obtain ⟨htr, hdt, heig, -, -⟩ := he
  generalize eig R.M = e at *
  rw [R_M] at htr hdt heig
  simp only [Matrix.of_apply, Matrix.cons_val', Matrix.cons_val_zero, Matrix.cons_val_one, Matrix.cons_val_fin_one] at htr hdt
  have h0 : e.val0 * e.val0 - e.val0 + 1 = 0 := by linear_combination e.val0 * htr - hdt
  have h1 : e.val1 * e.val1 - e.val1 + 1 = 0 := by linear_combination e.val1 * htr - hdt
  have n0 : e.val0 ≠ 0 := by intro h; rw [h] at h0; simp at h0
  have n1 : e.val1 ≠ 0 := by intro h; rw [h] at h1; simp at h1
  rw [npPow_ne n0, npPow_ne n1, Res.ok_bind, Res.ok_bind, eig_pow h0, eig_pow h1] at hgu
  by_cases hE : Matrix.det e.vec = 0
  · rw [if_pos hE] at hgu; exact absurd hgu (by simp)
  rw [if_neg hE] at hgu
  rw [← hgu]
  refine congrArg Except.ok (congrArg Mobius.mk ?_)
  have hu : IsUnit (Matrix.det e.vec) := isUnit_iff_ne_zero.2 hE
  obtain ⟨a, ha⟩ : ∃ a : ℝ, a = 1 / sin (π / 3) * sin ((1 - u) * (π / 3)) := ⟨_, rfl⟩
  obtain ⟨b, hb⟩ : ∃ b : ℝ, b = 1 / sin (π / 3) * sin (u * (π / 3)) := ⟨_, rfl⟩
  have hrot : (modularRot u).map (fun x => (x : ℂ)) = !![(a : ℂ), -b; b, a + b] := by
    unfold modularRot
    rw [rot_coeffs' u]
    ext i j
    fin_cases i <;> fin_cases j <;> simp [ha, hb, mul_add]
  rw [hrot, ← ha, ← hb]
  have key : e.vec * !![(a : ℂ) + b * e.val0, 0; 0, a + b * e.val1] = !![(a : ℂ), -b; b, a + b] * e.vec := by
    have q00 := congrFun (congrFun heig 0) 0
    have q01 := congrFun (congrFun heig 0) 1
    have q10 := congrFun (congrFun heig 1) 0
    have q11 := congrFun (congrFun heig 1) 1
    simp [Matrix.mul_apply, Fin.sum_univ_two] at q00 q01 q10 q11
    ext i j
    fin_cases i <;> fin_cases j <;> simp [Matrix.mul_apply, Fin.sum_univ_two]
    · linear_combination -(b : ℂ) * q00
    · linear_combination -(b : ℂ) * q01
    · linear_combination -(b : ℂ) * q10
    · linear_combination -(b : ℂ) * q11
  rw [key, Matrix.mul_assoc, Matrix.mul_nonsing_inv _ hu, Matrix.mul_one]

/-! ## Real matrices of determinant one -/

/-- A real matrix, then the map to the unit disc. -/
noncomputable def cay (S : Matrix (Fin 2) (Fin 2) ℝ) : Matrix (Fin 2) (Fin 2) ℂ := !![Complex.I, 1; 1, Complex.I] * S.map (fun x => (x : ℂ))

theorem cay_entries (S : Matrix (Fin 2) (Fin 2) ℝ) : cay S 0 0 = Complex.I * S 0 0 + S 1 0 ∧ cay S 0 1 = Complex.I * S 0 1 + S 1 1 ∧
    cay S 1 0 = S 0 0 + Complex.I * S 1 0 ∧ cay S 1 1 = S 0 1 + Complex.I * S 1 1 := by
  unfold cay
  refine ⟨?_, ?_, ?_, ?_⟩ <;> simp [Matrix.mul_apply, Fin.sum_univ_two]

theorem cay_det (S : Matrix (Fin 2) (Fin 2) ℝ) (h : Matrix.det S = 1) : Matrix.det (cay S) ≠ 0 := by
  obtain ⟨e1, e2, e3, e4⟩ := cay_entries S
  rw [Matrix.det_fin_two, e1, e2, e3, e4]
  rw [Matrix.det_fin_two] at h
  have h' : (S 0 0 : ℂ) * S 1 1 - S 0 1 * S 1 0 = 1 := by exact_mod_cast h
  have hI : Complex.I ^ 2 = -1 := Complex.I_sq
  have : (Complex.I * S 0 0 + S 1 0) * (S 0 1 + Complex.I * S 1 1) - (Complex.I * S 0 1 + S 1 1) * (S 0 0 + Complex.I * S 1 0) = -2 := by
    linear_combination (-2) * h' + ((S 0 0 : ℂ) * S 1 1 - S 0 1 * S 1 0) * hI
  rw [this]; norm_num

/-- The pole is outside the discs of the upper half-plane. -/
theorem cay_pole (S : Matrix (Fin 2) (Fin 2) ℝ) (h : Matrix.det S = 1) (c : Circle) (hc : c.Valid) (hy : c.radius < c.center.y) :
    0 < Complex.normSq (cay S 1 0 * cpx c.center + cay S 1 1) - c.radius ^ 2 * Complex.normSq (cay S 1 0) := by
  obtain ⟨e1, e2, e3, e4⟩ := cay_entries S
  rw [e3, e4]
  rw [Matrix.det_fin_two] at h
  obtain ⟨⟨x, y⟩, r⟩ := c
  have hr : 0 < r := hc
  dsimp only at hy ⊢
  generalize S 0 0 = a at *
  generalize S 0 1 = b at *
  generalize S 1 0 = p at *
  generalize S 1 1 = q at *
  have : Complex.normSq ((a + Complex.I * p) * cpx ⟨x, y⟩ + (b + Complex.I * q)) - r ^ 2 * Complex.normSq (a + Complex.I * p) =
      (a * x + b) ^ 2 + (p * x + q) ^ 2 + (a ^ 2 + p ^ 2) * (y ^ 2 - r ^ 2) + 2 * y * (a * q - b * p) := by
    simp [cpx, Complex.normSq_apply]; ring
  rw [this, h]
  have : 0 < y ^ 2 - r ^ 2 := by nlinarith
  have : 0 < y := by linarith
  positivity

/-- The side of the image with respect to the unit circle. -/
theorem cay_side (S : Matrix (Fin 2) (Fin 2) ℝ) (h : Matrix.det S = 1) (P : Pt) (Q : XPt)
    (hI : IsMobImage (cay S 0 0) (cay S 0 1) (cay S 1 0) (cay S 1 1) (.fin P) Q) (hy : 0 < P.y) : Q ∈ (disc unitCircle).inside := by
  obtain ⟨μ, hμ, m1, m2⟩ := (mobImage_iff ((det_ne_iff _).1 (cay_det S h)) _ _).1 hI
  obtain ⟨e1, e2, e3, e4⟩ := cay_entries S
  rw [e1, e2] at m1
  rw [e3, e4] at m2
  rw [mem_disc_iff]
  have hμ' : 0 < Complex.normSq μ := Complex.normSq_pos.2 hμ
  have hs : side unitCircle Q = Complex.normSq (num Q) - Complex.normSq (den Q) := by
    have : cpx (⟨0, 0⟩ : Pt) = 0 := rfl
    simp [side, unitCircle, this]
  have k : Complex.normSq μ * side unitCircle Q = -4 * P.y := by
    rw [hs, mul_sub, ← Complex.normSq_mul, ← Complex.normSq_mul, ← m1, ← m2]
    rw [Matrix.det_fin_two] at h
    simp [cpx, Complex.normSq_apply]
    linear_combination (-4 * P.y) * h
  by_contra hn
  rw [not_lt] at hn
  nlinarith [mul_nonneg hμ'.le hn]

theorem disc_upper {c : Circle} (hc : c.Valid) (hy : c.radius < c.center.y) {P : Pt} (hP : sqDist P c.center ≤ c.radius ^ 2) : 0 < P.y := by
  have hr : 0 < c.radius := hc
  unfold sqDist at hP
  have : |P.y - c.center.y| ≤ c.radius := abs_le_of_sq_le_sq (by nlinarith [sq_nonneg (P.x - c.center.x)]) hr.le
  rw [abs_le] at this
  linarith [this.1]

/-- The image of a disc of the upper half-plane. -/
theorem cay_disc (S : Matrix (Fin 2) (Fin 2) ℝ) (h : Matrix.det S = 1) (c : Circle) (hc : c.Valid) (hy : c.radius < c.center.y) :
    ∃ c', (⟨cay S⟩ : Mobius).transform_circle c = .ok (.circle c') ∧ IsDiscImage (cay S) c c' := by
  have hd := cay_det S h
  obtain ⟨c', e, v, hi⟩ := disc_image ⟨cay S⟩ hd c hc (cay_pole S h c hc hy)
  refine ⟨c', e, v, ?_⟩
  intro P Q hPQ
  have := hi P Q ((C49_transform ⟨cay S⟩ hd P Q).2 hPQ)
  exact ⟨this.1, this.2.1⟩

/-- An image is inside the unit circle. -/
theorem image_in_unit (S : Matrix (Fin 2) (Fin 2) ℝ) (h : Matrix.det S = 1) {c c' : Circle} (hc : c.Valid) (hy : c.radius < c.center.y)
    (hi : IsDiscImage (cay S) c c') : ∀ X, X ∈ (disc c').inside ∨ X ∈ (disc c').edge → X ∈ (disc unitCircle).inside := by
  intro X hX
  have hd := cay_det S h
  obtain ⟨p, hp⟩ := C49_bijection ⟨cay S⟩ hd
  obtain ⟨P, rfl⟩ := p.surjective X
  have hIm := (C49_transform ⟨cay S⟩ hd P _).1 (hp P)
  obtain ⟨k1, k2⟩ := hi.2 P _ hIm
  rw [← k1, ← k2] at hX
  cases P with
  | inf => rcases hX with ⟨P, h, -⟩ | ⟨P, h, -⟩ <;> simp at h
  | fin P =>
    refine cay_side S h P _ hIm (disc_upper hc hy ?_)
    rcases hX with ⟨P', h, h'⟩ | ⟨P', h, h'⟩ <;> rw [XPt.fin.injEq] at h <;> subst h
    · exact h'.le
    · exact h'.le

/-- The image is unique. -/
theorem image_unique {A : Matrix (Fin 2) (Fin 2) ℂ} (hA : Matrix.det A ≠ 0) {c c1 c2 : Circle} (h1 : IsDiscImage A c c1) (h2 : IsDiscImage A c c2) :
    c1 = c2 := by
  refine disc_injective h1.1 h2.1 ?_
  obtain ⟨p, hp⟩ := C49_bijection ⟨A⟩ hA
  ext X
  · obtain ⟨P, rfl⟩ := p.surjective X
    have hIm := (C49_transform ⟨A⟩ hA P _).1 (hp P)
    rw [← (h1.2 P _ hIm).1, (h2.2 P _ hIm).1]
  · obtain ⟨P, rfl⟩ := p.surjective X
    have hIm := (C49_transform ⟨A⟩ hA P _).1 (hp P)
    rw [← (h1.2 P _ hIm).2, (h2.2 P _ hIm).2]

/-- Proportional matrices have the same images. -/
theorem image_neg {A : Matrix (Fin 2) (Fin 2) ℂ} {c c' : Circle} (h : IsDiscImage (-A) c c') : IsDiscImage A c c' := by
  refine ⟨h.1, fun P Q hPQ => h.2 P Q ?_⟩
  unfold IsMobImage at hPQ ⊢
  simp only [Matrix.neg_apply]
  linear_combination -hPQ

end Modular
