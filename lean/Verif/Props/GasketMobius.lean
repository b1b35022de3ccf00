import Verif.Model.GasketMobius
import Verif.Lemmas.MobiusDisc
import Verif.Props.Apollonian

/-!
# C100: the frames of `ApollonianGasketMobius.py`
-/

open Spec Real Classical Gasket

/-- The unit circle. -/
def Spec.unitCircle : Circle := ⟨⟨0, 0⟩, 1⟩

/-- The matrix of `mobius(gamma, t)` with `h = sqrt(1 - |gamma|²)`. -/
noncomputable def frameMatrix (gamma : ℂ) (h t : ℝ) : Matrix (Fin 2) (Fin 2) ℂ :=
  !![((h ^ t * cos (t * π / 2) : ℝ) : ℂ) + Complex.I * ((h ^ t * sin (t * π / 2) / h : ℝ) : ℂ), ((h ^ t * sin (t * π / 2) / h : ℝ) : ℂ) * gamma;
    ((h ^ t * sin (t * π / 2) / h : ℝ) : ℂ) * (starRingEnd ℂ) gamma,
    ((h ^ t * cos (t * π / 2) : ℝ) : ℂ) - Complex.I * ((h ^ t * sin (t * π / 2) / h : ℝ) : ℂ)]

theorem frame_h {gamma : ℂ} (hg : ‖gamma‖ < 1) : 0 < √(1 - ‖gamma‖ ^ 2) ∧ √(1 - ‖gamma‖ ^ 2) ^ 2 = 1 - Complex.normSq gamma := by
  have : 0 < 1 - ‖gamma‖ ^ 2 := by nlinarith [norm_nonneg gamma]
  exact ⟨Real.sqrt_pos.2 this, by rw [Real.sq_sqrt this.le, Complex.normSq_eq_norm_sq]⟩

theorem mobius_explicit {gamma : ℂ} (hg : ‖gamma‖ < 1) (t : ℝ) : mobius gamma t = .ok ⟨frameMatrix gamma (√(1 - ‖gamma‖ ^ 2)) t⟩ := by
  obtain ⟨hh, -⟩ := frame_h hg
  have h1 : ¬ 1 - ‖gamma‖ * ‖gamma‖ < 0 := by nlinarith [norm_nonneg gamma]
  unfold mobius pySqrt
  dsimp only
  rw [if_neg h1, Res.ok_bind, ← pow_two]
  obtain ⟨h, he⟩ : ∃ h, h = √(1 - ‖gamma‖ ^ 2) := ⟨_, rfl⟩
  rw [← he] at hh ⊢
  unfold pyPow pyDivC
  rw [if_neg (by rintro ⟨e, -⟩; exact hh.ne' e), Res.ok_bind, if_neg hh.ne', Res.ok_bind, if_neg hh.ne', Res.ok_bind]
  unfold frameMatrix
  generalize h ^ t = p
  generalize cos (t * π / 2) = C
  generalize sin (t * π / 2) = S
  refine congrArg Except.ok ?_
  refine congrArg Mobius.mk ?_
  have hr : ((p : ℂ) * ((C : ℂ) + Complex.I * (S : ℂ))).re = p * C := by simp
  have hi : ((p : ℂ) * ((C : ℂ) + Complex.I * (S : ℂ))).im = p * S := by simp
  rw [Complex.conj_re, Complex.conj_im, hr, hi]
  have hc : (h : ℂ) ≠ 0 := by exact_mod_cast hh.ne'
  ext i j
  fin_cases i <;> fin_cases j <;> simp <;> ring

theorem frame_mul {gamma : ℂ} {h : ℝ} (hh : 0 < h) (h2 : h ^ 2 = 1 - Complex.normSq gamma) (s t : ℝ) :
    frameMatrix gamma h s * frameMatrix gamma h t = frameMatrix gamma h (s + t) := by
  unfold frameMatrix
  rw [Real.rpow_add hh, show (s + t) * π / 2 = s * π / 2 + t * π / 2 by ring, Real.cos_add, Real.sin_add]
  generalize h ^ s = p
  generalize h ^ t = q
  generalize cos (s * π / 2) = C
  generalize sin (s * π / 2) = S
  generalize cos (t * π / 2) = C'
  generalize sin (t * π / 2) = S'
  have hc : (h : ℂ) ≠ 0 := by exact_mod_cast hh.ne'
  have hI : Complex.I ^ 2 = -1 := Complex.I_sq
  have hg : gamma * (starRingEnd ℂ) gamma = 1 - (h : ℂ) ^ 2 := by
    rw [Complex.mul_conj]
    have : Complex.normSq gamma = 1 - h ^ 2 := by linarith
    rw [this]; push_cast; ring
  obtain ⟨u, hu⟩ : ∃ u : ℂ, u = (h : ℂ)⁻¹ := ⟨_, rfl⟩
  have huh : u * h = 1 := by rw [hu]; field_simp
  ext i j
  fin_cases i <;> fin_cases j <;> simp [Matrix.mul_apply, Fin.sum_univ_two, div_eq_mul_inv, ← hu]
  · linear_combination (p * S * q * S' * u ^ 2) * hI + (p * S * q * S' * u ^ 2) * hg - p * S * q * S' * (u * h + 1) * huh
  · ring
  · ring
  · linear_combination (p * S * q * S' * u ^ 2) * hI + (p * S * q * S' * u ^ 2) * hg - p * S * q * S' * (u * h + 1) * huh

theorem frame_det {gamma : ℂ} {h : ℝ} (hh : 0 < h) (h2 : h ^ 2 = 1 - Complex.normSq gamma) (t : ℝ) :
    Matrix.det (frameMatrix gamma h t) = ((h ^ t) ^ 2 : ℝ) := by
  unfold frameMatrix
  rw [Matrix.det_fin_two]
  have hcs := sin_sq_add_cos_sq (t * π / 2)
  generalize h ^ t = p
  generalize cos (t * π / 2) = C at *
  generalize sin (t * π / 2) = S at *
  have hc : (h : ℂ) ≠ 0 := by exact_mod_cast hh.ne'
  have hI : Complex.I ^ 2 = -1 := Complex.I_sq
  have hg : gamma * (starRingEnd ℂ) gamma = 1 - (h : ℂ) ^ 2 := by
    rw [Complex.mul_conj]
    have : Complex.normSq gamma = 1 - h ^ 2 := by linarith
    rw [this]; push_cast; ring
  have hcs' : (S : ℂ) ^ 2 + (C : ℂ) ^ 2 = 1 := by exact_mod_cast hcs
  obtain ⟨u, hu⟩ : ∃ u : ℂ, u = (h : ℂ)⁻¹ := ⟨_, rfl⟩
  have huh : u * h = 1 := by rw [hu]; field_simp
  simp [div_eq_mul_inv, ← hu]
  linear_combination (p : ℂ) ^ 2 * hcs' - (p * S * u) ^ 2 * hI - (p * S * u) ^ 2 * hg + (p : ℂ) ^ 2 * S ^ 2 * (u * h + 1) * huh

theorem frame_det_ne {gamma : ℂ} {h : ℝ} (hh : 0 < h) (h2 : h ^ 2 = 1 - Complex.normSq gamma) (t : ℝ) :
    Matrix.det (frameMatrix gamma h t) ≠ 0 := by
  rw [frame_det hh h2]
  have : (0:ℝ) < (h ^ t) ^ 2 := by have := Real.rpow_pos_of_pos hh t; positivity
  exact_mod_cast this.ne'

theorem frame_conj (gamma : ℂ) (h t : ℝ) : frameMatrix gamma h t 1 0 = (starRingEnd ℂ) (frameMatrix gamma h t 0 1) ∧
    frameMatrix gamma h t 1 1 = (starRingEnd ℂ) (frameMatrix gamma h t 0 0) := by
  unfold frameMatrix
  generalize h ^ t * cos (t * π / 2) = A
  generalize h ^ t * sin (t * π / 2) / h = B
  constructor
  · simp
  · simp
    ring

theorem frame_norms {gamma : ℂ} {h : ℝ} (hh : 0 < h) (h2 : h ^ 2 = 1 - Complex.normSq gamma) (t : ℝ) :
    Complex.normSq (frameMatrix gamma h t 0 0) - Complex.normSq (frameMatrix gamma h t 0 1) = (h ^ t) ^ 2 := by
  have e := frame_det hh h2 t
  obtain ⟨e1, e2⟩ := frame_conj gamma h t
  rw [Matrix.det_fin_two, e1, e2, Complex.mul_conj, Complex.mul_conj] at e
  exact_mod_cast e

/-- A matrix `(a, b; b̄, ā)` with `|a| > |b|` keeps the unit disc. -/
theorem side_unit {f : Mobius} (h : Matrix.det f.M ≠ 0) (hc : f.c = (starRingEnd ℂ) f.b) (hd : f.d = (starRingEnd ℂ) f.a)
    (hab : 0 < Complex.normSq f.a - Complex.normSq f.b) {P Q : XPt} (e : f.transform P = .ok Q) :
    ∃ k : ℝ, 0 < k ∧ side unitCircle Q = k * side unitCircle P := by
  have h0 : f.a * f.d - f.b * f.c ≠ 0 := (det_ne_iff _).1 h
  rw [C49_transform _ h] at e
  have e' : IsMobImage f.a f.b f.c f.d P Q := e
  obtain ⟨μ, hμ, m1, m2⟩ := (mobImage_iff h0 P Q).1 e'
  have hμ' : 0 < Complex.normSq μ := Complex.normSq_pos.2 hμ
  refine ⟨(Complex.normSq f.a - Complex.normSq f.b) / Complex.normSq μ, by positivity, ?_⟩
  have hs : ∀ X, side unitCircle X = Complex.normSq (num X) - Complex.normSq (den X) := by
    intro X
    have : cpx (⟨0, 0⟩ : Pt) = 0 := rfl
    simp [side, unitCircle, this]
  rw [hs, hs, div_mul_eq_mul_div, eq_div_iff hμ'.ne']
  have k1 : (Complex.normSq (num Q) - Complex.normSq (den Q)) * Complex.normSq μ =
      Complex.normSq (f.a * num P + f.b * den P) - Complex.normSq (f.c * num P + f.d * den P) := by
    rw [m1, m2, Complex.normSq_mul, Complex.normSq_mul]; ring
  rw [k1, hc, hd]
  generalize num P = n
  generalize den P = d
  simp only [Complex.normSq_apply, Complex.add_re, Complex.add_im, Complex.mul_re, Complex.mul_im, Complex.conj_re, Complex.conj_im]
  ring

theorem unit_of_side {P Q : XPt} {k : ℝ} (hk : 0 < k) (h : side unitCircle Q = k * side unitCircle P) :
    (P ∈ (disc unitCircle).inside ↔ Q ∈ (disc unitCircle).inside) ∧ (P ∈ (disc unitCircle).edge ↔ Q ∈ (disc unitCircle).edge) ∧
    (P ∈ (outside unitCircle).inside ↔ Q ∈ (outside unitCircle).inside) := by
  simp only [mem_disc_iff, mem_edge_iff, mem_outside_iff]
  rw [h]
  refine ⟨?_, ?_, ?_⟩
  · rw [← neg_pos, ← neg_pos (a := k * _), ← mul_neg, mul_pos_iff_of_pos_left hk]
  · simp [hk.ne']
  · rw [mul_pos_iff_of_pos_left hk]

/-- C100: for `|gamma| < 1` and every `t`, `mobius(gamma, t)` returns an invertible transformation, of determinant `(1 - |gamma|²)^t`, which keeps
the unit disc, the unit circle and the outside. -/
theorem C100_mobius (gamma : ℂ) (hg : ‖gamma‖ < 1) (t : ℝ) : ∃ f, mobius gamma t = .ok f ∧ Matrix.det f.M = (((1 - ‖gamma‖ ^ 2) ^ t : ℝ) : ℂ) ∧
    Matrix.det f.M ≠ 0 ∧ ∀ P Q, f.transform P = .ok Q →
      (P ∈ (disc unitCircle).inside ↔ Q ∈ (disc unitCircle).inside) ∧ (P ∈ (disc unitCircle).edge ↔ Q ∈ (disc unitCircle).edge) ∧
      (P ∈ (outside unitCircle).inside ↔ Q ∈ (outside unitCircle).inside) := by
  obtain ⟨hh, h2⟩ := frame_h hg
  have h1 : 0 < 1 - ‖gamma‖ ^ 2 := by nlinarith [norm_nonneg gamma]
  refine ⟨_, mobius_explicit hg t, ?_, frame_det_ne hh h2 t, ?_⟩
  · rw [frame_det hh h2, ← Real.rpow_natCast, ← Real.rpow_mul hh.le, mul_comm t, Real.rpow_mul hh.le, Real.rpow_natCast, Real.sq_sqrt h1.le]
  · intro P Q e
    obtain ⟨e1, e2⟩ := frame_conj gamma (√(1 - ‖gamma‖ ^ 2)) t
    have hp := Real.rpow_pos_of_pos hh t
    obtain ⟨k, hk, hs⟩ := side_unit (f := ⟨frameMatrix gamma (√(1 - ‖gamma‖ ^ 2)) t⟩) (frame_det_ne hh h2 t) e1 e2 (by
      have := frame_norms hh h2 t
      show 0 < Complex.normSq (frameMatrix gamma _ t 0 0) - Complex.normSq (frameMatrix gamma _ t 0 1)
      rw [this]; positivity) e
    exact unit_of_side hk hs

/-- C100: outside the unit disc `mobius` raises `ValueError` (square root of a negative number), on the unit circle `ZeroDivisionError`. -/
theorem C100_mobius_error (gamma : ℂ) (t : ℝ) : (1 < ‖gamma‖ → mobius gamma t = .error (.valueError "math domain error")) ∧
    (‖gamma‖ = 1 → mobius gamma t = .error .zeroDivision) := by
  constructor
  · intro h
    unfold mobius pySqrt
    dsimp only
    rw [if_pos (by nlinarith)]
    rfl
  · intro h
    unfold mobius pySqrt
    dsimp only
    rw [h, if_neg (by norm_num), show √((1:ℝ) - 1 * 1) = 0 by norm_num, Res.ok_bind]
    unfold pyPow pyDivC
    by_cases ht : t < 0
    · rw [if_pos ⟨rfl, ht⟩]; rfl
    · rw [if_neg (by rintro ⟨-, h⟩; exact ht h), Res.ok_bind, if_pos rfl]; rfl

/-- C100: the transformations are the powers of one transformation.  The frame `s` after the frame `t` is the frame `s + t`; the frames `0` and `2`
are the identity; the frame `1` is `z ↦ (i z + gamma) / (gamma̅ z - i)`. -/
theorem C100_group (gamma : ℂ) (hg : ‖gamma‖ < 1) (f : ℝ → Mobius) (hf : ∀ t, mobius gamma t = .ok (f t)) (P : XPt) :
    (∀ s t, ((f t).transform P >>= (f s).transform) = (f (s + t)).transform P) ∧ (f 0).transform P = .ok P ∧ (f 2).transform P = .ok P ∧
    ∀ Q, (f 1).transform P = .ok Q ↔ IsMobImage Complex.I gamma ((starRingEnd ℂ) gamma) (-Complex.I) P Q := by
  obtain ⟨hh, h2⟩ := frame_h hg
  obtain ⟨h, he⟩ : ∃ h, h = √(1 - ‖gamma‖ ^ 2) := ⟨_, rfl⟩
  have hft : ∀ t, f t = ⟨frameMatrix gamma h t⟩ := by
    intro t
    have := (hf t).symm.trans (mobius_explicit hg t)
    rw [he]
    exact Except.ok.inj this
  rw [← he] at hh h2
  have hdet : ∀ t, Matrix.det (f t).M ≠ 0 := by intro t; rw [hft]; exact frame_det_ne hh h2 t
  have hscal : ∀ (g : Mobius) (k : ℂ), k ≠ 0 → g.M = !![k, 0; 0, k] → g.transform P = .ok P := by
    intro g k hk hgM
    rw [C49_transform g (by rw [hgM, Matrix.det_fin_two]; simpa using hk), hgM]
    simp [IsMobImage]
    ring
  refine ⟨?_, ?_, ?_, ?_⟩
  · intro s t
    rw [← (C49_compose (f t) (f s) (hdet t) (hdet s) P).1]
    have : (f t).compose (f s) = f (s + t) := by
      rw [hft, hft, hft]
      unfold Mobius.compose
      dsimp only
      rw [if_pos rfl, frame_mul hh h2]
    rw [this]
  · refine hscal _ 1 one_ne_zero ?_
    rw [hft]
    unfold frameMatrix
    ext i j
    fin_cases i <;> fin_cases j <;> simp
  · refine hscal _ (-((h ^ (2:ℝ) : ℝ) : ℂ)) ?_ ?_
    · have := Real.rpow_pos_of_pos hh 2
      rw [neg_ne_zero]
      exact_mod_cast this.ne'
    · rw [hft]
      unfold frameMatrix
      rw [show (2:ℝ) * π / 2 = π by ring, cos_pi, sin_pi]
      ext i j
      fin_cases i <;> fin_cases j <;> simp
  · intro Q
    rw [C49_transform _ (hdet 1), hft]
    unfold frameMatrix
    have hc : (h : ℂ) ≠ 0 := by exact_mod_cast hh.ne'
    rw [show (1:ℝ) * π / 2 = π / 2 by ring, cos_pi_div_two, sin_pi_div_two, Real.rpow_one]
    have : h * 1 / h = 1 := by field_simp
    rw [this]
    simp

/-- C100: the frame with parameter `t` fixes, for every `t`, a point of the unit disc: the motion turns around this point. -/
theorem C100_fixed (gamma : ℂ) (hg : ‖gamma‖ < 1) : ∃ P : Pt, .fin P ∈ (disc unitCircle).inside ∧
    ∀ t f, mobius gamma t = .ok f → f.transform (.fin P) = .ok (.fin P) := by
  obtain ⟨hh, h2⟩ := frame_h hg
  obtain ⟨h, he⟩ : ∃ h, h = √(1 - ‖gamma‖ ^ 2) := ⟨_, rfl⟩
  have hme := mobius_explicit hg
  rw [← he] at hh h2 hme
  have h1 : 0 < 1 + h := by linarith
  have hgc : gamma * (starRingEnd ℂ) gamma = 1 - (h : ℂ) ^ 2 := by
    rw [Complex.mul_conj]
    have : Complex.normSq gamma = 1 - h ^ 2 := by linarith
    rw [this]; push_cast; ring
  have h1c : ((1 + h : ℝ) : ℂ) ≠ 0 := by exact_mod_cast h1.ne'
  refine ⟨from_complex_ (Complex.I * gamma / ((1 + h : ℝ) : ℂ)), ?_, ?_⟩
  · rw [mem_disc_iff]
    have : cpx (⟨0, 0⟩ : Pt) = 0 := rfl
    simp only [side, unitCircle, this, num_fin, den_fin, cpx_from, zero_mul, sub_zero, map_one, Complex.normSq_div, Complex.normSq_mul,
      Complex.normSq_I, Complex.normSq_ofReal]
    rw [sub_neg, div_lt_iff₀ (by positivity)]
    nlinarith
  · intro t f hf
    rw [hme t, Except.ok.injEq] at hf
    rw [← hf, C49_transform ⟨frameMatrix gamma h t⟩ (frame_det_ne hh h2 t)]
    simp only [IsMobImage, num_fin, den_fin, cpx_from, mul_one, frameMatrix]
    generalize h ^ t * cos (t * π / 2) = A
    generalize h ^ t * sin (t * π / 2) / h = B
    simp only [Matrix.of_apply, Matrix.cons_val', Matrix.cons_val_zero, Matrix.cons_val_one, Matrix.cons_val_fin_one]
    obtain ⟨w, hw⟩ : ∃ w : ℂ, w = Complex.I * gamma / ((1 + h : ℝ) : ℂ) := ⟨_, rfl⟩
    have hw' : w * (1 + h) = Complex.I * gamma := by rw [hw]; field_simp; push_cast; ring
    rw [← hw]
    have h1c' : (1 + (h:ℂ)) ≠ 0 := by exact_mod_cast h1c
    have hI : Complex.I ^ 2 = -1 := Complex.I_sq
    apply mul_left_cancel₀ (pow_ne_zero 2 h1c')
    linear_combination B * (2 * Complex.I * (1 + h) * hw' - (starRingEnd ℂ) gamma * (w * (1 + h) + Complex.I * gamma) * hw' +
      (2 * (1 + h) * gamma - (starRingEnd ℂ) gamma * gamma ^ 2) * hI + gamma * hgc)

/-- The circle is inside the unit circle (it may touch it). -/
def Spec.InUnit (c : Circle) : Prop := c.Valid ∧ (outside unitCircle).Apart (disc c)

theorem inUnit_iff {c : Circle} (hc : c.Valid) : (outside unitCircle).Apart (disc c) → ‖cpx c.center‖ + c.radius ≤ 1 := by
  intro h
  by_contra hn
  push Not at hn
  have hr : 0 < c.radius := hc
  have n0 := norm_nonneg (cpx c.center)
  have key : ∀ s : ℝ, 0 ≤ s → s < c.radius → 1 < ‖cpx c.center‖ + s → False := by
    intro s hs0 hs h1
    obtain ⟨u, hu, hadd⟩ : ∃ u : ℂ, ‖u‖ = 1 ∧ ‖cpx c.center + s * u‖ = ‖cpx c.center‖ + s := by
      by_cases hz : cpx c.center = 0
      · refine ⟨1, norm_one, ?_⟩
        rw [hz, zero_add, norm_zero, zero_add, mul_one, Complex.norm_real, Real.norm_of_nonneg hs0]
      · have hn0 : (‖cpx c.center‖ : ℂ) ≠ 0 := by exact_mod_cast (norm_pos_iff.2 hz).ne'
        refine ⟨cpx c.center / ‖cpx c.center‖, ?_, ?_⟩
        · rw [norm_div, Complex.norm_real, norm_norm, div_self (norm_pos_iff.2 hz).ne']
        · have : cpx c.center + s * (cpx c.center / ‖cpx c.center‖) = cpx c.center * (((‖cpx c.center‖ + s) / ‖cpx c.center‖ : ℝ) : ℂ) := by
            push_cast; field_simp
          rw [this, norm_mul, Complex.norm_real, Real.norm_of_nonneg (by positivity)]
          have := (norm_pos_iff.2 hz).ne'
          field_simp
    have h2 : XPt.fin (from_complex_ (cpx c.center + s * u)) ∈ (disc c).inside := by
      rw [mem_disc_iff]
      simp only [side, num_fin, den_fin, cpx_from, mul_one, map_one]
      rw [add_sub_cancel_left, Complex.normSq_mul, Complex.normSq_ofReal, Complex.normSq_eq_norm_sq u, hu]
      nlinarith
    have h3 : XPt.fin (from_complex_ (cpx c.center + s * u)) ∈ (outside unitCircle).inside := by
      rw [mem_outside_iff]
      have : cpx (⟨0, 0⟩ : Pt) = 0 := rfl
      simp only [side, unitCircle, this, num_fin, den_fin, cpx_from, mul_one, map_one, sub_zero]
      rw [Complex.normSq_eq_norm_sq, hadd]
      nlinarith
    exact Set.disjoint_left.1 h h3 h2
  by_cases h1 : ‖cpx c.center‖ ≤ 1
  · exact key ((1 - ‖cpx c.center‖ + c.radius) / 2) (by linarith) (by linarith) (by linarith)
  · exact key 0 le_rfl hr (by linarith)

theorem apart_of_iff {e : XPt → XPt} (he : Function.Bijective e) {A A' B B' : Region} (hA : ∀ P, P ∈ A.inside ↔ e P ∈ A'.inside)
    (hB : ∀ P, P ∈ B.inside ↔ e P ∈ B'.inside) : A.Apart B ↔ A'.Apart B' := by
  unfold Region.Apart
  rw [Set.disjoint_left, Set.disjoint_left]
  constructor
  · intro h Q
    obtain ⟨P, rfl⟩ := he.2 Q
    rw [← hA, ← hB]
    exact @h P
  · intro h P
    rw [hA, hB]
    exact @h (e P)

theorem touches_of_iff {e : XPt → XPt} (he : Function.Bijective e) {A A' B B' : Region} (hA : ∀ P, P ∈ A.edge ↔ e P ∈ A'.edge)
    (hB : ∀ P, P ∈ B.edge ↔ e P ∈ B'.edge) : A.Touches B ↔ A'.Touches B' := by
  unfold Region.Touches
  constructor
  · rintro ⟨X, ⟨h1, h2⟩, h3⟩
    refine ⟨e X, ⟨(hA _).1 h1, (hB _).1 h2⟩, ?_⟩
    intro Y hY
    obtain ⟨Z, rfl⟩ := he.2 Y
    rw [h3 Z ⟨(hA _).2 hY.1, (hB _).2 hY.2⟩]
  · rintro ⟨Y, ⟨h1, h2⟩, h3⟩
    obtain ⟨X, rfl⟩ := he.2 Y
    refine ⟨X, ⟨(hA _).2 h1, (hB _).2 h2⟩, ?_⟩
    rintro Z ⟨z1, z2⟩
    exact he.1 (h3 _ ⟨(hA _).1 z1, (hB _).1 z2⟩)

theorem frame_circle (gamma : ℂ) (hg : ‖gamma‖ < 1) (t : ℝ) (c : Circle) (hc : InUnit c) :
    ∃ f c', mobius gamma t = .ok f ∧ frameCircle f (.circle c) = .ok c' ∧ InUnit c' ∧ ∀ P Q, f.transform P = .ok Q →
      (P ∈ (disc c).inside ↔ Q ∈ (disc c').inside) ∧ (P ∈ (disc c).edge ↔ Q ∈ (disc c').edge) := by
  obtain ⟨f, ef, -, hdet, hu⟩ := C100_mobius gamma hg t
  obtain ⟨hh, h2⟩ := frame_h hg
  have hfe : f = ⟨frameMatrix gamma (√(1 - ‖gamma‖ ^ 2)) t⟩ := Except.ok.inj (ef.symm.trans (mobius_explicit hg t))
  have hin := inUnit_iff hc.1 hc.2
  have hr : 0 < c.radius := hc.1
  have hD : 0 < Complex.normSq (f.c * cpx c.center + f.d) - c.radius ^ 2 * Complex.normSq f.c := by
    have hcd : ‖f.c‖ < ‖f.d‖ := by
      have h1 := frame_norms hh h2 t
      obtain ⟨e1, e2⟩ := frame_conj gamma (√(1 - ‖gamma‖ ^ 2)) t
      have hp := Real.rpow_pos_of_pos hh t
      have e1' : f.c = (starRingEnd ℂ) (frameMatrix gamma (√(1 - ‖gamma‖ ^ 2)) t 0 1) := by rw [hfe]; exact e1
      have e2' : f.d = (starRingEnd ℂ) (frameMatrix gamma (√(1 - ‖gamma‖ ^ 2)) t 0 0) := by rw [hfe]; exact e2
      rw [e1', e2', Complex.norm_conj, Complex.norm_conj]
      rw [Complex.normSq_eq_norm_sq, Complex.normSq_eq_norm_sq] at h1
      refine lt_of_pow_lt_pow_left₀ 2 (norm_nonneg _) ?_
      nlinarith [pow_pos hp 2]
    have h3 : ‖f.d‖ ≤ ‖f.c * cpx c.center + f.d‖ + ‖f.c‖ * ‖cpx c.center‖ := by
      calc ‖f.d‖ = ‖(f.c * cpx c.center + f.d) - f.c * cpx c.center‖ := by congr 1; ring
        _ ≤ _ := by rw [← norm_mul]; exact norm_sub_le _ _
    have h4 : c.radius * ‖f.c‖ < ‖f.c * cpx c.center + f.d‖ := by
      have := mul_le_mul_of_nonneg_left hin (norm_nonneg f.c)
      linarith
    rw [Complex.normSq_eq_norm_sq, Complex.normSq_eq_norm_sq, ← mul_pow, sub_pos]
    exact pow_lt_pow_left₀ h4 (by positivity) two_ne_zero
  obtain ⟨c', e, v, hi⟩ := disc_image f hdet c hc.1 hD
  refine ⟨f, c', ef, ?_, ⟨v, ?_⟩, fun P Q h => ⟨(hi P Q h).1, (hi P Q h).2.1⟩⟩
  · unfold frameCircle
    dsimp only
    rw [e]
    rfl
  · obtain ⟨p, hp⟩ := C49_bijection f hdet
    exact (apart_of_iff p.bijective (fun P => (hu P _ (hp P)).2.2) (fun P => (hi P _ (hp P)).1)).1 hc.2

/-- C100: a frame.  For `|gamma| < 1` and every `t` there is a map `k` of circles such that for every list of circles inside the unit circle the
frame draws, without error, the list of their images by `k`; these images are inside the unit circle; each is the image by the Möbius transformation;
two circles overlap iff their images do, and touch at one point iff their images do; a circle touches the unit circle iff its image does. -/
theorem C100_frame (gamma : ℂ) (hg : ‖gamma‖ < 1) (t : ℝ) : ∃ k : Circle → Circle,
    (∀ cs : List Circle, (∀ c ∈ cs, InUnit c) → frame gamma t (cs.map .circle) = .ok (cs.map k)) ∧
    (∀ c, InUnit c → InUnit (k c)) ∧
    (∀ c f P Q, InUnit c → mobius gamma t = .ok f → f.transform P = .ok Q →
      (P ∈ (disc c).inside ↔ Q ∈ (disc (k c)).inside) ∧ (P ∈ (disc c).edge ↔ Q ∈ (disc (k c)).edge)) ∧
    (∀ c d, InUnit c → InUnit d → ((disc c).Apart (disc d) ↔ (disc (k c)).Apart (disc (k d))) ∧
      ((disc c).Touches (disc d) ↔ (disc (k c)).Touches (disc (k d)))) ∧
    ∀ c, InUnit c → ((outside unitCircle).Touches (disc c) ↔ (outside unitCircle).Touches (disc (k c))) := by
  obtain ⟨f, ef, -, hdet, hu⟩ := C100_mobius gamma hg t
  obtain ⟨p, hp⟩ := C49_bijection f hdet
  have ex : ∀ c, ∃ c', InUnit c → frameCircle f (.circle c) = .ok c' ∧ InUnit c' ∧ ∀ P Q, f.transform P = .ok Q →
      (P ∈ (disc c).inside ↔ Q ∈ (disc c').inside) ∧ (P ∈ (disc c).edge ↔ Q ∈ (disc c').edge) := by
    intro c
    by_cases h : InUnit c
    · obtain ⟨g, c', eg, h1, h2, h3⟩ := frame_circle gamma hg t c h
      obtain rfl : f = g := Except.ok.inj (ef.symm.trans eg)
      exact ⟨c', fun _ => ⟨h1, h2, h3⟩⟩
    · exact ⟨c, fun h' => absurd h' h⟩
  choose k hk using ex
  refine ⟨k, ?_, fun c h => (hk c h).2.1, ?_, ?_, ?_⟩
  · intro cs hcs
    unfold frame
    rw [ef, Res.ok_bind, List.mapM_map]
    exact mapM_ok _ _ _ fun c hc => (hk c (hcs c hc)).1
  · intro c g P Q hc eg e
    obtain rfl : f = g := Except.ok.inj (ef.symm.trans eg)
    exact (hk c hc).2.2 P Q e
  · intro c d hc hd
    exact ⟨apart_of_iff p.bijective (fun P => ((hk c hc).2.2 P _ (hp P)).1) (fun P => ((hk d hd).2.2 P _ (hp P)).1),
      touches_of_iff p.bijective (fun P => ((hk c hc).2.2 P _ (hp P)).2) (fun P => ((hk d hd).2.2 P _ (hp P)).2)⟩
  · intro c hc
    refine touches_of_iff p.bijective (fun P => ?_) (fun P => ((hk c hc).2.2 P _ (hp P)).2)
    exact (hu P _ (hp P)).2.1

/-- C100: a frame needs circles: if the gasket contains a line, the frame raises, with `ValueError` when the line comes first. -/
theorem C100_line (gamma : ℂ) (hg : ‖gamma‖ < 1) (t : ℝ) (l : Line) (gs : List GCircle) :
    (.line l ∈ gs → ∀ out, frame gamma t gs ≠ .ok out) ∧ frame gamma t (.line l :: gs) = .error (.valueError "`circ` must be a `Circle` object.") := by
  obtain ⟨f, ef, -⟩ := C100_mobius gamma hg t
  unfold frame
  rw [ef, Res.ok_bind, Res.ok_bind]
  constructor
  · intro hl out h
    clear ef
    induction gs generalizing out with
    | nil => cases hl
    | cons g gs ih =>
      rw [List.mapM_cons, Res.bind_ok] at h
      obtain ⟨c, hc, h⟩ := h
      rw [Res.bind_ok] at h
      obtain ⟨out', h', -⟩ := h
      rcases List.mem_cons.1 hl with rfl | hl
      · cases hc
      · exact ih hl out' h'
  · rw [List.mapM_cons]
    rfl

/-- C100: what a frame draws is right for every list of circles, inside the unit circle or not: if it does not raise, the circles it draws are the
images of the circles; and it raises when the image of a circle is not a circle. -/
theorem C100_images (gamma : ℂ) (hg : ‖gamma‖ < 1) (t : ℝ) (f : Mobius) (hf : mobius gamma t = .ok f) (cs : List Circle) (hcs : ∀ c ∈ cs, c.Valid)
    (out : List Circle) (h : frame gamma t (cs.map .circle) = .ok out) :
    List.Forall₂ (fun c c' => ∀ P Q, f.transform P = .ok Q → (XOnCircle c.center c.radius P ↔ XOnCircle c'.center c'.radius Q)) cs out ∧
    ∀ c ∈ cs, ∀ P, OnCircle c.center c.radius P → f.transform (.fin P) ≠ .ok .inf := by
  obtain ⟨f', ef, -, hdet, -⟩ := C100_mobius gamma hg t
  obtain rfl : f = f' := Except.ok.inj (hf.symm.trans ef)
  unfold frame at h
  rw [ef, Res.ok_bind] at h
  clear ef hf
  induction cs generalizing out with
  | nil =>
    cases h
    exact ⟨.nil, fun c hc => by cases hc⟩
  | cons c cs ih =>
    rw [List.map_cons, List.mapM_cons, Res.bind_ok] at h
    obtain ⟨c', hc', h⟩ := h
    rw [Res.bind_ok] at h
    obtain ⟨out', h', h⟩ := h
    cases h
    obtain ⟨i1, i2⟩ := ih (fun c hc => hcs c (List.mem_cons_of_mem _ hc)) out' h'
    have hno : ∀ P, OnCircle c.center c.radius P → f.transform (.fin P) ≠ .ok .inf := by
      intro P hP hi
      obtain ⟨-, -, e⟩ := transform_circle_eval f hdet c P hP hi
      unfold frameCircle at hc'
      rw [Res.bind_ok] at hc'
      obtain ⟨g, hg, hc'⟩ := hc'
      rw [e] at hg
      simp only [Res.bind_ok, Res.pure_ok] at hg
      obtain ⟨_, -, _, -, _, -, _, -, l, -, rfl⟩ := hg
      cases hc'
    obtain ⟨k, D, e, -, hk, -⟩ := transform_circle_explicit f hdet c (hcs c List.mem_cons_self) hno
    unfold frameCircle at hc'
    dsimp only at hc'
    rw [e, Res.ok_bind] at hc'
    cases hc'
    refine ⟨.cons hk i1, ?_⟩
    intro d hd
    rcases List.mem_cons.1 hd with rfl | hd
    · exact hno
    · exact i2 d hd

/-- C100: the animation is a loop: the frame `t + 2` is the frame `t`, and the frame `0` is the gasket itself. -/
theorem C100_period (gamma : ℂ) (hg : ‖gamma‖ < 1) (t : ℝ) (cs : List Circle) (hcs : ∀ c ∈ cs, InUnit c) :
    frame gamma (t + 2) (cs.map .circle) = frame gamma t (cs.map .circle) ∧ frame gamma 0 (cs.map .circle) = .ok cs := by
  choose f hf h1 hdet hu using C100_mobius gamma hg
  have hgrp := fun P => C100_group gamma hg f hf P
  have same : ∀ s t : ℝ, (∀ P, (f s).transform P = (f t).transform P) → frame gamma s (cs.map .circle) = frame gamma t (cs.map .circle) := by
    intro s t hst
    obtain ⟨k, e, hk, hi, -⟩ := C100_frame gamma hg s
    obtain ⟨k', e', hk', hi', -⟩ := C100_frame gamma hg t
    rw [e cs hcs, e' cs hcs]
    refine congrArg Except.ok (List.map_congr_left ?_)
    intro c hc
    have hc' := hcs c hc
    refine disc_injective (hk c hc').1 (hk' c hc').1 ?_
    obtain ⟨p, hp⟩ := C49_bijection (f s) (hdet s)
    ext X
    · obtain ⟨Y, rfl⟩ := p.surjective X
      rw [← (hi c _ Y _ hc' (hf s) (hp Y)).1, (hi' c _ Y _ hc' (hf t) ((hst Y).symm.trans (hp Y))).1]
    · obtain ⟨Y, rfl⟩ := p.surjective X
      rw [← (hi c _ Y _ hc' (hf s) (hp Y)).2, (hi' c _ Y _ hc' (hf t) ((hst Y).symm.trans (hp Y))).2]
  constructor
  · apply same
    intro P
    rw [← (hgrp P).1 t 2, (hgrp P).2.2.1, Res.ok_bind]
  · obtain ⟨k, e, hk, hi, -⟩ := C100_frame gamma hg 0
    rw [e cs hcs]
    refine congrArg Except.ok ?_
    conv_rhs => rw [← List.map_id cs]
    refine List.map_congr_left ?_
    intro c hc
    have hc' := hcs c hc
    refine disc_injective (hk c hc').1 hc'.1 ?_
    ext X
    · rw [← (hi c _ X _ hc' (hf 0) (hgrp X).2.1).1]; rfl
    · rw [← (hi c _ X _ hc' (hf 0) (hgrp X).2.1).2]; rfl

/-- C100, partial: every frame of the animation is a packing.  For the unit circle, any `n ≥ 3`, any shift, any `phi`
between -1 and 1, any `gamma` in the unit disc and any `t`: the frame draws `n + 1` starting circles and `n (n - 1) n^d` circles of
generation `d`, without error; they are inside the unit circle, and no two of them overlap.
Missing from the full claim: as for `C99_apollonian_partial`, powers below the tolerance of `invert_circle`. -/
theorem C100_animation_partial (n : ℕ) (hn : 3 ≤ n) (phi shift : ℝ) (hphi : |phi| < 1) (circles0 : List GCircle)
    (inversions : List Inversion) (h : start unitCircle n phi shift = .ok (circles0, inversions)) (hpow : ∀ iota ∈ inversions, 1 / 2 ^ 26 ≤ iota.power)
    (hgap : cos (π / n) ≤ |phi| * (1 + sin (π / n)) → ∀ iota ∈ inversions.take n, 1 + 1 / 2 ^ 13 ≤ Spec.dist iota.pole ⟨0, 0⟩)
    (gamma : ℂ) (hg : ‖gamma‖ < 1) (t : ℝ) :
    ∃ (F0 : List Circle) (F : ℕ → List Circle), frame gamma t circles0 = .ok F0 ∧ F0.length = n + 1 ∧ (∀ c ∈ F0, InUnit c) ∧
      F0.Pairwise (fun a b => (disc a).Apart (disc b)) ∧
      ∀ d, (apollonian unitCircle n phi shift d >>= fun g => frame gamma t (g.map Prod.fst)) = .ok (F d) ∧ (F d).length = n * (n - 1) * n ^ d ∧
        (∀ c ∈ F d, InUnit c ∧ ∀ a ∈ F0, (disc a).Apart (disc c)) ∧ (F d).Pairwise (fun a b => (disc a).Apart (disc b)) ∧
        ∀ e < d, ∀ a ∈ F d, ∀ b ∈ F e, (disc a).Apart (disc b) := by
  have hv : unitCircle.Valid := one_pos
  obtain ⟨hl, -, ⟨C0, rfl, hC0, hC0p⟩, L, hL⟩ := C99_apollonian_partial unitCircle hv n hn phi shift hphi circles0 inversions h hpow hgap
  obtain ⟨k, hk, hin, -, hpair, -⟩ := C100_frame gamma hg t
  have hLin : ∀ d, ∀ p ∈ L d, InUnit p.1 := fun d p hp => ⟨((hL d).2.2.1 p hp).1, ((hL d).2.2.1 p hp).2.1⟩
  refine ⟨C0.map k, fun d => (L d).map fun p => k p.1, hk C0 hC0, by simpa using hl, ?_, ?_, ?_⟩
  · intro c' hc'
    obtain ⟨c, hc, rfl⟩ := List.mem_map.1 hc'
    exact hin c (hC0 c hc)
  · rw [List.pairwise_map]
    refine hC0p.imp_of_mem ?_
    intro a b ha hb hab
    exact (hpair a b (hC0 a ha) (hC0 b hb)).1.1 hab
  · intro d
    obtain ⟨e1, e2, e3, e4, e5, -⟩ := hL d
    refine ⟨?_, ?_, ?_, ?_, ?_⟩
    · rw [e1, Res.ok_bind, List.map_map]
      have := hk ((L d).map Prod.fst) (by
        intro c hc
        obtain ⟨p, hp, rfl⟩ := List.mem_map.1 hc
        exact hLin d p hp)
      rw [List.map_map, List.map_map] at this
      exact this
    · simpa using e2
    · intro c hc
      obtain ⟨p, hp, rfl⟩ := List.mem_map.1 hc
      refine ⟨hin _ (hLin d p hp), ?_⟩
      intro a' ha'
      obtain ⟨a, ha, rfl⟩ := List.mem_map.1 ha'
      exact (hpair _ _ (hC0 a ha) (hLin d p hp)).1.1 ((e3 p hp).2.2 a (List.mem_map.2 ⟨a, ha, rfl⟩))
    · rw [List.pairwise_map]
      refine e4.imp_of_mem ?_
      intro a b ha hb hab
      exact (hpair _ _ (hLin d a ha) (hLin d b hb)).1.1 hab
    · intro e he a ha b hb
      obtain ⟨p, hp, rfl⟩ := List.mem_map.1 ha
      obtain ⟨q, hq, rfl⟩ := List.mem_map.1 hb
      exact (hpair _ _ (hLin d p hp) (hLin e q hq)).1.1 (e5 e he p hp q hq)

/-- The script as it stands: `gamma = 0.6 + 0.4 i`, three circles, `phi = 0.25`, at `t = 0.2` and generation `d`: `6 · 3^d` circles are drawn. -/
example (d : ℕ) : ∃ F : List Circle, (apollonian unitCircle 3 (1 / 4) 0 d >>= fun g => frame ⟨0.6, 0.4⟩ 0.2 (g.map Prod.fst)) = .ok F ∧
    F.length = 6 * 3 ^ d ∧ F.Pairwise (fun a b => (disc a).Apart (disc b)) ∧ ∀ c ∈ F, InUnit c := by
  have hc : unitCircle.Valid := one_pos
  have hs : sin (π / (3 : ℕ)) = √3 / 2 := by push_cast; exact sin_pi_div_three
  have hcos : cos (π / (3 : ℕ)) = 1 / 2 := by push_cast; exact cos_pi_div_three
  have h3 : √3 ^ 2 = 3 := Real.sq_sqrt (by norm_num)
  have h3a : √3 < 1.733 := by rw [Real.sqrt_lt' (by norm_num)]; norm_num
  have h3b : 1.732 < √3 := Real.lt_sqrt_of_sq_lt (by norm_num)
  have hphi : |(1 / 4 : ℝ)| * (1 + sin (π / (3 : ℕ))) < cos (π / (3 : ℕ)) := by
    rw [hs, hcos, abs_of_pos (by norm_num)]; linarith
  obtain ⟨circles0, inversions, h, hp⟩ := C99_start unitCircle hc 3 le_rfl (1 / 4) 0 hphi (by
    rw [hs]
    norm_num [unitCircle]
    nlinarith)
  have hg : ‖(⟨0.6, 0.4⟩ : ℂ)‖ < 1 := by
    refine lt_of_pow_lt_pow_left₀ 2 zero_le_one ?_
    rw [← Complex.normSq_eq_norm_sq, Complex.normSq_apply]
    norm_num
  obtain ⟨F0, F, -, -, -, -, hF⟩ := C100_animation_partial 3 le_rfl _ _ (phi_lt_one le_rfl hphi) _ _ h hp (fun h' => absurd hphi (not_lt.2 h')) ⟨0.6, 0.4⟩ hg 0.2
  obtain ⟨e, hlen, hv, hpw, -⟩ := hF d
  exact ⟨F d, e, hlen, hpw, fun c hc => (hv c hc).1⟩

/-- Without `gamma` inside the disc: `gamma = 1` divides by zero. -/
example : mobius 1 0.2 = .error .zeroDivision := (C100_mobius_error 1 0.2).2 (by simp)

/-- The `gamma` of the script is in the unit disc. -/
theorem Ex.gamma_lt : ‖(⟨0.6, 0.4⟩ : ℂ)‖ < 1 := by
  refine lt_of_pow_lt_pow_left₀ 2 zero_le_one ?_
  rw [← Complex.normSq_eq_norm_sq, Complex.normSq_apply]
  norm_num

/-- The circle of radius 1/2 about the center is in the unit disc. -/
theorem Ex.half_inUnit : InUnit ⟨⟨0, 0⟩, 1 / 2⟩ := by
  refine ⟨by unfold Circle.Valid; norm_num, Set.disjoint_left.2 ?_⟩
  rintro X (rfl | ⟨P, rfl, h⟩) ⟨Q, e, h'⟩
  · cases e
  · cases e
    norm_num [unitCircle, sqDist] at h h'
    linarith

/-- The transformation of the script at `t = 0.2` has an invertible matrix and keeps the center in the disc; it is the
identity at `t = 2` and has a fixed point in the disc. -/
example : (∃ f, mobius ⟨0.6, 0.4⟩ 0.2 = .ok f ∧ Matrix.det f.M ≠ 0 ∧
      ∀ Q, f.transform (.fin ⟨0, 0⟩) = .ok Q → Q ∈ (disc unitCircle).inside) ∧
    (∀ f : ℝ → Mobius, (∀ t, mobius ⟨0.6, 0.4⟩ t = .ok (f t)) → (f 2).transform (.fin ⟨0.5, 0⟩) = .ok (.fin ⟨0.5, 0⟩)) ∧
    ∃ P : Pt, .fin P ∈ (disc unitCircle).inside ∧ ∀ f, mobius ⟨0.6, 0.4⟩ 0.2 = .ok f → f.transform (.fin P) = .ok (.fin P) := by
  refine ⟨?_, fun f hf => (C100_group _ Ex.gamma_lt f hf _).2.2.1, ?_⟩
  · obtain ⟨f, h, -, hd, hm⟩ := C100_mobius ⟨0.6, 0.4⟩ Ex.gamma_lt 0.2
    exact ⟨f, h, hd, fun Q hQ => (hm _ Q hQ).1.1 ⟨_, rfl, by norm_num [unitCircle, sqDist]⟩⟩
  · obtain ⟨P, hP, hf⟩ := C100_fixed ⟨0.6, 0.4⟩ Ex.gamma_lt
    exact ⟨P, hP, fun f h => hf 0.2 f h⟩

/-- A frame with the circle of radius 1/2 about the center: its image is a circle in the unit disc, whose points are the images of its
points; a line raises. -/
example : (∃ c', frame ⟨0.6, 0.4⟩ 0.2 [.circle ⟨⟨0, 0⟩, 1 / 2⟩] = .ok [c'] ∧ InUnit c') ∧
    frame ⟨0.6, 0.4⟩ 2 [.circle ⟨⟨0, 0⟩, 1 / 2⟩] = .ok [⟨⟨0, 0⟩, 1 / 2⟩] ∧
    frame ⟨0.6, 0.4⟩ 0.2 [.line ⟨⟨0, 0⟩, ⟨1, 0⟩, true, true⟩] = .error (.valueError "`circ` must be a `Circle` object.") ∧
    ∀ f out, mobius ⟨0.6, 0.4⟩ 0.2 = .ok f → frame ⟨0.6, 0.4⟩ 0.2 [.circle ⟨⟨0, 0⟩, 1 / 2⟩] = .ok out →
      ∀ P, OnCircle ⟨0, 0⟩ (1 / 2) P → f.transform (.fin P) ≠ .ok .inf := by
  have hl : ∀ c ∈ [(⟨⟨0, 0⟩, 1 / 2⟩ : Circle)], InUnit c := by
    intro c hc
    rw [List.mem_singleton.1 hc]
    exact Ex.half_inUnit
  refine ⟨?_, ?_, (C100_line _ Ex.gamma_lt 0.2 _ []).2, fun f out hf h P hP => ?_⟩
  · obtain ⟨k, h1, h2, -⟩ := C100_frame ⟨0.6, 0.4⟩ Ex.gamma_lt 0.2
    exact ⟨_, h1 [⟨⟨0, 0⟩, 1 / 2⟩] hl, h2 _ Ex.half_inUnit⟩
  · obtain ⟨h1, h2⟩ := C100_period ⟨0.6, 0.4⟩ Ex.gamma_lt 0 [⟨⟨0, 0⟩, 1 / 2⟩] hl
    rw [zero_add] at h1
    exact h1.trans h2
  · exact (C100_images _ Ex.gamma_lt 0.2 f hf [⟨⟨0, 0⟩, 1 / 2⟩] (fun c hc => (hl c hc).1) out h).2 ⟨⟨0, 0⟩, 1 / 2⟩ (by simp) P hP
