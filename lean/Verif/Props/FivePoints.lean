import Verif.Props.Ellipse2
import Mathlib.LinearAlgebra.Matrix.Determinant.Basic
import Mathlib.LinearAlgebra.Matrix.ToLinearEquiv

/-!
# C67: the ellipse through five points
-/

open Spec Real Classical

/-- The vector of coefficients. -/
def Coeffs.vec (q : Coeffs) : Fin 6 → ℝ := ![q.A, q.B, q.C, q.D, q.E, q.F]

theorem eval_vec (q : Coeffs) (X : Pt) : q.eval X = ∑ j, Ellipse.fiveRow X j * q.vec j := by
  rw [Fin.sum_univ_six]
  unfold Coeffs.eval Ellipse.fiveRow Coeffs.vec
  simp
  ring

/-- The coefficients computed by `equation_from_five_points`. -/
def fiveCoeffs (P : Fin 5 → Pt) : Coeffs :=
  ⟨Ellipse.fiveDet P ![1, 2, 3, 4, 5], -Ellipse.fiveDet P ![0, 2, 3, 4, 5], Ellipse.fiveDet P ![0, 1, 3, 4, 5],
    -Ellipse.fiveDet P ![0, 1, 2, 4, 5], Ellipse.fiveDet P ![0, 1, 2, 3, 5], -Ellipse.fiveDet P ![0, 1, 2, 3, 4]⟩

/-- The 6x6 matrix with the additional point `X`. -/
def sixMat (X : Pt) (P : Fin 5 → Pt) : Matrix (Fin 6) (Fin 6) ℝ :=
  Matrix.of (Fin.cons (Ellipse.fiveRow X) fun i => Ellipse.fiveRow (P i))

theorem sixMat_zero (X : Pt) (P : Fin 5 → Pt) (j : Fin 6) : sixMat X P 0 j = Ellipse.fiveRow X j := rfl

theorem sixMat_succ (X : Pt) (P : Fin 5 → Pt) (i : Fin 5) (j : Fin 6) : sixMat X P i.succ j = Ellipse.fiveRow (P i) j := rfl

/-- Laplace expansion. -/
theorem fiveCoeffs_eval (P : Fin 5 → Pt) (X : Pt) : (fiveCoeffs P).eval X = Matrix.det (sixMat X P) := by
  have hsub : ∀ (k : Fin 6) (cols : Fin 5 → Fin 6), (∀ j, k.succAbove j = cols j) →
      Matrix.det ((sixMat X P).submatrix Fin.succ k.succAbove) = Ellipse.fiveDet P cols := by
    intro k cols h
    unfold Ellipse.fiveDet
    congr 1
    ext i j
    rw [Matrix.submatrix_apply, sixMat_succ, h]
    rfl
  rw [Matrix.det_succ_row_zero, Fin.sum_univ_six, hsub 0 ![1, 2, 3, 4, 5] (by decide), hsub 1 ![0, 2, 3, 4, 5] (by decide),
    hsub 2 ![0, 1, 3, 4, 5] (by decide), hsub 3 ![0, 1, 2, 4, 5] (by decide), hsub 4 ![0, 1, 2, 3, 5] (by decide),
    hsub 5 ![0, 1, 2, 3, 4] (by decide)]
  simp only [sixMat_zero]
  unfold fiveCoeffs Coeffs.eval Ellipse.fiveRow
  simp
  ring

theorem fiveCoeffs_vanish (P : Fin 5 → Pt) (i : Fin 5) : (fiveCoeffs P).eval (P i) = 0 := by
  rw [fiveCoeffs_eval]
  apply Matrix.det_zero_of_row_eq (i := 0) (j := i.succ) (Fin.succ_ne_zero i).symm
  rfl

theorem five_ok_iff (P : Fin 5 → Pt) (q : Coeffs) : Ellipse.equation_from_five_points P = .ok q ↔
    Function.Injective P ∧ q = fiveCoeffs P ∧ q.B * q.B - 4 * q.A * q.C < 0 := by
  unfold Ellipse.equation_from_five_points
  by_cases h1 : Function.Injective P
  · rw [if_neg (not_not.2 h1)]
    dsimp only
    by_cases h2 : -Ellipse.fiveDet P ![0, 2, 3, 4, 5] * -Ellipse.fiveDet P ![0, 2, 3, 4, 5] -
        4 * Ellipse.fiveDet P ![1, 2, 3, 4, 5] * Ellipse.fiveDet P ![0, 1, 3, 4, 5] ≥ 0
    · rw [if_pos h2]
      constructor
      · intro h; simp at h
      · rintro ⟨-, rfl, h⟩
        simp only [fiveCoeffs] at h
        linarith
    · rw [if_neg h2]
      constructor
      · intro h
        simp only [Except.ok.injEq] at h
        subst h
        refine ⟨h1, rfl, ?_⟩
        rw [ge_iff_le, not_le] at h2
        simpa only using h2
      · rintro ⟨-, rfl, -⟩
        rfl
  · rw [if_pos h1]
    constructor
    · intro h; simp at h
    · rintro ⟨h, -⟩; exact absurd h h1

/-- Three distinct points of an ellipse are not collinear. -/
theorem ellipse_not_collinear {e : Ellipse} (he : e.Valid) {A B X : Pt} (hA : OnE e A) (hB : OnE e B) (hX : OnE e X)
    (hAB : A ≠ B) (hAX : X ≠ A) (hBX : X ≠ B) : cross (B - A) (X - A) ≠ 0 := by
  intro h0
  rw [← (C64_equation e he _).1] at hA hB hX
  obtain ⟨pA, pC, pd⟩ := equation_pos he
  have hm : 0 < (e.rmajor * e.rminor) ^ 2 := by have := he.1; have := he.2; positivity
  obtain ⟨q, hq⟩ : ∃ q, q = e.equation := ⟨_, rfl⟩
  rw [← hq] at hA hB hX pA pC pd
  obtain ⟨s, hs⟩ : ∃ s : ℝ, X.x - A.x = s * (B.x - A.x) ∧ X.y - A.y = s * (B.y - A.y) := by
    unfold cross at h0
    simp at h0
    by_cases hx : B.x - A.x = 0
    · have hy : B.y - A.y ≠ 0 := by
        intro hy; apply hAB; ext <;> linarith
      refine ⟨(X.y - A.y) / (B.y - A.y), ?_, by field_simp⟩
      rw [hx, mul_zero]
      apply mul_left_cancel₀ hy
      rw [hx] at h0
      linarith
    · refine ⟨(X.x - A.x) / (B.x - A.x), by field_simp, ?_⟩
      field_simp
      linarith
  obtain ⟨sx, sy⟩ := hs
  obtain ⟨dx, hdx⟩ : ∃ d, d = B.x - A.x := ⟨_, rfl⟩
  obtain ⟨dy, hdy⟩ : ∃ d, d = B.y - A.y := ⟨_, rfl⟩
  have hQ : 0 < q.A * dx ^ 2 + q.B * dx * dy + q.C * dy ^ 2 := by
    have h1 : dx ≠ 0 ∨ dy ≠ 0 := by
      by_contra hcon
      push Not at hcon
      apply hAB
      ext
      · linarith [hcon.1]
      · linarith [hcon.2]
    have h2 : 4 * q.A * (q.A * dx ^ 2 + q.B * dx * dy + q.C * dy ^ 2) = (2 * q.A * dx + q.B * dy) ^ 2 +
        4 * (e.rmajor * e.rminor) ^ 2 * dy ^ 2 := by
      linear_combination dy ^ 2 * pd
    have h3 : 0 < (2 * q.A * dx + q.B * dy) ^ 2 + 4 * (e.rmajor * e.rminor) ^ 2 * dy ^ 2 := by
      by_cases h4 : dy = 0
      · have h5 : dx ≠ 0 := by tauto
        rw [h4]
        have : 0 < (2 * q.A * dx) ^ 2 := by positivity
        simpa using this
      · have : 0 < 4 * (e.rmajor * e.rminor) ^ 2 * dy ^ 2 := by positivity
        nlinarith [sq_nonneg (2 * q.A * dx + q.B * dy)]
    rw [← h2] at h3
    exact pos_of_mul_pos_right h3 (by linarith)
  have hXx : X.x = A.x + s * dx := by rw [hdx]; linarith
  have hXy : X.y = A.y + s * dy := by rw [hdy]; linarith
  have hBx : B.x = A.x + dx := by rw [hdx]; ring
  have hBy : B.y = A.y + dy := by rw [hdy]; ring
  unfold Coeffs.eval at hA hB hX
  rw [hXx, hXy] at hX
  rw [hBx, hBy] at hB
  have key : (q.A * dx ^ 2 + q.B * dx * dy + q.C * dy ^ 2) * (s * (s - 1)) = 0 := by
    linear_combination hX - s * hB + (s - 1) * hA
  rcases mul_eq_zero.1 key with h | h
  · exact hQ.ne' h
  · rcases mul_eq_zero.1 h with h | h
    · apply hAX; ext
      · rw [hXx, h]; ring
      · rw [hXy, h]; ring
    · apply hBX; ext
      · rw [hXx, hBx, sub_eq_zero.1 h]; ring
      · rw [hXy, hBy, sub_eq_zero.1 h]; ring

/-- A pair of lines as a conic. -/
theorem two_lines (A B C D : Pt) : ∃ q : Coeffs, ∀ X, q.eval X = cross (B - A) (X - A) * cross (D - C) (X - C) := by
  refine ⟨⟨(B.y - A.y) * (D.y - C.y), -(B.y - A.y) * (D.x - C.x) - (B.x - A.x) * (D.y - C.y), (B.x - A.x) * (D.x - C.x),
    -(B.y - A.y) * ((D.y - C.y) * C.x - (D.x - C.x) * C.y) - (D.y - C.y) * ((B.y - A.y) * A.x - (B.x - A.x) * A.y),
    (B.x - A.x) * ((D.y - C.y) * C.x - (D.x - C.x) * C.y) + (D.x - C.x) * ((B.y - A.y) * A.x - (B.x - A.x) * A.y),
    ((D.y - C.y) * C.x - (D.x - C.x) * C.y) * ((B.y - A.y) * A.x - (B.x - A.x) * A.y)⟩, ?_⟩
  intro X
  unfold Coeffs.eval cross
  simp
  ring

/-- Five distinct points of an ellipse impose independent conditions. -/
theorem sixMat_det_ne_zero {e : Ellipse} (he : e.Valid) (P : Fin 5 → Pt) (hinj : Function.Injective P)
    (hP : ∀ i, OnE e (P i)) (X : Pt) (hX : ¬ OnE e X) : Matrix.det (sixMat X P) ≠ 0 := by
  intro h0
  obtain ⟨c, hc, hker⟩ := Matrix.exists_vecMul_eq_zero_iff.2 h0
  -- the linear relation applied to a conic
  have hrel : ∀ q : Coeffs, c 0 * q.eval X + ∑ i : Fin 5, c i.succ * q.eval (P i) = 0 := by
    intro q
    have h1 : ∑ i : Fin 6, c i * ∑ j, sixMat X P i j * q.vec j = 0 := by
      have h2 : ∀ j, ∑ i, c i * sixMat X P i j = 0 := by
        intro j
        have := congrFun hker j
        simpa [Matrix.vecMul, dotProduct] using this
      calc ∑ i : Fin 6, c i * ∑ j, sixMat X P i j * q.vec j
          = ∑ i : Fin 6, ∑ j, c i * sixMat X P i j * q.vec j := by
            apply Finset.sum_congr rfl; intro i _
            rw [Finset.mul_sum]
            apply Finset.sum_congr rfl; intro j _; ring
        _ = ∑ j, ∑ i : Fin 6, c i * sixMat X P i j * q.vec j := Finset.sum_comm
        _ = ∑ j, (∑ i : Fin 6, c i * sixMat X P i j) * q.vec j := by
            apply Finset.sum_congr rfl; intro j _; rw [Finset.sum_mul]
        _ = 0 := by simp [h2]
    rw [Fin.sum_univ_succ] at h1
    simp only [sixMat_zero, sixMat_succ] at h1
    simpa only [eval_vec] using h1
  have hev : ∀ i, e.equation.eval (P i) = 0 := fun i => (C64_equation e he _).1.2 (hP i)
  have c0 : c 0 = 0 := by
    have h1 := hrel e.equation
    simp only [hev, mul_zero, Finset.sum_const_zero, add_zero] at h1
    rcases mul_eq_zero.1 h1 with h | h
    · exact h
    · exact absurd ((C64_equation e he X).1.1 h) hX
  have hz : ∀ A B : Pt, cross (B - A) (A - A) = 0 := by intro A B; unfold cross; simp
  have hz2 : ∀ A B : Pt, cross (B - A) (B - A) = 0 := by intro A B; unfold cross; ring
  have hne : ∀ i j k : Fin 5, i ≠ j → k ≠ i → k ≠ j → cross (P j - P i) (P k - P i) ≠ 0 := fun i j k h1 h2 h3 =>
    ellipse_not_collinear he (hP i) (hP j) (hP k) (hinj.ne h1) (hinj.ne h2) (hinj.ne h3)
  -- kills each coefficient
  have kill : ∀ i j k l m : Fin 5, (∀ x, x = i ∨ x = j ∨ x = k ∨ x = l ∨ x = m) → j ≠ k → l ≠ m → i ≠ j → i ≠ k → i ≠ l →
      i ≠ m → c i.succ = 0 := by
    intro i j k l m hall hjk hlm hij hik hil him
    obtain ⟨q, hq⟩ := two_lines (P j) (P k) (P l) (P m)
    have h1 := hrel q
    rw [c0, zero_mul, zero_add, Finset.sum_eq_single i] at h1
    · rcases mul_eq_zero.1 h1 with h | h
      · exact h
      · rw [hq] at h
        exact absurd h (mul_ne_zero (hne j k i hjk hij hik) (hne l m i hlm hil him))
    · intro b _ hb
      rw [hq]
      rcases hall b with rfl | rfl | rfl | rfl | rfl
      · exact absurd rfl hb
      · rw [hz]; ring
      · rw [hz2]; ring
      · rw [hz]; ring
      · rw [hz2]; ring
    · intro h; exact absurd (Finset.mem_univ i) h
  apply hc
  funext i
  refine Fin.cases c0 (fun i => ?_) i
  show c i.succ = 0
  fin_cases i
  · exact kill 0 1 2 3 4 (by decide) (by decide) (by decide) (by decide) (by decide) (by decide) (by decide)
  · exact kill 1 0 2 3 4 (by decide) (by decide) (by decide) (by decide) (by decide) (by decide) (by decide)
  · exact kill 2 0 1 3 4 (by decide) (by decide) (by decide) (by decide) (by decide) (by decide) (by decide)
  · exact kill 3 0 1 2 4 (by decide) (by decide) (by decide) (by decide) (by decide) (by decide) (by decide)
  · exact kill 4 0 1 2 3 (by decide) (by decide) (by decide) (by decide) (by decide) (by decide) (by decide)

/-- C67: whenever coefficients are returned they vanish at the five points. -/
theorem C67_vanish (P : Fin 5 → Pt) (q : Coeffs) (h : Ellipse.equation_from_five_points P = .ok q) (i : Fin 5) :
    q.eval (P i) = 0 := by
  obtain ⟨-, rfl, -⟩ := (five_ok_iff P q).1 h
  exact fiveCoeffs_vanish P i

/-- C67: for five distinct points of an ellipse, coefficients are returned and they are a non-zero multiple of the
equation of the ellipse. -/
theorem C67_five_points_of_ellipse (e : Ellipse) (he : e.Valid) (P : Fin 5 → Pt) (hinj : Function.Injective P)
    (hP : ∀ i, OnE e (P i)) :
    ∃ q k, Ellipse.equation_from_five_points P = .ok q ∧ k ≠ 0 ∧
      q = ⟨k * e.equation.A, k * e.equation.B, k * e.equation.C, k * e.equation.D, k * e.equation.E, k * e.equation.F⟩ ∧
      ∀ X, q.eval X = 0 ↔ OnE e X := by
  have hO : ¬ OnE e e.center := by
    unfold OnE
    rw [onEllipse_iff he.1 he.2]
    unfold ellVal axisCoord
    simp
  have hdet := sixMat_det_ne_zero he P hinj hP e.center hO
  have hO' : e.equation.eval e.center ≠ 0 := fun h => hO ((C64_equation e he _).1.1 h)
  have hev : ∀ i, e.equation.eval (P i) = 0 := fun i => (C64_equation e he _).1.2 (hP i)
  obtain ⟨k, hk⟩ : ∃ k, k = (fiveCoeffs P).eval e.center / e.equation.eval e.center := ⟨_, rfl⟩
  have hq0 : (fiveCoeffs P).eval e.center ≠ 0 := by rw [fiveCoeffs_eval]; exact hdet
  have hk0 : k ≠ 0 := by rw [hk]; exact div_ne_zero hq0 hO'
  have hcenter : (fiveCoeffs P).eval e.center = k * e.equation.eval e.center := by rw [hk]; field_simp
  have hw : (fun j => (fiveCoeffs P).vec j - k * e.equation.vec j) = 0 := by
    apply Matrix.eq_zero_of_mulVec_eq_zero hdet
    funext i
    show ∑ j, sixMat e.center P i j * ((fiveCoeffs P).vec j - k * e.equation.vec j) = 0
    have h1 : ∑ j, sixMat e.center P i j * ((fiveCoeffs P).vec j - k * e.equation.vec j) =
        ∑ j, sixMat e.center P i j * (fiveCoeffs P).vec j - k * ∑ j, sixMat e.center P i j * e.equation.vec j := by
      rw [Finset.mul_sum, ← Finset.sum_sub_distrib]
      apply Finset.sum_congr rfl; intro j _; ring
    rw [h1]
    refine Fin.cases ?_ (fun i => ?_) i
    · simp only [sixMat_zero]
      rw [← eval_vec, ← eval_vec, hcenter, sub_self]
    · simp only [sixMat_succ]
      rw [← eval_vec, ← eval_vec, fiveCoeffs_vanish, hev, mul_zero, sub_self]
  have hv : ∀ j, (fiveCoeffs P).vec j = k * e.equation.vec j := fun j => by
    have := congrFun hw j
    exact sub_eq_zero.1 this
  have hq : fiveCoeffs P = ⟨k * e.equation.A, k * e.equation.B, k * e.equation.C, k * e.equation.D, k * e.equation.E,
      k * e.equation.F⟩ := by
    ext
    · exact hv 0
    · exact hv 1
    · exact hv 2
    · exact hv 3
    · exact hv 4
    · exact hv 5
  refine ⟨fiveCoeffs P, k, (five_ok_iff _ _).2 ⟨hinj, rfl, ?_⟩, hk0, hq, ?_⟩
  · rw [hq]
    dsimp only
    have h3 := (equation_pos he).2.2
    have h4 : k * e.equation.B * (k * e.equation.B) - 4 * (k * e.equation.A) * (k * e.equation.C) =
        -(k ^ 2 * (4 * (e.rmajor * e.rminor) ^ 2)) := by rw [← h3]; ring
    rw [h4]
    have := he.1
    have := he.2
    have : 0 < k ^ 2 * (4 * (e.rmajor * e.rminor) ^ 2) := by positivity
    linarith
  · intro X
    rw [← (C64_equation e he X).1]
    have : (fiveCoeffs P).eval X = k * e.equation.eval X := by
      rw [hq]; unfold Coeffs.eval; ring
    rw [this, mul_eq_zero, or_iff_right hk0]

/-- A definite conic with two real points is an ellipse. -/
theorem ellipse_of_definite {q : Coeffs} (hA : 0 < q.A) (hΔ : 0 < 4 * q.A * q.C - q.B * q.B) {P Q : Pt} (hPQ : P ≠ Q)
    (hP : q.eval P = 0) (hQ : q.eval Q = 0) : ∃ e : Ellipse, e.Valid ∧ ∀ X, q.eval X = 0 ↔ OnE e X := by
  have hid : ∀ X : Pt, 4 * q.A * (4 * q.A * q.C - q.B * q.B) * q.eval X =
      (4 * q.A * q.C - q.B * q.B) * (2 * q.A * X.x + q.B * X.y + q.D) ^ 2 +
      ((4 * q.A * q.C - q.B * q.B) * X.y + (2 * q.A * q.E - q.B * q.D)) ^ 2 - 4 * q.A * q.k := by
    intro X; unfold Coeffs.eval Coeffs.k; ring
  have hk : 0 < q.k := by
    by_contra hk
    push Not at hk
    obtain ⟨Δ, hΔe⟩ : ∃ Δ, Δ = 4 * q.A * q.C - q.B * q.B := ⟨_, rfl⟩
    have hsol : ∀ X : Pt, q.eval X = 0 → 2 * q.A * X.x + q.B * X.y + q.D = 0 ∧ Δ * X.y + (2 * q.A * q.E - q.B * q.D) = 0 := by
      intro X hX
      have h1 := hid X
      rw [hX, mul_zero, ← hΔe] at h1
      rw [← hΔe] at hΔ
      have h2 : 0 ≤ -(4 * q.A * q.k) := by nlinarith
      have h3 : 0 ≤ Δ * (2 * q.A * X.x + q.B * X.y + q.D) ^ 2 := by positivity
      have h4 := sq_nonneg (Δ * X.y + (2 * q.A * q.E - q.B * q.D))
      have h5 : Δ * (2 * q.A * X.x + q.B * X.y + q.D) ^ 2 = 0 := by linarith
      have h6 : (Δ * X.y + (2 * q.A * q.E - q.B * q.D)) ^ 2 = 0 := by linarith
      exact ⟨pow_eq_zero_iff two_ne_zero |>.1 ((mul_eq_zero.1 h5).resolve_left hΔ.ne'), pow_eq_zero_iff two_ne_zero |>.1 h6⟩
    obtain ⟨p1, p2⟩ := hsol P hP
    obtain ⟨q1, q2⟩ := hsol Q hQ
    have hy : P.y = Q.y := by
      apply mul_left_cancel₀ (show Δ ≠ 0 by rw [hΔe]; exact hΔ.ne')
      linarith
    apply hPQ
    ext
    · apply mul_left_cancel₀ (show 2 * q.A ≠ 0 by positivity)
      rw [hy] at p1
      linarith
    · exact hy
  obtain ⟨e, -, hv, -, -, -, -, m, hm, hev⟩ := ellipseOfCoeffs_spec hA hΔ hk true
  refine ⟨e, hv, fun X => ?_⟩
  unfold OnE
  rw [hev, onEllipse_iff hv.1 hv.2, mul_eq_zero, or_iff_right hm.ne']

/-- C67: the function returns coefficients exactly when the five points are distinct points of an ellipse, and then the
coefficients are an equation of this ellipse. -/
theorem C67_accepts_iff (P : Fin 5 → Pt) :
    (∃ q, Ellipse.equation_from_five_points P = .ok q) ↔
    Function.Injective P ∧ ∃ e : Ellipse, e.Valid ∧ ∀ i, OnE e (P i) := by
  constructor
  · rintro ⟨q, h⟩
    obtain ⟨hinj, hqe, hd⟩ := (five_ok_iff P q).1 h
    refine ⟨hinj, ?_⟩
    have hv : ∀ i, q.eval (P i) = 0 := C67_vanish P q h
    have hne : P 0 ≠ P 1 := hinj.ne (by decide)
    have hA : q.A ≠ 0 := by
      intro h0; rw [h0] at hd
      nlinarith [mul_self_nonneg q.B]
    rcases lt_or_gt_of_ne hA with h1 | h1
    · have hneg : ∀ X, (⟨-q.A, -q.B, -q.C, -q.D, -q.E, -q.F⟩ : Coeffs).eval X = -q.eval X := by
        intro X; unfold Coeffs.eval; ring
      obtain ⟨e, he, hon⟩ := ellipse_of_definite (q := ⟨-q.A, -q.B, -q.C, -q.D, -q.E, -q.F⟩) (by simpa using h1)
        (by dsimp only; linarith) hne (by rw [hneg, hv, neg_zero]) (by rw [hneg, hv, neg_zero])
      exact ⟨e, he, fun i => (hon _).1 (by rw [hneg, hv, neg_zero])⟩
    · obtain ⟨e, he, hon⟩ := ellipse_of_definite h1 (by linarith) hne (hv 0) (hv 1)
      exact ⟨e, he, fun i => (hon _).1 (hv i)⟩
  · rintro ⟨hinj, e, he, hP⟩
    obtain ⟨q, k, h, -⟩ := C67_five_points_of_ellipse e he P hinj hP
    exact ⟨q, h⟩

/-- C67: everything else is rejected with a `ValueError`. -/
theorem C67_rejects (P : Fin 5 → Pt) (h : ¬ (Function.Injective P ∧ ∃ e : Ellipse, e.Valid ∧ ∀ i, OnE e (P i))) :
    ∃ m, Ellipse.equation_from_five_points P = .error (.valueError m) := by
  rw [← C67_accepts_iff] at h
  unfold Ellipse.equation_from_five_points at h ⊢
  dsimp only at h ⊢
  by_cases h1 : Function.Injective P
  · rw [if_neg (not_not.2 h1)] at h ⊢
    split_ifs at h ⊢
    · exact ⟨_, rfl⟩
    · exact absurd ⟨_, rfl⟩ h
  · rw [if_pos h1]
    exact ⟨_, rfl⟩

/-- Five distinct points of an ellipse. -/
example : ∃ (e : Ellipse) (P : Fin 5 → Pt), e.Valid ∧ Function.Injective P ∧ ∀ i, OnE e (P i) := by
  refine ⟨⟨⟨0, 0⟩, 10, 5, 0, true⟩, ![⟨10, 0⟩, ⟨-10, 0⟩, ⟨0, 5⟩, ⟨0, -5⟩, ⟨6, 4⟩], ⟨by norm_num, by norm_num⟩, ?_, ?_⟩
  · intro i j h
    fin_cases i <;> fin_cases j <;> simp [Pt.ext_iff] at h ⊢ <;> norm_num at h
  · intro i
    unfold OnE
    rw [onEllipse_iff (by norm_num) (by norm_num)]
    unfold ellVal axisCoord Ellipse.rad
    fin_cases i <;> simp <;> norm_num

/-! ### C79: `from_five_points` -/

/-- C79 (part): for five distinct points of an ellipse, a returned ellipse has the same points as this ellipse, provided
that its axes are not at 45 degrees from the coordinate axes (`A ≠ C` or `B = 0`).  Missing: this case and the ellipses
rejected by the third guard of `from_equation`, as in C66. -/
theorem C79_from_five_points_partial (e : Ellipse) (he : e.Valid) (P : Fin 5 → Pt) (hinj : Function.Injective P)
    (hP : ∀ i, OnE e (P i)) (hAC : e.equation.A ≠ e.equation.C ∨ e.equation.B = 0) (eigvals : ℝ × ℝ) (q : Coeffs)
    (hq : Ellipse.equation_from_five_points P = .ok q)
    (hev : Ellipse.IsEigvals (Ellipse.eqMatrix q.A q.B q.C) eigvals) (e' : Ellipse)
    (h : Ellipse.from_five_points P eigvals = .ok e') :
    e'.Valid ∧ e'.rminor ≤ e'.rmajor ∧ ∀ X, OnE e' X ↔ OnE e X := by
  obtain ⟨q', k, h1, hk, hq', hz⟩ := C67_five_points_of_ellipse e he P hinj hP
  rw [hq] at h1
  have hqq : q = q' := by simpa using h1
  subst hqq
  unfold Ellipse.from_five_points at h
  rw [hq] at h
  simp only [Res.ok_bind] at h
  have hAC' : q.A ≠ q.C ∨ q.B = 0 := by
    rw [hq']
    dsimp only
    rcases hAC with h | h
    · left; intro h'; exact h (mul_left_cancel₀ hk h')
    · right; rw [h, mul_zero]
  obtain ⟨r1, r2, r3⟩ := C66_from_equation_partial _ _ _ _ _ _ eigvals hev hAC' e' h
  exact ⟨r1, r2, fun X => (r3 X).trans (hz X)⟩

/-- When `from_equation` returns. -/
theorem from_equation_returns {A B C D E F : ℝ} {ev : ℝ × ℝ} (hev : Ellipse.IsEigvals (Ellipse.eqMatrix A B C) ev)
    (h1 : 0 < 4 * A * C - B * B) (h2 : 0 < A * Coeffs.k ⟨A, B, C, D, E, F⟩) (hg : 4 * (A + C) * F < D * D + E * E) :
    ∃ e, Ellipse.from_equation A B C D E F ev = .ok e := by
  have hAC : 0 < A * C := by nlinarith [mul_self_nonneg B]
  obtain ⟨hs, hp⟩ := hev
  have hs' : ev.1 + ev.2 = A + C := by rw [hs]; simp [Ellipse.eqMatrix]
  have hp' : ev.1 * ev.2 = A * C - B * B / 4 := by rw [hp]; simp [Ellipse.eqMatrix]; ring
  have hpp : 0 < ev.1 * ev.2 := by rw [hp']; linarith
  have hdM : Matrix.det !![A, B / 2; B / 2, C] = (4 * A * C - B * B) / 4 := by
    rw [Matrix.det_fin_two]; simp; ring
  have hdMp : 0 < (4 * A * C - B * B) / 4 := by linarith
  have hN : -Matrix.det !![F, D / 2, E / 2; D / 2, A, B / 2; E / 2, B / 2, C] = Coeffs.k ⟨A, B, C, D, E, F⟩ / 4 := by
    rw [Matrix.det_fin_three]; unfold Coeffs.k; simp; ring
  have hQ : Matrix.det !![2 * A, B, D; B, 2 * C, E; D, E, 2 * F] = -2 * Coeffs.k ⟨A, B, C, D, E, F⟩ := by
    rw [Matrix.det_fin_three]; unfold Coeffs.k; simp; ring
  obtain ⟨k, hk⟩ : ∃ k, k = Coeffs.k ⟨A, B, C, D, E, F⟩ := ⟨_, rfl⟩
  obtain ⟨d, hd⟩ : ∃ d, d = (4 * A * C - B * B) / 4 := ⟨_, rfl⟩
  unfold Ellipse.from_equation
  rw [if_neg (by push Not; exact ⟨hAC, by linarith, hg⟩),
    if_neg (by rw [hQ, ← hk]; rw [← hk] at h2; intro h0; rw [show k = 0 by linarith] at h2; linarith)]
  dsimp only
  rw [hdM, hN, ← hk, ← hd]
  rw [← hk] at h2
  rw [← hd] at hdMp
  have hAne : A ≠ 0 := by rintro rfl; simp at h2
  have q12 : 0 < k / 4 / (d * ev.1) ∧ 0 < k / 4 / (d * ev.2) ∧ d * ev.1 ≠ 0 ∧ d * ev.2 ≠ 0 := by
    rcases lt_or_gt_of_ne hAne with hA | hA
    · have hC : C < 0 := by by_contra hC; push Not at hC; nlinarith
      have v1 : ev.1 < 0 := by
        rcases mul_pos_iff.1 hpp with ⟨b1, b2⟩ | ⟨b1, b2⟩
        · linarith
        · exact b1
      have v2 : ev.2 < 0 := by
        rcases mul_pos_iff.1 hpp with ⟨b1, b2⟩ | ⟨b1, b2⟩
        · linarith
        · exact b2
      have hk0 : k < 0 := by by_contra hk0; push Not at hk0; nlinarith
      have m1 : d * ev.1 < 0 := mul_neg_of_pos_of_neg hdMp v1
      have m2 : d * ev.2 < 0 := mul_neg_of_pos_of_neg hdMp v2
      exact ⟨div_pos_of_neg_of_neg (by linarith) m1, div_pos_of_neg_of_neg (by linarith) m2, m1.ne, m2.ne⟩
    · have hC : 0 < C := by by_contra hC; push Not at hC; nlinarith
      have v1 : 0 < ev.1 := by
        rcases mul_pos_iff.1 hpp with ⟨b1, b2⟩ | ⟨b1, b2⟩
        · exact b1
        · linarith
      have v2 : 0 < ev.2 := (mul_pos_iff_of_pos_left v1).1 hpp
      have hk0 : 0 < k := (mul_pos_iff_of_pos_left hA).1 h2
      exact ⟨by positivity, by positivity, by positivity, by positivity⟩
  obtain ⟨q1, q2, m1, m2⟩ := q12
  unfold npDiv pySqrt mkEllipse
  rw [if_neg m1, Res.ok_bind, if_neg (not_lt.2 q1.le), Res.ok_bind, if_neg m2, Res.ok_bind,
    if_neg (not_lt.2 q2.le), Res.ok_bind]
  have r1 := Real.sqrt_pos.2 q1
  have r2 := Real.sqrt_pos.2 q2
  rw [if_neg (not_le.2 (lt_max_of_lt_left r1)), if_neg (not_le.2 (lt_min r1 r2))]
  exact ⟨_, rfl⟩

/-- C79 (part): for five distinct points of an ellipse, an ellipse is returned as soon as the third guard of
`from_equation` lets the equation through. -/
theorem C79_accepts_partial (e : Ellipse) (he : e.Valid) (P : Fin 5 → Pt) (hinj : Function.Injective P)
    (hP : ∀ i, OnE e (P i)) (eigvals : ℝ × ℝ)
    (hev : ∀ q, Ellipse.equation_from_five_points P = .ok q → Ellipse.IsEigvals (Ellipse.eqMatrix q.A q.B q.C) eigvals)
    (hg : 4 * (e.equation.A + e.equation.C) * e.equation.F < e.equation.D * e.equation.D + e.equation.E * e.equation.E) :
    ∃ e', Ellipse.from_five_points P eigvals = .ok e' := by
  obtain ⟨q, k, h1, hk, hq, -⟩ := C67_five_points_of_ellipse e he P hinj hP
  obtain ⟨pA, pC, p3⟩ := equation_pos he
  have pk := equation_k he
  have hm : 0 < (e.rmajor * e.rminor) ^ 2 := by have := he.1; have := he.2; positivity
  have hk2 : 0 < k ^ 2 := by positivity
  unfold Ellipse.from_five_points
  rw [h1]
  simp only [Res.ok_bind]
  apply from_equation_returns (hev q h1)
  · rw [hq]
    dsimp only
    have : 4 * (k * e.equation.A) * (k * e.equation.C) - k * e.equation.B * (k * e.equation.B) =
      k ^ 2 * (4 * (e.rmajor * e.rminor) ^ 2) := by rw [← p3]; ring
    rw [this]; positivity
  · rw [hq]
    have : k * e.equation.A * Coeffs.k ⟨k * e.equation.A, k * e.equation.B, k * e.equation.C, k * e.equation.D,
        k * e.equation.E, k * e.equation.F⟩ = (k ^ 2) ^ 2 * (e.equation.A * e.equation.k) := by unfold Coeffs.k; ring
    dsimp only
    rw [this]; positivity
  · rw [hq]
    dsimp only
    nlinarith

/-- The ellipse of center `(0, 0)` and semi-axes 10 and 5, and five of its points. -/
theorem Ex.five : (⟨⟨0, 0⟩, 10, 5, 0, true⟩ : Ellipse).Valid ∧
    Function.Injective (![⟨10, 0⟩, ⟨-10, 0⟩, ⟨0, 5⟩, ⟨0, -5⟩, ⟨6, 4⟩] : Fin 5 → Pt) ∧
    ∀ i, OnE ⟨⟨0, 0⟩, 10, 5, 0, true⟩ ((![⟨10, 0⟩, ⟨-10, 0⟩, ⟨0, 5⟩, ⟨0, -5⟩, ⟨6, 4⟩] : Fin 5 → Pt) i) := by
  refine ⟨⟨by norm_num, by norm_num⟩, ?_, ?_⟩
  · intro i j h
    fin_cases i <;> fin_cases j <;> simp [Pt.ext_iff] at h ⊢ <;> norm_num at h
  · intro i
    unfold OnE
    rw [onEllipse_iff (by norm_num) (by norm_num)]
    unfold ellVal axisCoord Ellipse.rad
    fin_cases i <;> simp <;> norm_num

/-- C67: the equation of these five points is the equation of the ellipse and vanishes at `(6, 4)`; with a repeated point
there is no equation. -/
example : (∃ q, Ellipse.equation_from_five_points ![⟨10, 0⟩, ⟨-10, 0⟩, ⟨0, 5⟩, ⟨0, -5⟩, ⟨6, 4⟩] = .ok q ∧
      q.eval ⟨6, 4⟩ = 0 ∧ ∀ X, q.eval X = 0 ↔ OnE ⟨⟨0, 0⟩, 10, 5, 0, true⟩ X) ∧
    ¬ ∃ q, Ellipse.equation_from_five_points ![⟨10, 0⟩, ⟨-10, 0⟩, ⟨0, 5⟩, ⟨0, -5⟩, ⟨10, 0⟩] = .ok q := by
  obtain ⟨h1, h2, h3⟩ := Ex.five
  constructor
  · obtain ⟨q, k, h, -, -, hq⟩ := C67_five_points_of_ellipse _ h1 _ h2 h3
    exact ⟨q, h, C67_vanish _ q h 4, hq⟩
  · rw [C67_accepts_iff]
    rintro ⟨h, -⟩
    have := @h 0 4 rfl
    simp at this

/-- C79: `from_five_points` recovers this ellipse. -/
example : ∃ ev e', Ellipse.from_five_points ![⟨10, 0⟩, ⟨-10, 0⟩, ⟨0, 5⟩, ⟨0, -5⟩, ⟨6, 4⟩] ev = .ok e' ∧ e'.Valid ∧
    ∀ X, OnE e' X ↔ OnE ⟨⟨0, 0⟩, 10, 5, 0, true⟩ X := by
  obtain ⟨h1, h2, h3⟩ := Ex.five
  obtain ⟨q, k, h, -, hk, -⟩ := C67_five_points_of_ellipse _ h1 _ h2 h3
  have hev : Ellipse.IsEigvals (Ellipse.eqMatrix q.A q.B q.C) (k * 25, k * 100) := by
    rw [hk]
    constructor <;> simp [Ellipse.eqMatrix, Ellipse.equation] <;> ring
  obtain ⟨e', he'⟩ := C79_accepts_partial _ h1 _ h2 h3 _ (fun q' hq' => by
    rw [h] at hq'; cases hq'; exact hev) (by norm_num [Ellipse.equation])
  obtain ⟨a, -, b⟩ := C79_from_five_points_partial _ h1 _ h2 h3 (Or.inl (by norm_num [Ellipse.equation])) _ q h hev e' he'
  exact ⟨_, e', he', a, b⟩
