import Verif.Model.FloatCross
import Verif.Props.FloatMobius

/-!
# C146: the cross ratio in double precision
-/

open Spec Real Classical FG FT

namespace FCross

/-- One part of a quotient. -/
theorem smith (k1 k2 : Bool) {p q x1 x2 : ℝ} (hp : 1 ≤ |p|) (hp2 : |p| ≤ 2 ^ 53) (hqp : |q| ≤ |p|) (hq : q = 0 ∨ 1 ≤ |q|)
    (hX : 1 / 2 ^ 60 ≤ |x1| + |x2|) :
    |fl (maF k2 x1 x2 (fl (q / p)) / maF k1 p q (fl (q / p))) - (x1 + x2 * (q / p)) / (p + q * (q / p))| ≤
      75 / 10 / 2 ^ 53 * ((|x1| + |x2|) / |p + q * (q / p)|) := by
  have hp0 : p ≠ 0 := by intro e; rw [e, abs_zero] at hp; norm_num at hp
  have pp : 0 < |p| := by linarith
  have r1 : |q / p| ≤ 1 := by rw [abs_div]; exact (div_le_one pp).2 hqp
  have r2 : q / p = 0 ∨ 1 / 2 ^ 60 ≤ |q / p| := by
    rcases hq with rfl | h
    · left; simp
    · right
      rw [abs_div, div_le_div_iff₀ (by norm_num) pp]
      norm_num at *
      linarith
  have hqr : 0 ≤ q / p * (q / p) := mul_self_nonneg _
  have eD : p + q * (q / p) = p * (1 + q / p * (q / p)) := by field_simp
  have aD : |p + q * (q / p)| = |p| + |q * (q / p)| := by
    rw [eD, abs_mul, abs_of_nonneg (by linarith : 0 ≤ 1 + q / p * (q / p)), show q * (q / p) = p * (q / p * (q / p)) by field_simp, abs_mul,
      abs_of_nonneg hqr]
    ring
  have hqq : |q * (q / p)| ≤ |p| := by
    rw [abs_mul]
    nlinarith [abs_nonneg q, abs_nonneg (q / p)]
  have m1 := FM.maF_rat k1 p q r1 r2
  have m2 := FM.maF_rat k2 x1 x2 r1 r2
  have ht := FI.tiny_small
  have t0 := tiny_pos
  rw [← aD] at m1
  have D1 : 1 ≤ |p + q * (q / p)| := by rw [aD]; linarith [abs_nonneg (q * (q / p))]
  have D2 : |p + q * (q / p)| ≤ 2 ^ 54 := by rw [aD]; norm_num at *; linarith
  have s : |maF k1 p q (fl (q / p)) - (p + q * (q / p))| ≤ 32 / 10 / 2 ^ 53 * |p + q * (q / p)| := by
    refine m1.trans ?_
    generalize |p + q * (q / p)| = d at *
    norm_num at *
    linarith
  have x2r : |x2 * (q / p)| ≤ |x2| := by
    rw [abs_mul]
    nlinarith [abs_nonneg x2]
  have nt : |x1 + x2 * (q / p)| ≤ |x1| + |x2| := (abs_add_le _ _).trans (by linarith)
  have n1 : |maF k2 x1 x2 (fl (q / p)) - (x1 + x2 * (q / p))| ≤ 32 / 10 / 2 ^ 53 * (|x1| + |x2|) := by
    refine m2.trans ?_
    generalize |x2 * (q / p)| = w at *
    generalize |x1| = X1 at *
    generalize |x2| = X2 at *
    norm_num at *
    linarith
  generalize maF k2 x1 x2 (fl (q / p)) = N at *
  generalize maF k1 p q (fl (q / p)) = S at *
  generalize x1 + x2 * (q / p) = T at *
  generalize p + q * (q / p) = D at *
  generalize |x1| + |x2| = X at *
  clear m1 m2 aD eD hqq hqr r1 r2 x2r
  have hX0 : 0 < X := lt_of_lt_of_le (by norm_num) hX
  have hD0 : D ≠ 0 := by intro h; rw [h, abs_zero] at D1; norm_num at D1
  have S1 : (1 - 32 / 10 / 2 ^ 53) * |D| ≤ |S| := by
    have := abs_sub_abs_le_abs_sub D S
    rw [abs_sub_comm D S] at this
    linarith
  have hS : 0 < |S| := lt_of_lt_of_le (mul_pos (by norm_num) (by linarith)) S1
  have hS0 : S ≠ 0 := abs_pos.1 hS
  have e1 : |N / S - T / D| ≤ 6401 / 1000 / 2 ^ 53 * (X / |D|) := by
    rw [show N / S - T / D = ((N - T) * D - T * (S - D)) / (S * D) by field_simp; ring, abs_div, abs_mul S, div_le_iff₀ (by positivity)]
    have a1 : |(N - T) * D - T * (S - D)| ≤ 64 / 10 / 2 ^ 53 * X * |D| := by
      refine (abs_sub _ _).trans ?_
      rw [abs_mul, abs_mul]
      have b1 : |N - T| * |D| ≤ 32 / 10 / 2 ^ 53 * X * |D| := mul_le_mul_of_nonneg_right n1 (abs_nonneg _)
      have b2 : |T| * |S - D| ≤ X * (32 / 10 / 2 ^ 53 * |D|) := mul_le_mul nt s (abs_nonneg _) hX0.le
      linarith
    refine a1.trans ?_
    rw [show 6401 / 1000 / 2 ^ 53 * (X / |D|) * (|S| * |D|) = 6401 / 1000 / 2 ^ 53 * X * |S| by field_simp, mul_assoc, mul_assoc]
    have b3 : X * ((1 - 32 / 10 / 2 ^ 53) * |D|) ≤ X * |S| := mul_le_mul_of_nonneg_left S1 hX0.le
    have b4 : 0 ≤ X * |D| := by positivity
    rw [mul_left_comm] at b3
    generalize X * |D| = a at *
    generalize X * |S| = c at *
    norm_num at *
    linarith
  have e2 : |T / D| ≤ X / |D| := by
    rw [abs_div]
    gcongr
  have low : 1 / 2 ^ 120 ≤ X / |D| := by
    rw [div_le_div_iff₀ (by norm_num) (by linarith)]
    norm_num at *
    linarith
  have e3 : |N / S| ≤ |T / D| + |N / S - T / D| := by
    have := abs_add_le (T / D) (N / S - T / D)
    rwa [add_sub_cancel] at this
  have e4 := fl_err' (N / S)
  have e5 : |fl (N / S) - T / D| ≤ |fl (N / S) - N / S| + |N / S - T / D| := by
    rw [show fl (N / S) - T / D = (fl (N / S) - N / S) + (N / S - T / D) by ring]
    exact abs_add_le _ _
  refine e5.trans ?_
  generalize |fl (N / S) - N / S| = a at *
  generalize |N / S - T / D| = b at *
  generalize |N / S| = w at *
  generalize |T / D| = w' at *
  generalize X / |D| = z at *
  norm_num at *
  linarith

theorem norm_le {z : ℂ} {e : ℝ} (h1 : |z.re| ≤ e) (h2 : |z.im| ≤ e) : ‖z‖ ≤ 1415 / 1000 * e := by
  have h := Complex.sq_norm z
  rw [Complex.normSq_apply] at h
  have e0 : 0 ≤ e := (abs_nonneg _).trans h1
  refine le_of_sq_le_sq ?_ (by positivity)
  have a1 : z.re * z.re ≤ e * e := by
    rw [← abs_mul_abs_self]
    exact mul_le_mul h1 h1 (abs_nonneg _) e0
  have a2 : z.im * z.im ≤ e * e := by
    rw [← abs_mul_abs_self]
    exact mul_le_mul h2 h2 (abs_nonneg _) e0
  nlinarith

theorem le_sum_abs (x : ℂ) : ‖x‖ ≤ |x.re| + |x.im| := Complex.norm_le_abs_re_add_abs_im x

/-- A quotient by a number with integer parts. -/
theorem div_err (k1 k2 k3 : Bool) {x y : ℂ} (hx : 1 / 2 ^ 60 ≤ ‖x‖) (hy : IntC (2 ^ 53) y) (hy0 : y ≠ 0) :
    ∃ w, divPyF k1 k2 k3 x y = .ok w ∧ ‖w - x / y‖ ≤ 152 / 10 / 2 ^ 53 * ‖x / y‖ := by
  have hn : 0 < ‖y‖ := norm_pos_iff.2 hy0
  have hy2 : y.re ^ 2 + y.im ^ 2 = ‖y‖ ^ 2 := by rw [Complex.sq_norm, Complex.normSq_apply]; ring
  have hyp : 0 < y.re ^ 2 + y.im ^ 2 := by rw [hy2]; positivity
  have qre : (x / y).re = (x.re * y.re + x.im * y.im) / (y.re ^ 2 + y.im ^ 2) := by
    rw [Complex.div_re, Complex.normSq_apply]; ring
  have qim : (x / y).im = (x.im * y.re - x.re * y.im) / (y.re ^ 2 + y.im ^ 2) := by
    rw [Complex.div_im, Complex.normSq_apply]; ring
  have zero_or : ∀ t : ℝ, IntB (2 ^ 53) t → t = 0 ∨ 1 ≤ |t| := fun t ht => by
    by_cases h : t = 0
    · exact Or.inl h
    · exact Or.inr (FI.one_le_abs ht h)
  have up : ∀ t : ℝ, IntB (2 ^ 53) t → |t| ≤ 2 ^ 53 := fun t ht => by have := FI.abs_le ht; norm_num at this ⊢; exact this
  have hX : 1 / 2 ^ 60 ≤ |x.re| + |x.im| := hx.trans (le_sum_abs x)
  have fin : ∀ (p q e : ℝ), p ≠ 0 → |q| ≤ |p| → p ^ 2 + q ^ 2 = ‖y‖ ^ 2 →
      e ≤ 75 / 10 / 2 ^ 53 * ((|x.re| + |x.im|) / |p + q * (q / p)|) → e ≤ 107 / 10 / 2 ^ 53 * ‖x / y‖ := by
    intro p q e hp hpq h he
    refine he.trans ?_
    have h3 : (|x.re| + |x.im|) / |p + q * (q / p)| ≤ 1415 / 1000 * ‖x‖ / ‖y‖ :=
      div_le_div₀ (by positivity) (FM.sum_abs_le x) hn (FM.divisor_abs hp hpq h)
    rw [norm_div]
    have h4 : 0 ≤ ‖x‖ / ‖y‖ := by positivity
    rw [mul_div_assoc] at h3
    generalize (|x.re| + |x.im|) / |p + q * (q / p)| = a at *
    generalize ‖x‖ / ‖y‖ = b at *
    norm_num at *
    linarith
  have conc : ∀ w : ℂ, |w.re - (x / y).re| ≤ 107 / 10 / 2 ^ 53 * ‖x / y‖ → |w.im - (x / y).im| ≤ 107 / 10 / 2 ^ 53 * ‖x / y‖ →
      ‖w - x / y‖ ≤ 152 / 10 / 2 ^ 53 * ‖x / y‖ := by
    intro w h1 h2
    have := norm_le (z := w - x / y) (e := 107 / 10 / 2 ^ 53 * ‖x / y‖) (by rw [Complex.sub_re]; exact h1) (by rw [Complex.sub_im]; exact h2)
    refine this.trans ?_
    have := norm_nonneg (x / y)
    norm_num at *
    linarith
  by_cases hc : |y.im| ≤ |y.re|
  · have hre : y.re ≠ 0 := by
      intro h
      rw [h, abs_zero] at hc
      have := abs_eq_zero.1 (le_antisymm hc (abs_nonneg _))
      exact hy0 (Complex.ext h this)
    have h1 := FI.one_le_abs hy.1 hre
    refine ⟨_, by unfold divPyF; rw [if_neg hy0, if_pos hc], conc _ ?_ ?_⟩
    · have s := smith k1 k2 (x1 := x.re) (x2 := x.im) h1 (up _ hy.1) hc (zero_or _ hy.2) hX
      rw [show (x.re + x.im * (y.im / y.re)) / (y.re + y.im * (y.im / y.re)) = (x / y).re by
        rw [qre]; field_simp] at s
      exact fin _ _ _ hre hc hy2 s
    · have s := smith k1 k3 (x1 := x.im) (x2 := -x.re) h1 (up _ hy.1) hc (zero_or _ hy.2) (by rw [abs_neg]; linarith)
      rw [show (x.im + -x.re * (y.im / y.re)) / (y.re + y.im * (y.im / y.re)) = (x / y).im by
        rw [qim]; field_simp; ring, abs_neg, add_comm |x.im|] at s
      exact fin _ _ _ hre hc hy2 s
  · have hc' : |y.re| ≤ |y.im| := (not_le.1 hc).le
    have him : y.im ≠ 0 := by
      intro h
      rw [h, abs_zero] at hc
      exact hc (abs_nonneg _)
    have h1 := FI.one_le_abs hy.2 him
    have hy2' : y.im ^ 2 + y.re ^ 2 = ‖y‖ ^ 2 := by rw [add_comm]; exact hy2
    have hyp' : y.im ^ 2 + y.re ^ 2 ≠ 0 := by rw [add_comm]; exact hyp.ne'
    refine ⟨_, by unfold divPyF; rw [if_neg hy0, if_neg hc], conc _ ?_ ?_⟩
    · have s := smith k1 k2 (x1 := x.im) (x2 := x.re) h1 (up _ hy.2) hc' (zero_or _ hy.1) (by linarith)
      rw [show (x.im + x.re * (y.re / y.im)) / (y.im + y.re * (y.re / y.im)) = (x / y).re by
        rw [qre, add_comm (y.re ^ 2)]; field_simp; ring, add_comm |x.im|] at s
      exact fin _ _ _ him hc' hy2' s
    · have s := smith k1 k3 (x1 := -x.re) (x2 := x.im) h1 (up _ hy.2) hc' (zero_or _ hy.1) (by rw [abs_neg]; linarith)
      rw [show (-x.re + x.im * (y.re / y.im)) / (y.im + y.re * (y.re / y.im)) = (x / y).im by
        rw [qim, add_comm (y.re ^ 2)]; field_simp; ring, abs_neg] at s
      exact fin _ _ _ him hc' hy2' s

theorem cauchy (a b c d : ℝ) : |a * c| + |b * d| ≤ ‖(⟨a, b⟩ : ℂ)‖ * ‖(⟨c, d⟩ : ℂ)‖ := by
  have h1 := Complex.sq_norm (⟨a, b⟩ : ℂ)
  have h2 := Complex.sq_norm (⟨c, d⟩ : ℂ)
  rw [Complex.normSq_mk] at h1 h2
  refine le_of_sq_le_sq ?_ (by positivity)
  rw [mul_pow, h1, h2, abs_mul, abs_mul]
  have a1 := sq_abs a
  have b1 := sq_abs b
  have c1 := sq_abs c
  have d1 := sq_abs d
  have key := sq_nonneg (|a| * |d| - |b| * |c|)
  have e : (a * a + b * b) * (c * c + d * d) = (|a| ^ 2 + |b| ^ 2) * (|c| ^ 2 + |d| ^ 2) := by rw [a1, b1, c1, d1]; ring
  rw [e]
  nlinarith

/-- A product. -/
theorem mul_err (k1 k2 : Fma) {x y : ℂ} (h : 1 / 2 ^ 60 ≤ ‖x‖ * ‖y‖) : ‖mulCF k1 k2 x y - x * y‖ ≤ 29 / 10 / 2 ^ 53 * (‖x‖ * ‖y‖) := by
  have ht := FI.tiny_small
  have h1 := vdot_err k1 ⟨x.re, -x.im⟩ ⟨y.re, y.im⟩
  have h2 := vdot_err k2 ⟨x.re, x.im⟩ ⟨y.im, y.re⟩
  dsimp only at h1 h2
  have c1 := cauchy x.re x.im y.re y.im
  have c2 := cauchy x.re x.im y.im y.re
  have n2 : ‖(⟨y.im, y.re⟩ : ℂ)‖ = ‖y‖ := by
    rw [Complex.norm_def, Complex.norm_def, Complex.normSq_mk, Complex.normSq_apply, add_comm]
  have nx : ‖(⟨x.re, x.im⟩ : ℂ)‖ = ‖x‖ := rfl
  have ny : ‖(⟨y.re, y.im⟩ : ℂ)‖ = ‖y‖ := rfl
  rw [n2, nx] at c2
  rw [nx, ny] at c1
  have e : ∀ {s v : ℝ}, s ≤ ‖x‖ * ‖y‖ → v ≤ (2 / 2 ^ 53 + 1 / 2 ^ 106) * s + 4 * tiny → v ≤ 202 / 100 / 2 ^ 53 * (‖x‖ * ‖y‖) := by
    intro s v hs hv
    generalize ‖x‖ * ‖y‖ = n at *
    norm_num at *
    linarith
  refine (norm_le (e := 202 / 100 / 2 ^ 53 * (‖x‖ * ‖y‖)) ?_ ?_).trans ?_
  · rw [Complex.sub_re, Complex.mul_re]
    refine e c1 ?_
    rw [show x.re * y.re + -x.im * y.im = x.re * y.re - x.im * y.im by ring, show |-x.im * y.im| = |x.im * y.im| by rw [neg_mul, abs_neg]] at h1
    exact h1
  · rw [Complex.sub_im, Complex.mul_im]
    exact e c2 h2
  · generalize ‖x‖ * ‖y‖ = n at *
    norm_num at *
    linarith

theorem sub_int {A : ℕ} {P Q : Pt} (hP : IntPt A P) (hQ : IntPt A Q) (h : A + A ≤ 2 ^ 53) :
    subCF (toC P) (toC Q) = cpx P - cpx Q ∧ IntC (A + A) (cpx P - cpx Q) := by
  have h1 := FI.sub hP.1 hQ.1
  have h2 := FI.sub hP.2 hQ.2
  refine ⟨?_, h1, h2⟩
  unfold subCF
  apply Complex.ext
  · exact FI.fl h1 h
  · exact FI.fl h2 h

end FCross

/-- **C146.** For points with integer coordinates up to `2 ^ 25`, `cross_ratio` in double precision raises its `ValueError` exactly when two of the points coincide,
and otherwise the absolute value of its error is at most 34 roundings of the absolute value of the cross ratio. -/
theorem C146_cross_ratio (k : CrossRounding) (A B C D : Pt) (hA : IntPt (2 ^ 25) A) (hB : IntPt (2 ^ 25) B) (hC : IntPt (2 ^ 25) C) (hD : IntPt (2 ^ 25) D) :
    (cross_ratioF k A B C D = .error (.valueError "The four points must be distinct.") ↔ A = B ∨ A = C ∨ A = D ∨ B = C ∨ B = D ∨ C = D) ∧
    ∀ z : ℂ, ¬ (A = B ∨ A = C ∨ A = D ∨ B = C ∨ B = D ∨ C = D) →
      z * ((cpx A - cpx B) * (cpx C - cpx D)) = (cpx A - cpx D) * (cpx C - cpx B) →
      ∃ w, cross_ratioF k A B C D = .ok w ∧ ‖w - z‖ ≤ 34 / 2 ^ 53 * ‖z‖ := by
  have hi : ∀ P Q, toC P = toC Q ↔ P = Q := fun P Q => ⟨cpx_inj, fun e => by rw [e]⟩
  have main : ∀ z : ℂ, ¬ (A = B ∨ A = C ∨ A = D ∨ B = C ∨ B = D ∨ C = D) →
      z * ((cpx A - cpx B) * (cpx C - cpx D)) = (cpx A - cpx D) * (cpx C - cpx B) →
      ∃ w, cross_ratioF k A B C D = .ok w ∧ ‖w - z‖ ≤ 34 / 2 ^ 53 * ‖z‖ := by
    intro z hne hz
    obtain ⟨e14, i14⟩ := FCross.sub_int hA hD (by norm_num)
    obtain ⟨e12, i12⟩ := FCross.sub_int hA hB (by norm_num)
    obtain ⟨e32, i32⟩ := FCross.sub_int hC hB (by norm_num)
    obtain ⟨e34, i34⟩ := FCross.sub_int hC hD (by norm_num)
    have hne' := hne
    simp only [not_or] at hne'
    obtain ⟨nAB, -, nAD, nBC, -, nCD⟩ := hne'
    have n14 : cpx A - cpx D ≠ 0 := sub_ne_zero.2 (fun e => nAD (cpx_inj e))
    have n12 : cpx A - cpx B ≠ 0 := sub_ne_zero.2 (fun e => nAB (cpx_inj e))
    have n32 : cpx C - cpx B ≠ 0 := sub_ne_zero.2 (fun e => nBC (cpx_inj e).symm)
    have n34 : cpx C - cpx D ≠ 0 := sub_ne_zero.2 (fun e => nCD (cpx_inj e))
    unfold cross_ratioF
    dsimp only
    simp only [hi]
    rw [if_neg hne, e14, e12, e32, e34]
    generalize cpx A - cpx D = a at *
    generalize cpx A - cpx B = b at *
    generalize cpx C - cpx B = c at *
    generalize cpx C - cpx D = d at *
    have la := FM.one_le_norm i14 n14
    have lb := FM.one_le_norm i12 n12
    have lc := FM.one_le_norm i32 n32
    have ub : ‖b‖ ≤ 2 ^ 27 := by
      have h1 := FI.abs_le i12.1
      have h2 := FI.abs_le i12.2
      have h3 := FCross.le_sum_abs b
      norm_num at *
      linarith
    obtain ⟨w, ew, hw⟩ := FCross.div_err k.p.1 k.p.2.1 k.p.2.2 (x := a) (y := b) (le_trans (by norm_num) la) (FM.intC_mono i12 (by norm_num)) n12
    have lab : 1 / 2 ^ 27 ≤ ‖a / b‖ := by
      rw [norm_div]
      exact div_le_div₀ (norm_nonneg _) la (by linarith) ub
    have w1 : ‖w‖ ≤ (1 + 152 / 10 / 2 ^ 53) * ‖a / b‖ := by
      have := norm_add_le (w - a / b) (a / b)
      rw [sub_add_cancel] at this
      linarith
    have w2 : (1 - 152 / 10 / 2 ^ 53) * ‖a / b‖ ≤ ‖w‖ := by
      have := norm_sub_norm_le (a / b) w
      rw [norm_sub_rev] at this
      linarith
    have wlow : 1 / 2 ^ 28 ≤ ‖w‖ := le_trans (by norm_num at *; linarith) w2
    have pw : 1 / 2 ^ 28 ≤ ‖w‖ * ‖c‖ := by nlinarith [norm_nonneg w]
    have hm := FCross.mul_err k.m1 k.m2 (x := w) (y := c) (le_trans (by norm_num) pw)
    have hm2 : ‖mulCF k.m1 k.m2 w c - a / b * c‖ ≤ 1811 / 100 / 2 ^ 53 * ‖a / b * c‖ := by
      have h1 : ‖w * c - a / b * c‖ ≤ 152 / 10 / 2 ^ 53 * (‖a / b‖ * ‖c‖) := by
        rw [← sub_mul, norm_mul, ← mul_assoc]
        exact mul_le_mul_of_nonneg_right hw (norm_nonneg _)
      have h2 := norm_add_le (mulCF k.m1 k.m2 w c - w * c) (w * c - a / b * c)
      rw [sub_add_sub_cancel] at h2
      have h3 : ‖w‖ * ‖c‖ ≤ (1 + 152 / 10 / 2 ^ 53) * (‖a / b‖ * ‖c‖) := by
        rw [← mul_assoc]
        exact mul_le_mul_of_nonneg_right w1 (norm_nonneg _)
      have h4 : 0 ≤ ‖a / b‖ * ‖c‖ := by positivity
      rw [norm_mul (a / b)]
      refine h2.trans ((add_le_add hm h1).trans ?_)
      generalize ‖a / b‖ * ‖c‖ = n at *
      generalize ‖w‖ * ‖c‖ = n' at *
      norm_num at *
      linarith
    have hz' : z = a / b * c / d := by
      rw [eq_div_iff n34, div_mul_eq_mul_div, eq_div_iff n12]
      linear_combination hz
    have labc : 1 / 2 ^ 27 ≤ ‖a / b * c‖ := by
      rw [norm_mul]
      nlinarith [norm_nonneg (a / b)]
    generalize hv : mulCF k.m1 k.m2 w c = v' at *
    generalize a / b * c = v at *
    have v1 : ‖v'‖ ≤ (1 + 1811 / 100 / 2 ^ 53) * ‖v‖ := by
      have := norm_add_le (v' - v) v
      rw [sub_add_cancel] at this
      linarith
    have v2 : 1 / 2 ^ 60 ≤ ‖v'‖ := by
      have := norm_sub_norm_le v v'
      rw [norm_sub_rev] at this
      norm_num at *
      linarith
    obtain ⟨u, eu, hu⟩ := FCross.div_err k.q.1 k.q.2.1 k.q.2.2 (x := v') (y := d) v2 (FM.intC_mono i34 (by norm_num)) n34
    refine ⟨u, by rw [ew]; change divPyF _ _ _ (mulCF k.m1 k.m2 w c) d = _; rw [hv]; exact eu, ?_⟩
    have dpos : 0 < ‖d‖ := norm_pos_iff.2 n34
    have h1 : ‖v' / d - v / d‖ ≤ 1811 / 100 / 2 ^ 53 * (‖v‖ / ‖d‖) := by
      rw [← sub_div, norm_div, ← mul_div_assoc]
      gcongr
    have h2 : ‖v' / d‖ ≤ (1 + 1811 / 100 / 2 ^ 53) * (‖v‖ / ‖d‖) := by
      rw [norm_div, ← mul_div_assoc]
      gcongr
    have h3 := norm_add_le (u - v' / d) (v' / d - v / d)
    rw [sub_add_sub_cancel] at h3
    rw [hz', norm_div v]
    have h4 : 0 ≤ ‖v‖ / ‖d‖ := by positivity
    refine h3.trans ((add_le_add hu h1).trans ?_)
    generalize ‖v‖ / ‖d‖ = n at *
    generalize ‖v' / d‖ = n' at *
    norm_num at *
    linarith
  refine ⟨⟨fun h => ?_, fun h => ?_⟩, main⟩
  · by_contra hne
    have hne' := hne
    simp only [not_or] at hne'
    have n12 : cpx A - cpx B ≠ 0 := sub_ne_zero.2 (fun e => hne'.1 (cpx_inj e))
    have n34 : cpx C - cpx D ≠ 0 := sub_ne_zero.2 (fun e => hne'.2.2.2.2.2 (cpx_inj e))
    obtain ⟨w, e, -⟩ := main ((cpx A - cpx D) * (cpx C - cpx B) / ((cpx A - cpx B) * (cpx C - cpx D))) hne (div_mul_cancel₀ _ (mul_ne_zero n12 n34))
    rw [e] at h
    cases h
  · unfold cross_ratioF
    dsimp only
    simp only [hi]
    rw [if_pos h]

/-- In particular the computed imaginary part is small for points of a circle or a line, though it may differ from 0. -/
theorem C146_concyclic (k : CrossRounding) (A B C D : Pt) (hA : IntPt (2 ^ 25) A) (hB : IntPt (2 ^ 25) B) (hC : IntPt (2 ^ 25) C) (hD : IntPt (2 ^ 25) D) {z : ℂ}
    (hz : cross_ratio A B C D = .ok z) (h0 : z.im = 0) : ∃ w, cross_ratioF k A B C D = .ok w ∧ |w.im| ≤ 35 / 2 ^ 53 * |w.re| := by
  obtain ⟨hne, e⟩ := cross_ratio_ok hz
  obtain ⟨w, hw, h⟩ := (C146_cross_ratio k A B C D hA hB hC hD).2 z (by tauto) e
  refine ⟨w, hw, ?_⟩
  have n : ‖z‖ = |z.re| := by
    rw [Complex.abs_re_eq_norm.2 h0]
  have h1 := (Complex.abs_im_le_norm (w - z)).trans h
  have h2 := (Complex.abs_re_le_norm (w - z)).trans h
  rw [Complex.sub_im, h0, sub_zero, n] at h1
  rw [Complex.sub_re, n] at h2
  have h3 := abs_sub_abs_le_abs_sub z.re w.re
  rw [abs_sub_comm] at h3
  have s0 := abs_nonneg w.re
  generalize |w.im| = p at *
  generalize |w.re - z.re| = q at *
  generalize |z.re| = r at *
  generalize |w.re| = s at *
  norm_num at *
  linarith

-- Four points of the unit circle: the cross ratio is -1 up to 34 roundings.
example (k : CrossRounding) : ∃ w, cross_ratioF k ⟨1, 0⟩ ⟨0, 1⟩ ⟨-1, 0⟩ ⟨0, -1⟩ = .ok w ∧ ‖w - (-1)‖ ≤ 34 / 2 ^ 53 := by
  have z : IntB (2 ^ 25) 0 := ⟨0, by norm_num, by norm_num⟩
  have o : IntB (2 ^ 25) 1 := ⟨1, by norm_num, by norm_num⟩
  have m : IntB (2 ^ 25) (-1) := ⟨-1, by norm_num, by norm_num⟩
  obtain ⟨w, h, e⟩ := (C146_cross_ratio k ⟨1, 0⟩ ⟨0, 1⟩ ⟨-1, 0⟩ ⟨0, -1⟩ ⟨o, z⟩ ⟨z, o⟩ ⟨m, z⟩ ⟨z, m⟩).2 (-1) (by norm_num [Pt.ext_iff]) (by
    apply Complex.ext <;> simp [cpx] <;> norm_num)
  exact ⟨w, h, by simpa using e⟩

-- Four points of a line: the imaginary part is small.
example (k : CrossRounding) : ∃ w, cross_ratioF k ⟨0, 0⟩ ⟨1, 1⟩ ⟨2, 2⟩ ⟨5, 5⟩ = .ok w ∧ |w.im| ≤ 35 / 2 ^ 53 * |w.re| := by
  have i : ∀ n : ℤ, |n| ≤ 5 → IntB (2 ^ 25) n := fun n hn => ⟨n, rfl, hn.trans (by norm_num)⟩
  have i0 : IntB (2 ^ 25) 0 := by simpa using i 0 (by norm_num)
  have i1 : IntB (2 ^ 25) 1 := by simpa using i 1 (by norm_num)
  have i2 : IntB (2 ^ 25) 2 := by simpa using i 2 (by norm_num)
  have i5 : IntB (2 ^ 25) 5 := by simpa using i 5 (by norm_num)
  cases hz : cross_ratio ⟨0, 0⟩ ⟨1, 1⟩ ⟨2, 2⟩ ⟨5, 5⟩ with
  | error e =>
    exfalso
    unfold cross_ratio at hz
    dsimp only at hz
    rw [if_neg (by norm_num [toC, Complex.ext_iff])] at hz
    cases hz
  | ok z =>
    refine C146_concyclic k _ _ _ _ ⟨i0, i0⟩ ⟨i1, i1⟩ ⟨i2, i2⟩ ⟨i5, i5⟩ hz ?_
    obtain ⟨-, e⟩ := cross_ratio_ok hz
    have r := congrArg Complex.re e
    simp [cpx] at r
    rcases r with r | r
    · exact r
    · norm_num at r

namespace FCross

/-- The imaginary part of a quotient of numbers with integer parts is 0 or not too small. -/
theorem im_gap {A : ℕ} {n m z : ℂ} (hn : IntC A n) (hm : IntC A m) (m0 : m ≠ 0) (hz : z * m = n) (h : z.im ≠ 0) : 1 ≤ |z.im| * ‖m‖ ^ 2 := by
  have e : z.im * ‖m‖ ^ 2 = n.im * m.re - n.re * m.im := by
    rw [Complex.sq_norm, Complex.normSq_apply, ← hz, Complex.mul_im, Complex.mul_re]
    ring
  have i := FI.sub (FI.mul hn.2 hm.1) (FI.mul hn.1 hm.2)
  have p : 0 < ‖m‖ ^ 2 := pow_pos (norm_pos_iff.2 m0) 2
  have := FI.one_le_abs i (by rw [← e]; exact mul_ne_zero h p.ne')
  rwa [← e, abs_mul, abs_of_pos p] at this

theorem norm_sub_le {P Q : Pt} (hP : IntPt (2 ^ 10) P) (hQ : IntPt (2 ^ 10) Q) : ‖cpx P - cpx Q‖ ^ 2 ≤ 2 ^ 23 := by
  rw [Complex.sq_norm, Complex.normSq_apply]
  have h1 := FI.abs_le (FI.sub hP.1 hQ.1)
  have h2 := FI.abs_le (FI.sub hP.2 hQ.2)
  change (P.x - Q.x) * (P.x - Q.x) + (P.y - Q.y) * (P.y - Q.y) ≤ _
  rw [← abs_mul_abs_self (P.x - Q.x), ← abs_mul_abs_self (P.y - Q.y)]
  have a1 := mul_le_mul h1 h1 (abs_nonneg _) (by positivity)
  have a2 := mul_le_mul h2 h2 (abs_nonneg _) (by positivity)
  norm_num at *
  linarith

end FCross

/-- For integer coordinates up to `2 ^ 10` the computed value decides: four distinct points are on a circle or on a line exactly when the computed imaginary part is at
most 35 roundings of the computed real part. -/
theorem C146_decides (k : CrossRounding) (A B C D : Pt) (hA : IntPt (2 ^ 10) A) (hB : IntPt (2 ^ 10) B) (hC : IntPt (2 ^ 10) C) (hD : IntPt (2 ^ 10) D)
    (hne : ¬ (A = B ∨ A = C ∨ A = D ∨ B = C ∨ B = D ∨ C = D)) :
    ∃ w, cross_ratioF k A B C D = .ok w ∧
      (|w.im| ≤ 35 / 2 ^ 53 * |w.re| ↔ (∃ O r, 0 < r ∧ OnCircle O r A ∧ OnCircle O r B ∧ OnCircle O r C ∧ OnCircle O r D) ∨ (OnLine A B C ∧ OnLine A B D)) := by
  have hi : ∀ P Q, toC P = toC Q ↔ P = Q := fun P Q => ⟨cpx_inj, fun e => by rw [e]⟩
  obtain ⟨z, hz⟩ : ∃ z, cross_ratio A B C D = .ok z := by
    unfold cross_ratio
    dsimp only
    simp only [hi]
    rw [if_neg hne]
    exact ⟨_, rfl⟩
  have up : ∀ {P : Pt}, IntPt (2 ^ 10) P → IntPt (2 ^ 25) P := fun h => ⟨FI.mono h.1 (by norm_num), FI.mono h.2 (by norm_num)⟩
  obtain ⟨hne', e⟩ := cross_ratio_ok hz
  obtain ⟨w, hw, h⟩ := (C146_cross_ratio k A B C D (up hA) (up hB) (up hC) (up hD)).2 z hne e
  refine ⟨w, hw, ?_⟩
  rw [← C57_real_iff A B C D z hz]
  constructor
  · intro hs
    by_contra h0
    have n12 : cpx A - cpx B ≠ 0 := sub_ne_zero.2 (fun e => hne'.1 (cpx_inj e))
    have n34 : cpx C - cpx D ≠ 0 := sub_ne_zero.2 (fun e => hne'.2.2.2.2.2 (cpx_inj e))
    have i14 := (FCross.sub_int hA hD (by norm_num)).2
    have i12 := (FCross.sub_int hA hB (by norm_num)).2
    have i32 := (FCross.sub_int hC hB (by norm_num)).2
    have i34 := (FCross.sub_int hC hD (by norm_num)).2
    have in1 := (FM.mul_int .none .none i14 i32 (by norm_num)).2
    have im1 := (FM.mul_int .none .none i12 i34 (by norm_num)).2
    have g := FCross.im_gap in1 im1 (mul_ne_zero n12 n34) e h0
    have q14 := FCross.norm_sub_le hA hD
    have q12 := FCross.norm_sub_le hA hB
    have q32 := FCross.norm_sub_le hC hB
    have q34 := FCross.norm_sub_le hC hD
    have en := congrArg norm e
    rw [norm_mul] at en
    have sn : ‖(cpx A - cpx D) * (cpx C - cpx B)‖ ≤ 2 ^ 23 := by
      refine abs_le_of_sq_le_sq' ?_ (by norm_num) |>.2
      rw [norm_mul, mul_pow]
      exact (mul_le_mul q14 q32 (by positivity) (by norm_num)).trans (by norm_num)
    have sm : ‖(cpx A - cpx B) * (cpx C - cpx D)‖ ≤ 2 ^ 23 := by
      refine abs_le_of_sq_le_sq' ?_ (by norm_num) |>.2
      rw [norm_mul, mul_pow]
      exact (mul_le_mul q12 q34 (by positivity) (by norm_num)).trans (by norm_num)
    have h1 := (Complex.abs_im_le_norm (w - z)).trans h
    have h2 := (Complex.abs_re_le_norm (w - z)).trans h
    rw [Complex.sub_im] at h1
    rw [Complex.sub_re] at h2
    have h3 := abs_sub_abs_le_abs_sub z.im w.im
    have h4 := abs_sub_abs_le_abs_sub w.re z.re
    have h5 := Complex.abs_re_le_norm z
    rw [abs_sub_comm] at h3
    have m0 := norm_nonneg ((cpx A - cpx B) * (cpx C - cpx D))
    have k0 := norm_nonneg ((cpx A - cpx D) * (cpx C - cpx B))
    have z0 := norm_nonneg z
    have key : |z.im| ≤ 70 / 2 ^ 53 * ‖z‖ := by
      clear g en sn sm q14 q12 q32 q34
      generalize |w.im - z.im| = a1 at *
      generalize |w.re - z.re| = a2 at *
      generalize |w.im| = a3 at *
      generalize |w.re| = a4 at *
      generalize |z.im| = a5 at *
      generalize |z.re| = a6 at *
      generalize ‖z‖ = a7 at *
      norm_num at *
      linarith
    have t1 := mul_le_mul_of_nonneg_right key (pow_nonneg m0 2)
    have t2 := mul_le_mul sn sm m0 (by norm_num)
    rw [← en] at t2
    have t3 : 70 / 2 ^ 53 * ‖z‖ * ‖(cpx A - cpx B) * (cpx C - cpx D)‖ ^ 2 =
        70 / 2 ^ 53 * (‖z‖ * ‖(cpx A - cpx B) * (cpx C - cpx D)‖ * ‖(cpx A - cpx B) * (cpx C - cpx D)‖) := by ring
    rw [t3] at t1
    have t4 := g.trans t1
    clear t3 g t1
    generalize ‖z‖ * ‖(cpx A - cpx B) * (cpx C - cpx D)‖ * ‖(cpx A - cpx B) * (cpx C - cpx D)‖ = T at t2 t4
    norm_num at t2 t4
    linarith
  · intro h0
    obtain ⟨w', hw', h'⟩ := C146_concyclic k A B C D (up hA) (up hB) (up hC) (up hD) hz h0
    rw [hw, Except.ok.injEq] at hw'
    rwa [hw']

-- Three corners of a square and a point beside the fourth: not on a circle, and the computed imaginary part shows it.
example (k : CrossRounding) : ∃ w, cross_ratioF k ⟨0, 0⟩ ⟨1000, 0⟩ ⟨1000, 1000⟩ ⟨0, 999⟩ = .ok w ∧ 35 / 2 ^ 53 * |w.re| < |w.im| := by
  have i : ∀ n : ℤ, |n| ≤ 1000 → IntB (2 ^ 10) n := fun n hn => ⟨n, rfl, hn.trans (by norm_num)⟩
  have i0 : IntB (2 ^ 10) 0 := by simpa using i 0 (by norm_num)
  have i1 : IntB (2 ^ 10) 1000 := by simpa using i 1000 (by norm_num)
  have i2 : IntB (2 ^ 10) 999 := by simpa using i 999 (by norm_num)
  obtain ⟨w, hw, h⟩ := C146_decides k ⟨0, 0⟩ ⟨1000, 0⟩ ⟨1000, 1000⟩ ⟨0, 999⟩ ⟨i0, i0⟩ ⟨i1, i0⟩ ⟨i1, i1⟩ ⟨i0, i2⟩ (by norm_num [Pt.ext_iff])
  refine ⟨w, hw, not_le.1 (fun hs => ?_)⟩
  rcases h.1 hs with ⟨O, r, r0, a, b, c, d⟩ | ⟨l, -⟩
  · simp only [OnCircle, sqDist] at a b c d
    nlinarith
  · rw [onLine_iff_cross (by norm_num [Pt.ext_iff])] at l
    simp [cross] at l
