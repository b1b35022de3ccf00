import Verif.Props.MobiusCircle
import Verif.Props.Line

/-!
# C54: images of lines by Möbius transformations
-/

open Spec Real Classical

/-- The equation satisfied by the images of the points of the line of normal `(u, v)` and offset `o`. -/
theorem line_form_pullback {a b c d : ℂ} (h : a * d - b * c ≠ 0) {P Q : XPt} (hi : IsMobImage a b c d P Q) (u v o : ℝ) :
    (∀ p : Pt, P = .fin p → u * p.x + v * p.y = o) ↔
      2 * ((⟨u, -v⟩ : ℂ) * (d * num Q - b * den Q) * (starRingEnd ℂ) (-c * num Q + a * den Q)).re =
        2 * o * Complex.normSq (-c * num Q + a * den Q) := by
  obtain ⟨μ, hμ, e1, e2⟩ := (mobImage_iff (by intro e; apply h; linear_combination e) Q P).1 (mobImage_symm h hi)
  have e1' : d * num Q - b * den Q = μ * num P := by linear_combination e1
  have hμ' : 0 < Complex.normSq μ := Complex.normSq_pos.2 hμ
  rw [e1', e2]
  cases P with
  | inf => simp
  | fin p =>
    simp only [XPt.fin.injEq, forall_eq', num_fin, den_fin, mul_one, cpx]
    have : ((⟨u, -v⟩ : ℂ) * (μ * ⟨p.x, p.y⟩) * (starRingEnd ℂ) μ).re = Complex.normSq μ * (u * p.x + v * p.y) := by
      simp [Complex.normSq_apply]; ring
    rw [this]
    constructor
    · intro e; rw [e]; ring
    · intro e; apply mul_left_cancel₀ hμ'.ne'; linear_combination e / 2

/-- The quantities `A`, `gamma`, `D` of the code. -/
theorem line_form_expand (a b c d w : ℂ) (u v o : ℝ) :
    let A : ℝ := -2 * ((⟨u, v⟩ : ℂ) * c * (starRingEnd ℂ) d).re - 2 * o * Complex.normSq c
    let gamma : ℂ := (starRingEnd ℂ) (⟨u, v⟩ : ℂ) * b * (starRingEnd ℂ) c + (⟨u, v⟩ : ℂ) * (starRingEnd ℂ) d * a +
      ((2 * o : ℝ) : ℂ) * (starRingEnd ℂ) c * a
    let D : ℝ := 2 * o * Complex.normSq a + 2 * ((⟨u, v⟩ : ℂ) * (starRingEnd ℂ) b * a).re
    2 * ((⟨u, -v⟩ : ℂ) * (d * w - b) * (starRingEnd ℂ) (-c * w + a)).re - 2 * o * Complex.normSq (-c * w + a) =
      A * Complex.normSq w + 2 * (gamma.re * w.re + gamma.im * w.im) - D ∧
    Complex.normSq gamma + A * D = Complex.normSq (a * d - b * c) * (u ^ 2 + v ^ 2) := by
  intro A gamma D
  constructor
  · simp [A, gamma, D, Complex.normSq_apply, -Complex.ofReal_mul]
    ring
  · simp [A, gamma, D, Complex.normSq_apply, -Complex.ofReal_mul]
    ring

theorem normal_cross {u v o : ℝ} (huv : u ^ 2 + v ^ 2 = 1) {A B M : Pt} (hA : u * A.x + v * A.y = o)
    (hB : u * B.x + v * B.y = o) : |u * M.x + v * M.y - o| * Spec.dist A B = |cross (B - A) (M - A)| := by
  have h0 : 0 ≤ |u * M.x + v * M.y - o| * Spec.dist A B := mul_nonneg (abs_nonneg _) (dist_nonneg _ _)
  rw [← abs_of_nonneg h0, ← sq_eq_sq_iff_abs_eq_abs, mul_pow, sq_abs, dist_sq]
  simp only [sqDist, cross, Pt.sub_x, Pt.sub_y]
  have e : u * (B.x - A.x) + v * (B.y - A.y) = 0 := by linear_combination hB - hA
  have e1 : u * M.x + v * M.y - o = u * (M.x - A.x) + v * (M.y - A.y) := by linear_combination hA
  rw [e1]
  have ex : B.x - A.x = -v * (u * (B.y - A.y) - v * (B.x - A.x)) := by
    linear_combination u * e - (B.x - A.x) * huv
  have ey : B.y - A.y = u * (u * (B.y - A.y) - v * (B.x - A.x)) := by
    linear_combination v * e - (B.y - A.y) * huv
  obtain ⟨l, hl⟩ : ∃ l, l = u * (B.y - A.y) - v * (B.x - A.x) := ⟨_, rfl⟩
  rw [← hl] at ex ey
  have hx : A.x - B.x = v * l := by linear_combination -ex
  have hy : A.y - B.y = -u * l := by linear_combination -ey
  rw [hx, hy, ex, ey]
  linear_combination (u * (M.x - A.x) + v * (M.y - A.y)) ^ 2 * l ^ 2 * huv

theorem xOnLine_iff {A B : Pt} {u v o : ℝ} (h : ∀ P, OnLine A B P ↔ u * P.x + v * P.y = o) (P : XPt) :
    XOnLine A B P ↔ ∀ p : Pt, P = .fin p → u * p.x + v * p.y = o := by
  cases P with
  | inf => simp [XOnLine]
  | fin p => simp only [XOnLine, h, XPt.fin.injEq, forall_eq']

set_option maxHeartbeats 1000000 in
/-- C54, partial: if the pole `M` is away from the line, or if the pole is on the line or there is no pole, every returned
value is the image of the line: a point is on the line (completed with `inf`) iff its image is on the returned circle, or
on the returned line (completed with `inf`).  In the first case a circle is always returned.  Missing from the full claim:
a pole close to the line for the scale of the matrix (`C54_scale_counterexample`), and that the second case returns
a value (`C54_raises_counterexample`). -/
theorem C54_transform_line_partial (f : Mobius) (h : Matrix.det f.M ≠ 0) (l : Line) (hl : l.Valid) :
    (∀ M, f.transform (.fin M) = .ok .inf →
      sepsilon_ * Spec.dist l.A l.B < 2 * ‖f.M 1 0‖ ^ 2 * |cross (l.B - l.A) (M - l.A)| →
      ∃ c, f.transform_line l = .ok (.circle c) ∧ c.Valid ∧ ∀ P Q, f.transform P = .ok Q →
        (XOnLine l.A l.B P ↔ XOnCircle c.center c.radius Q)) ∧
    ((∀ M, f.transform (.fin M) = .ok .inf → OnLine l.A l.B M) → ∀ g, f.transform_line l = .ok g →
      ∃ l', g = .line l' ∧ l'.Valid ∧ l'.extendA = true ∧ l'.extendB = true ∧ ∀ P Q, f.transform P = .ok Q →
        (XOnLine l.A l.B P ↔ XOnLine l'.A l'.B Q)) := by
  obtain ⟨-, -, -, hline⟩ := C03_direction_offset l hl
  obtain ⟨u, hu⟩ : ∃ u, u = cos l.direction_offset.1 := ⟨_, rfl⟩
  obtain ⟨v, hv⟩ : ∃ v, v = sin l.direction_offset.1 := ⟨_, rfl⟩
  obtain ⟨o, ho⟩ : ∃ o, o = l.direction_offset.2 := ⟨_, rfl⟩
  rw [← hu, ← hv, ← ho] at hline
  have huv : u ^ 2 + v ^ 2 = 1 := by rw [hu, hv]; exact cos_sq_add_sin_sq _
  have hg0 : toC (unit_vector_ l.direction_offset.1) = ⟨u, v⟩ := by rw [hu, hv]; rfl
  have h0 : f.a * f.d - f.b * f.c ≠ 0 := (det_ne_iff _).1 h
  obtain ⟨A, hA⟩ : ∃ A : ℝ, A = -2 * ((⟨u, v⟩ : ℂ) * f.c * (starRingEnd ℂ) f.d).re - 2 * o * Complex.normSq f.c := ⟨_, rfl⟩
  obtain ⟨γ, hγ⟩ : ∃ γ : ℂ, γ = (starRingEnd ℂ) (⟨u, v⟩ : ℂ) * f.b * (starRingEnd ℂ) f.c +
    (⟨u, v⟩ : ℂ) * (starRingEnd ℂ) f.d * f.a + ((2 * o : ℝ) : ℂ) * (starRingEnd ℂ) f.c * f.a := ⟨_, rfl⟩
  obtain ⟨D, hD⟩ : ∃ D : ℝ, D = 2 * o * Complex.normSq f.a + 2 * ((⟨u, v⟩ : ℂ) * (starRingEnd ℂ) f.b * f.a).re := ⟨_, rfl⟩
  have hform : ∀ w : ℂ, 2 * ((⟨u, -v⟩ : ℂ) * (f.d * w - f.b) * (starRingEnd ℂ) (-f.c * w + f.a)).re -
      2 * o * Complex.normSq (-f.c * w + f.a) = A * Complex.normSq w + 2 * (γ.re * w.re + γ.im * w.im) - D := by
    intro w
    rw [hA, hγ, hD]
    exact (line_form_expand f.a f.b f.c f.d w u v o).1
  have hdisc : Complex.normSq γ + A * D = Complex.normSq (f.a * f.d - f.b * f.c) := by
    have := (line_form_expand f.a f.b f.c f.d 0 u v o).2
    rw [huv, mul_one] at this
    rw [hA, hγ, hD]
    exact this
  have hev : f.transform_line l = (if |A| > sepsilon_ then do
      let r ← pySqrt (Complex.normSq γ / A / A + D / A)
      return .circle (← mkCircle (from_complex_ (-γ / (A : ℂ))) r)
    else do
      let P ← f.transform (.fin l.A)
      let Q ← f.transform (.fin l.B)
      return .line (← mkLineX P Q)) := by
    unfold Mobius.transform_line
    dsimp only
    rw [hg0, ← ho]
    simp only [normSq_mod2]
    rw [← hA, ← hγ, ← hD]
  -- the sign of `A`
  have hpole : ∀ M, f.transform (.fin M) = .ok .inf → A = 2 * Complex.normSq f.c * (u * M.x + v * M.y - o) := by
    intro M hM
    rw [transform_inf_iff _ h] at hM
    have : f.d = -(f.c * cpx M) := by linear_combination hM
    rw [hA, this]
    simp [Complex.normSq_apply, cpx]
    ring
  have hnopole : f.c = 0 → A = 0 := by
    intro e
    rw [hA, e]
    simp
  have hcond : ∀ P Q, f.transform P = .ok Q → (XOnLine l.A l.B P ↔
      match Q with
      | .inf => A = 0
      | .fin w => A * Complex.normSq (cpx w) + 2 * (γ.re * w.x + γ.im * w.y) - D = 0) := by
    intro P Q e
    rw [C49_transform _ h] at e
    rw [xOnLine_iff hline, line_form_pullback h0 e]
    cases Q with
    | inf =>
      simp only [num_inf, den_inf, mul_one, mul_zero, sub_zero, add_zero]
      rw [hA]
      have : ((⟨u, -v⟩ : ℂ) * f.d * (starRingEnd ℂ) (-f.c)).re = -((⟨u, v⟩ : ℂ) * f.c * (starRingEnd ℂ) f.d).re := by
        simp; ring
      rw [this, Complex.normSq_neg]
      constructor <;> intro e <;> linarith
    | fin w =>
      simp only [num_fin, den_fin, mul_one]
      have := hform (cpx w)
      rw [sub_eq_iff_eq_add] at this
      rw [this]
      show A * Complex.normSq (cpx w) + 2 * (γ.re * w.x + γ.im * w.y) - D + _ = _ ↔ _
      constructor <;> intro e <;> linarith
  constructor
  · intro M hM hfar
    have hAl := (hline l.A).1 (onLine_left _ _)
    have hBl := (hline l.B).1 (onLine_right _ _)
    have hcr := normal_cross huv hAl hBl (M := M)
    have hne := ne_of_not_allclose hl
    have hd : 0 < Spec.dist l.A l.B := Real.sqrt_pos.2 (sqDist_pos hne)
    have hAbig : |A| > sepsilon_ := by
      rw [hpole M hM, abs_mul, abs_of_nonneg (by have := Complex.normSq_nonneg f.c; positivity)]
      rw [← hcr, ← Complex.normSq_eq_norm_sq] at hfar
      have hfar' : sepsilon_ * Spec.dist l.A l.B <
          2 * Complex.normSq f.c * |u * M.x + v * M.y - o| * Spec.dist l.A l.B := by
        calc _ < _ := hfar
          _ = _ := by show 2 * Complex.normSq f.c * _ = _; ring
      exact lt_of_mul_lt_mul_right hfar' hd.le
    have hA0 : A ≠ 0 := by
      intro e; rw [e, abs_zero] at hAbig; linarith [sepsilon_pos]
    have hrad : Complex.normSq γ / A / A + D / A = Complex.normSq (f.a * f.d - f.b * f.c) / A ^ 2 := by
      rw [← hdisc]; field_simp
    have hpos : 0 < Complex.normSq (f.a * f.d - f.b * f.c) / A ^ 2 := by
      have := Complex.normSq_pos.2 h0
      positivity
    have hr := Real.sqrt_pos.2 hpos
    refine ⟨⟨from_complex_ (-γ / (A : ℂ)), sqrt (Complex.normSq (f.a * f.d - f.b * f.c) / A ^ 2)⟩, ?_, hr, ?_⟩
    · rw [hev, if_pos hAbig, hrad]
      unfold pySqrt
      rw [if_neg (not_lt.2 hpos.le), Res.ok_bind, mkCircle_pos hr]
      rfl
    · intro P Q e
      rw [hcond P Q e]
      cases Q with
      | inf => simp [XOnCircle, hA0]
      | fin w =>
        simp only [XOnCircle, onCircle_iff_norm, cpx_from]
        rw [Real.sq_sqrt hpos.le, eq_div_iff (pow_ne_zero 2 hA0), ← hdisc]
        have hAc : (A : ℂ) ≠ 0 := by exact_mod_cast hA0
        have e1 : Complex.normSq (cpx w - -γ / (A : ℂ)) * A ^ 2 = Complex.normSq (A * cpx w + γ) := by
          have : (A : ℂ) * cpx w + γ = A * (cpx w - -γ / A) := by field_simp; ring
          rw [this, Complex.normSq_mul, Complex.normSq_ofReal]; ring
        have e2 : Complex.normSq (A * cpx w + γ) = A ^ 2 * Complex.normSq (cpx w) + 2 * A * (γ.re * w.x + γ.im * w.y) +
            Complex.normSq γ := by
          simp [Complex.normSq_apply, cpx]; ring
        rw [e1, e2]
        constructor
        · intro e3; linear_combination A * e3
        · intro e3
          apply mul_left_cancel₀ hA0
          linear_combination e3
  · intro hon g hg
    have hA0 : A = 0 := by
      by_cases hc : f.c = 0
      · exact hnopole hc
      · have hM : f.transform (.fin (from_complex_ (-f.d / f.c))) = .ok .inf := by
          rw [transform_inf_iff _ h, cpx_from]; field_simp; ring
        rw [hpole _ hM, (hline _).1 (hon _ hM)]; ring
    rw [hev, if_neg (by rw [hA0, abs_zero]; exact not_lt.2 sepsilon_pos.le)] at hg
    obtain ⟨P', hP', hg⟩ := Res.bind_ok.1 hg
    obtain ⟨Q', hQ', hg⟩ := Res.bind_ok.1 hg
    obtain ⟨l', hl', hg⟩ := Res.bind_ok.1 hg
    refine ⟨l', (Res.pure_ok.1 hg).symm, ?_⟩
    cases P' with
    | inf => simp [mkLineX] at hl'
    | fin A' =>
      cases Q' with
      | inf => simp [mkLineX] at hl'
      | fin B' =>
        obtain ⟨hval, rfl⟩ := mkLine_ok.1 (show mkLine A' B' true true = .ok l' from hl')
        refine ⟨hval, rfl, rfl, ?_⟩
        rw [hA0, zero_mul, add_zero] at hdisc
        simp only [hA0, zero_mul, zero_add] at hcond
        have kA := (hcond _ _ hP').1 (onLine_left _ _)
        have kB := (hcond _ _ hQ').1 (onLine_right _ _)
        have hn : ¬ (γ.re = 0 ∧ -γ.im = 0) := by
          rintro ⟨e1, e2⟩
          apply h0
          rw [← Complex.normSq_eq_zero, ← hdisc, Complex.normSq_apply, e1, neg_eq_zero.1 e2]
          ring
        have key := line_of_form (n1 := γ.re) (n2 := -γ.im) (m := D / 2) hn (A := A') (B := B')
          (by dsimp only at kA; linarith) (by dsimp only at kB; linarith) (ne_of_not_allclose hval)
        intro P Q e
        rw [hcond P Q e]
        cases Q with
        | inf => simp [XOnLine]
        | fin w =>
          show _ ↔ OnLine A' B' w
          rw [← key w]
          dsimp only
          constructor <;> intro e3 <;> linarith

/-- C54, failure: for the matrix `10^-5 [[0, 1], [1, 0]]` of `z ↦ 1/z` and the line `x = 1`, a line is returned; the
image of the line is a circle, and the image `(1/2, 1/2)` of the point `(1, -1)` is not on the returned line. -/
theorem C54_scale_counterexample :
    let f : Mobius := ⟨!![0, 1 / 10 ^ 5; 1 / 10 ^ 5, 0]⟩
    let l : Line := ⟨⟨1, 0⟩, ⟨1, 1⟩, true, true⟩
    Matrix.det f.M ≠ 0 ∧ l.Valid ∧ f.transform_line l = .ok (.line ⟨⟨1, 0⟩, ⟨1 / 2, -1 / 2⟩, true, true⟩) ∧
      OnLine l.A l.B ⟨1, -1⟩ ∧ f.transform (.fin ⟨1, -1⟩) = .ok (.fin ⟨1 / 2, 1 / 2⟩) ∧
      ¬ OnLine ⟨1, 0⟩ ⟨1 / 2, -1 / 2⟩ ⟨1 / 2, 1 / 2⟩ := by
  intro f l
  have hd : Matrix.det f.M ≠ 0 := by norm_num [f, Matrix.det_fin_two]
  have tr : ∀ P Q : Pt, cpx P * cpx Q = 1 → f.transform (.fin P) = .ok (.fin Q) := by
    intro P Q e
    rw [C49_transform _ hd]
    simp only [IsMobImage, f, num_fin, den_fin, Matrix.of_apply, Matrix.cons_val', Matrix.cons_val_zero,
      Matrix.cons_val_one, Matrix.cons_val_fin_one]
    linear_combination -(1 / 10 ^ 5 : ℂ) * e
  refine ⟨hd, ?_, ?_, ⟨-1, ?_⟩, ?_, ?_⟩
  · unfold Line.Valid allclose npClose; norm_num [l]
  · unfold Mobius.transform_line
    have hdo : l.direction_offset = (0, 1) := by norm_num [Line.direction_offset, l]
    dsimp only
    rw [hdo]
    have hA : ¬ |(-2 * (toC (unit_vector_ 0) * f.c * (starRingEnd ℂ) f.d).re - 2 * 1 * mod2_ f.c : ℝ)| > sepsilon_ := by
      have hc : f.c = ((1 / 10 ^ 5 : ℝ) : ℂ) := by simp [f, Mobius.c]
      have hdd : f.d = 0 := by simp [f, Mobius.d]
      rw [hc, hdd]
      simp only [map_zero, mul_zero, mod2_, Complex.ofReal_re, Complex.ofReal_im, Complex.zero_re]
      unfold sepsilon_
      norm_num [abs_of_neg]
    rw [if_neg hA, tr l.A ⟨1, 0⟩ (by apply Complex.ext <;> norm_num [cpx, l]), Res.ok_bind,
      tr l.B ⟨1 / 2, -1 / 2⟩ (by apply Complex.ext <;> norm_num [cpx, l]), Res.ok_bind]
    simp only [mkLineX, mkLine]
    rw [if_neg (by unfold allclose npClose; norm_num)]
    rfl
  · ext <;> norm_num [l]
  · exact tr _ _ (by apply Complex.ext <;> norm_num [cpx])
  · rw [onLine_iff_cross (by norm_num [Pt.ext_iff])]
    norm_num [cross]

/-- C54, failure: a `ValueError` is raised when the line is defined with the pole as its first point. -/
theorem C54_raises_counterexample :
    let l : Line := ⟨⟨0, 0⟩, ⟨1, 0⟩, true, true⟩
    Matrix.det mobInv.M ≠ 0 ∧ l.Valid ∧ mobInv.transform_line l = .error (.valueError "`A` is not a point.") := by
  intro l
  refine ⟨mobInv_det, by unfold Line.Valid allclose npClose; norm_num [l], ?_⟩
  have ho : l.direction_offset.2 = 0 := by
    unfold Line.direction_offset
    dsimp only
    rw [if_neg (by norm_num [l])]
    split_ifs <;> simp [l]
  unfold Mobius.transform_line
  dsimp only
  rw [ho]
  have hA : ¬ |(-2 * (toC (unit_vector_ l.direction_offset.1) * mobInv.c * (starRingEnd ℂ) mobInv.d).re -
      2 * 0 * mod2_ mobInv.c : ℝ)| > sepsilon_ := by
    have hdd : mobInv.d = 0 := by simp [mobInv, Mobius.d]
    rw [hdd]
    simp [sepsilon_pos.le]
  rw [if_neg hA]
  have : mobInv.transform (.fin l.A) = .ok .inf := mobInv_pole
  have h2 : mobInv.transform (.fin l.B) = .ok (.fin ⟨1, 0⟩) := by
    rw [C49_transform _ mobInv_det]
    simp [IsMobImage, mobInv, l, cpx]
    apply Complex.ext <;> simp
  rw [this, Res.ok_bind, h2]
  rfl

example : ∃ (f : Mobius) (l : Line) (M : Pt), Matrix.det f.M ≠ 0 ∧ l.Valid ∧ f.transform (.fin M) = .ok .inf ∧
    sepsilon_ * Spec.dist l.A l.B < 2 * ‖f.M 1 0‖ ^ 2 * |cross (l.B - l.A) (M - l.A)| := by
  refine ⟨mobInv, ⟨⟨1, 0⟩, ⟨1, 1⟩, true, true⟩, ⟨0, 0⟩, mobInv_det, ?_, mobInv_pole, ?_⟩
  · unfold Line.Valid allclose npClose; norm_num
  · simp [mobInv, cross, sepsilon_, Spec.dist, sqDist]
    norm_num

/-- The image of the line `x = 1` by `1/z` is a circle through `(0, 0)` and `(1, 0)`. -/
example : ∃ c : Circle, mobInv.transform_line ⟨⟨1, 0⟩, ⟨1, 1⟩, true, true⟩ = .ok (.circle c) ∧ OnCircle c.center c.radius ⟨0, 0⟩ ∧
    OnCircle c.center c.radius ⟨1, 0⟩ := by
  obtain ⟨c, h, -, h1⟩ := (C54_transform_line_partial mobInv mobInv_det ⟨⟨1, 0⟩, ⟨1, 1⟩, true, true⟩
    (by unfold Line.Valid allclose npClose; norm_num)).1 ⟨0, 0⟩ mobInv_pole
    (by simp [mobInv, cross, sepsilon_, Spec.dist, sqDist]; norm_num)
  refine ⟨c, h, (h1 .inf (.fin ⟨0, 0⟩) ?_).1 trivial, (h1 (.fin ⟨1, 0⟩) (.fin ⟨1, 0⟩) ?_).1 ⟨0, by ext <;> simp⟩⟩
  · rw [C49_transform _ mobInv_det]
    simp [IsMobImage, mobInv, cpx]
    apply Complex.ext <;> simp
  · rw [C49_transform _ mobInv_det]
    simp [IsMobImage, mobInv, cpx]
    apply Complex.ext <;> simp
