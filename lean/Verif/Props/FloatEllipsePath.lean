import Verif.Model.FloatEllipsePath
import Verif.Props.FloatEllipse

/-!
# C141: the points of `Ellipse.path` in double precision
-/

open Spec Real Classical FG FT

namespace FEll

theorem pi_apx : Apx 1.01 3.1416 piF π := by
  have p1 : π < 3.1416 := Real.pi_lt_d4
  have := Apx.round (Apx.exact (m := 3.1416) (x := π) (by rw [abs_of_pos Real.pi_pos]; exact p1.le)) le_rfl (by norm_num) (by norm_num)
  rw [zero_add] at this
  exact this.mono (by norm_num) (by norm_num) le_rfl

theorem divNat {e m x' x : ℝ} (h : Apx e m x' x) {n : ℝ} (hn : 0 < n) : Apx e (m / n) (x' / n) (x / n) := by
  refine ⟨?_, ?_⟩
  · rw [← sub_div, abs_div, abs_of_pos hn, div_le_iff₀ hn]
    refine h.1.trans (le_of_eq ?_)
    field_simp
  · rw [abs_div, abs_of_pos hn]
    exact div_le_div_of_nonneg_right h.2 hn.le

/-- The angle `(alpha*pi)/180`. -/
theorem rad_err' {e : Ellipse} (h : AngleOk e) : |(if e.degrees = true then fl (fl (e.alpha * piF) / 180) else e.alpha) - e.rad| ≤ 20 / 2 ^ 53 := by
  unfold Ellipse.rad
  by_cases hd : e.degrees = true
  · rw [if_pos hd, if_pos hd]
    have q1 := fmul (e3 := 2.03) (Apx.exact (h hd)) pi_apx le_rfl (by norm_num) (by norm_num) (by norm_num) (by norm_num)
    have q2 := (divNat q1 (n := 180) (by norm_num)).round (by norm_num) (by norm_num) (by norm_num)
    have := q2.1
    rw [mul_div_assoc] at this
    exact this.trans (by norm_num)
  · rw [if_neg hd, if_neg hd, sub_self, abs_zero]
    norm_num

/-- The angles of the points. -/
theorem linspace_err {n i : ℕ} (hn : n ≤ 2 ^ 50) (hi : i < n) : |linspaceF n i - 2 * π * i / n| ≤ 20 / 2 ^ 53 := by
  have hn0 : (0 : ℝ) < n := by exact_mod_cast Nat.pos_of_ne_zero (by omega)
  have hn' : (n : ℝ) ≤ 2 ^ 50 := by exact_mod_cast hn
  have two : fl (2 * piF) = 2 * piF := FLE.two_pi
  have q1 : Apx 1.01 6.2832 (2 * piF) (2 * π) := by
    refine ⟨?_, by rw [abs_mul, abs_two]; have := pi_apx.2; linarith⟩
    rw [← mul_sub, abs_mul, abs_two]
    have := pi_apx.1
    linarith
  have q2 := (divNat q1 hn0).round (by norm_num) (by norm_num) (by
    rw [le_div_iff₀ hn0]
    refine (mul_le_mul_of_nonneg_left hn' (by norm_num)).trans (by norm_num))
  have q3 : Apx 2.02 (6.2832 / n * i) (i * fl (2 * piF / n)) (2 * π * i / n) := by
    refine ⟨?_, ?_⟩
    · rw [show (i : ℝ) * fl (2 * piF / n) - 2 * π * i / n = i * (fl (2 * piF / n) - 2 * π / n) by ring, abs_mul, Nat.abs_cast]
      have := mul_le_mul_of_nonneg_left q2.1 (Nat.cast_nonneg (α := ℝ) i)
      refine this.trans (le_of_eq ?_)
      norm_num
      ring
    · rw [show 2 * π * i / n = (2 * π / n) * i by ring, abs_mul, Nat.abs_cast]
      exact mul_le_mul_of_nonneg_right q2.2 (Nat.cast_nonneg _)
  have hm : 6.2832 / (n : ℝ) * i ≤ 6.2832 := by
    rw [div_mul_eq_mul_div, div_le_iff₀ hn0]
    have : (i : ℝ) ≤ n := by exact_mod_cast hi.le
    linarith
  have q4 := (q3.mono (m' := 6.2832) le_rfl (by norm_num) hm).round (by norm_num) (by norm_num) (by norm_num)
  unfold linspaceF
  rw [two]
  exact q4.1.trans (by norm_num)

theorem trig_apx {M : MathLib} (hM : Accurate M) {t' t : ℝ} (h : |t' - t| ≤ 20 / 2 ^ 53) :
    Apx 24 1 (M.cos t') (Real.cos t) ∧ Apx 24 1 (M.sin t') (Real.sin t) := by
  refine ⟨⟨?_, abs_cos_le_one _⟩, ⟨?_, abs_sin_le_one _⟩⟩
  · refine (abs_sub_le _ (Real.cos t') _).trans ((add_le_add (hM.cos t') ((FLE.cos_lip t' t).trans h)).trans ?_)
    norm_num
  · refine (abs_sub_le _ (Real.sin t') _).trans ((add_le_add (hM.sin t') ((FLE.sin_lip t' t).trans h)).trans ?_)
    norm_num

/-- A small value of the equation is accepted by `includes`. -/
theorem close_of_small {v : ℝ} (hv : |v| ≤ 8 / 10 ^ 10) : iscloseF 1 (fl (v + 1)) := by
  have f1 := FG.fl_err' (v + 1)
  have f2 := FG.fl_err' (fl (v + 1) - 1)
  have ht := FI.tiny_small
  refine Or.inr (Or.inr ?_)
  rw [mul_one, fl_double (fl_isDouble _)]
  have t1 : 9 / 10 ^ 10 ≤ fl (1 / 10 ^ 9) := by
    have := FG.fl_err' (1 / 10 ^ 9)
    rw [abs_of_pos (by norm_num : (0 : ℝ) < 1 / 10 ^ 9)] at this
    have := (abs_le.1 this).1
    unfold FG.tiny at *
    generalize (2 : ℝ) ^ (-1075 : ℤ) = t at *
    norm_num at *
    linarith
  have a1 : |fl (1 / 10 ^ 9)| = fl (1 / 10 ^ 9) := abs_of_pos (by linarith)
  rw [a1]
  refine le_trans ?_ t1
  have b1 : |v + 1| ≤ |v| + 1 := by have := abs_add_le v 1; rwa [abs_one] at this
  have b3 : |fl (v + 1) - 1| ≤ |v| + |fl (v + 1) - (v + 1)| := by
    have := abs_add_le v (fl (v + 1) - (v + 1))
    rwa [show v + (fl (v + 1) - (v + 1)) = fl (v + 1) - 1 by ring] at this
  have b4 : |fl (fl (v + 1) - 1)| ≤ |fl (fl (v + 1) - 1) - (fl (v + 1) - 1)| + |fl (v + 1) - 1| := by
    have := abs_add_le (fl (fl (v + 1) - 1) - (fl (v + 1) - 1)) (fl (v + 1) - 1)
    rwa [sub_add_cancel] at this
  unfold FG.tiny at *
  clear * - f1 f2 ht b1 b3 b4 hv
  generalize (2 : ℝ) ^ (-1075 : ℤ) = t at *
  generalize |fl (fl (v + 1) - 1) - (fl (v + 1) - 1)| = w1 at *
  generalize |fl (fl (v + 1) - 1)| = w2 at *
  generalize |fl (v + 1) - (v + 1)| = w3 at *
  generalize |fl (v + 1) - 1| = w4 at *
  generalize |v + 1| = w6 at *
  generalize |v| = w7 at *
  norm_num at *
  linarith

end FEll

/-- **C141, points.** The rows of `Ellipse.path` in double precision, for center and axes bounded by `R`: row `i` of `n` differs from the point of eccentric
angle `2πi/n` by at most `160 R / 2 ^ 53` in each coordinate. -/
theorem C141_path {M N : MathLib} (hM : FEll.Accurate M) (hN : FEll.Accurate N) (e : Ellipse) (ha : FEll.AngleOk e) {R : ℝ} (hR : 1 ≤ R)
    (hw : FEll.Within R e) (n i : ℕ) (hn : n ≤ 2 ^ 50) (hi : i < n) :
    |(e.pathPointF M N n i).x - (ellipsePoint e.center e.rmajor e.rminor e.rad (2 * π * i / n)).x| ≤ 160 / 2 ^ 53 * R ∧
    |(e.pathPointF M N n i).y - (ellipsePoint e.center e.rmajor e.rminor e.rad (2 * π * i / n)).y| ≤ 160 / 2 ^ 53 * R := by
  obtain ⟨ct, st⟩ := FEll.trig_apx hN (FEll.linspace_err hn hi)
  obtain ⟨ca, sa⟩ := FEll.trig_apx hM (FEll.rad_err' ha)
  have ox := Apx.exact hw.cx
  have oy := Apx.exact hw.cy
  have x := FEll.fmul (e3 := 25.1) (Apx.exact hw.major) ct (by norm_num) (by norm_num) (by norm_num) (by norm_num) (by linarith)
  have y := FEll.fmul (e3 := 25.1) (Apx.exact hw.minor) st (by norm_num) (by norm_num) (by norm_num) (by norm_num) (by linarith)
  unfold Ellipse.pathPointF ellipse_pointF ellipsePoint
  dsimp only
  have X := FEll.fsub (e3 := 52.5) (FEll.fadd (e3 := 51.4) ox (FEll.fmul (e3 := 50.2) ca x (by norm_num) (by norm_num) (by norm_num) (by norm_num) (by linarith))
    (by norm_num) (by norm_num) (by norm_num) (by norm_num) (by norm_num) (by linarith))
    (FEll.fmul (e3 := 50.2) sa y (by norm_num) (by norm_num) (by norm_num) (by norm_num) (by linarith)) (by norm_num) (by norm_num) (by norm_num) (by norm_num) (by norm_num) (by linarith)
  have Y := FEll.fadd (e3 := 52.5) (FEll.fadd (e3 := 51.4) oy (FEll.fmul (e3 := 50.2) sa x (by norm_num) (by norm_num) (by norm_num) (by norm_num) (by linarith))
    (by norm_num) (by norm_num) (by norm_num) (by norm_num) (by norm_num) (by linarith))
    (FEll.fmul (e3 := 50.2) ca y (by norm_num) (by norm_num) (by norm_num) (by norm_num) (by linarith)) (by norm_num) (by norm_num) (by norm_num) (by norm_num) (by norm_num) (by linarith)
  have hm : 52.5 / 2 ^ 53 * (R + 1 * (R * 1) + 1 * (R * 1)) ≤ 160 / 2 ^ 53 * R := by
    norm_num
    linarith
  constructor
  · refine le_trans (le_of_eq ?_) (X.1.trans hm)
    congr 1
    ring
  · refine le_trans (le_of_eq ?_) (Y.1.trans hm)
    congr 1
    ring

-- A tilted ellipse: row 25 of 100 is the end of the minor axis up to the stated error.
example {M N : MathLib} (hM : FEll.Accurate M) (hN : FEll.Accurate N) :
    |((⟨⟨0, 0⟩, 4, 2, 30, true⟩ : Ellipse).pathPointF M N 100 25).x - (-1)| ≤ 640 / 2 ^ 53 := by
  have ha : FEll.AngleOk ⟨⟨0, 0⟩, 4, 2, 30, true⟩ := by intro _; norm_num [abs_of_pos]
  have hw : FEll.Within 4 ⟨⟨0, 0⟩, 4, 2, 30, true⟩ := by constructor <;> norm_num [abs_of_pos]
  have h := (C141_path hM hN _ ha (R := 4) (by norm_num) hw 100 25 (by norm_num) (by norm_num)).1
  have e1 : (2 * π * ((25 : ℕ) : ℝ) / ((100 : ℕ) : ℝ)) = π / 2 := by push_cast; ring
  have e2 : (⟨⟨0, 0⟩, 4, 2, 30, true⟩ : Ellipse).rad = π / 6 := by unfold Ellipse.rad; rw [if_pos rfl]; dsimp only; ring
  rw [e1, e2] at h
  unfold ellipsePoint at h
  dsimp only at h
  rw [Real.cos_pi_div_two, Real.sin_pi_div_two, Real.sin_pi_div_six] at h
  refine le_trans (le_of_eq ?_) (h.trans (by norm_num))
  congr 1
  ring

namespace FEll

/-- The value of the equation near a point of the ellipse. -/
theorem val_near {e : Ellipse} (he : e.Valid) {R d t : ℝ} (hR : 0 ≤ R) (h1 : |e.rmajor| ≤ R) (h2 : |e.rminor| ≤ R) (P : Pt)
    (hx : |P.x - (ellipsePoint e.center e.rmajor e.rminor e.rad t).x| ≤ d) (hy : |P.y - (ellipsePoint e.center e.rmajor e.rminor e.rad t).y| ≤ d) :
    |e.equation.eval P| ≤ 8 * R ^ 3 * d + 8 * R ^ 2 * d ^ 2 := by
  have hd : 0 ≤ d := (abs_nonneg _).trans hx
  obtain ⟨a0, b0⟩ := he
  rw [equation_eval ⟨a0, b0⟩]
  unfold ellVal axisCoord
  unfold ellipsePoint at hx hy
  dsimp only at *
  generalize e.rmajor = a at *
  generalize e.rminor = b at *
  generalize hdx : P.x - _ = dx at hx
  generalize hdy : P.y - _ = dy at hy
  have cs := sin_sq_add_cos_sq e.rad
  have ts := sin_sq_add_cos_sq t
  have c1 := Real.abs_cos_le_one e.rad
  have s1 := Real.abs_sin_le_one e.rad
  have c2 := Real.abs_cos_le_one t
  have s2 := Real.abs_sin_le_one t
  have ex : P.x - e.center.x = dx + (a * Real.cos t * Real.cos e.rad - b * Real.sin t * Real.sin e.rad) := by rw [← hdx]; ring
  have ey : P.y - e.center.y = dy + (a * Real.cos t * Real.sin e.rad + b * Real.sin t * Real.cos e.rad) := by rw [← hdy]; ring
  rw [ex, ey]
  generalize Real.cos e.rad = c at *
  generalize Real.sin e.rad = s at *
  generalize Real.cos t = k at *
  generalize Real.sin t = l at *
  have key : (a * b) ^ 2 * ((((dx + (a * k * c - b * l * s)) * c + (dy + (a * k * s + b * l * c)) * s) / a) ^ 2 +
      ((-(dx + (a * k * c - b * l * s)) * s + (dy + (a * k * s + b * l * c)) * c) / b) ^ 2 - 1) =
      b ^ 2 * (2 * (a * k) * (dx * c + dy * s) + (dx * c + dy * s) ^ 2) + a ^ 2 * (2 * (b * l) * (-dx * s + dy * c) + (-dx * s + dy * c) ^ 2) := by
    have w1 : (dx + (a * k * c - b * l * s)) * c + (dy + (a * k * s + b * l * c)) * s = a * k + (dx * c + dy * s) := by
      linear_combination (a * k) * cs
    have w2 : -(dx + (a * k * c - b * l * s)) * s + (dy + (a * k * s + b * l * c)) * c = b * l + (-dx * s + dy * c) := by
      linear_combination (b * l) * cs
    rw [w1, w2]
    field_simp
    linear_combination (a ^ 2 * b ^ 2) * ts
  have p1 : |dx * c + dy * s| ≤ 2 * d := by
    refine (abs_add_le _ _).trans ?_
    rw [abs_mul, abs_mul]
    have := mul_le_mul hx c1 (abs_nonneg _) hd
    have := mul_le_mul hy s1 (abs_nonneg _) hd
    linarith
  have p2 : |-dx * s + dy * c| ≤ 2 * d := by
    refine (abs_add_le _ _).trans ?_
    rw [abs_mul, abs_mul, abs_neg]
    have := mul_le_mul hx s1 (abs_nonneg _) hd
    have := mul_le_mul hy c1 (abs_nonneg _) hd
    linarith
  have bound : ∀ {x y z p : ℝ}, |x| ≤ R → |y| ≤ R → |z| ≤ 1 → |p| ≤ 2 * d → |x ^ 2 * (2 * (y * z) * p + p ^ 2)| ≤ 4 * R ^ 3 * d + 4 * R ^ 2 * d ^ 2 := by
    intro x y z p h1 h2 h3 h4
    have q1 : |2 * (y * z) * p| ≤ 2 * (R * 1) * (2 * d) := by
      rw [abs_mul, abs_mul, abs_mul, abs_two]
      gcongr
    have q2 : |p ^ 2| ≤ (2 * d) ^ 2 := by
      rw [abs_pow]
      gcongr
    rw [abs_mul, abs_pow]
    have := mul_le_mul (pow_le_pow_left₀ (abs_nonneg _) h1 2) ((abs_add_le _ _).trans (add_le_add q1 q2)) (abs_nonneg _) (by positivity)
    refine this.trans (le_of_eq (by ring))
  rw [key]
  refine (abs_add_le _ _).trans ?_
  have := bound h2 h1 c2 p1
  have := bound h1 h2 s2 p2
  linarith

end FEll

/-- **C141, membership.** For center and axes bounded by 2, `includes` in double precision accepts every row of `path` in double precision. -/
theorem C141_included {M N : MathLib} (hM : FEll.Accurate M) (hN : FEll.Accurate N) (e : Ellipse) (he : e.Valid) (ha : FEll.AngleOk e)
    (hw : FEll.Within 2 e) (n i : ℕ) (hn : n ≤ 2 ^ 50) (hi : i < n) : e.includesF M (e.pathPointF M N n i) := by
  obtain ⟨hx, hy⟩ := C141_path hM hN e ha (R := 2) (by norm_num) hw n i hn hi
  have hv := FEll.val_near he (by norm_num) hw.major hw.minor _ hx hy
  have bx : |(e.pathPointF M N n i).x| ≤ 6.01 ∧ |(e.pathPointF M N n i).y| ≤ 6.01 := by
    have prod : ∀ {x y z : ℝ}, |x| ≤ 2 → |y| ≤ 1 → |z| ≤ 1 → |x * y * z| ≤ 2 := by
      intro x y z h1 h2 h3
      rw [abs_mul, abs_mul]
      have := mul_le_mul (mul_le_mul h1 h2 (abs_nonneg _) (by norm_num)) h3 (abs_nonneg _) (by norm_num)
      linarith
    have c1 := Real.abs_cos_le_one e.rad
    have s1 := Real.abs_sin_le_one e.rad
    have c2 := Real.abs_cos_le_one (2 * π * i / n)
    have s2 := Real.abs_sin_le_one (2 * π * i / n)
    have a1 := abs_le.1 (prod hw.major c2 c1)
    have a2 := abs_le.1 (prod hw.minor s2 s1)
    have a3 := abs_le.1 (prod hw.major c2 s1)
    have a4 := abs_le.1 (prod hw.minor s2 c1)
    have o1 := abs_le.1 hw.cx
    have o2 := abs_le.1 hw.cy
    have x1 := abs_le.1 hx
    have y1 := abs_le.1 hy
    unfold ellipsePoint at x1 y1
    dsimp only at x1 y1
    norm_num at x1 y1
    constructor
    · exact abs_le.2 ⟨by linarith [x1.1], by linarith [x1.2]⟩
    · exact abs_le.2 ⟨by linarith [y1.1], by linarith [y1.2]⟩
  have hw' : FEll.Within 6.01 e := ⟨hw.cx.trans (by norm_num), hw.cy.trans (by norm_num), hw.major.trans (by norm_num), hw.minor.trans (by norm_num)⟩
  have h := FEll.eval_err hM ha (by norm_num) hw' bx.1 bx.2
  refine FEll.close_of_small ?_
  have tri := abs_add_le ((e.equationF M).evalF (e.pathPointF M N n i) - e.equation.eval (e.pathPointF M N n i)) (e.equation.eval (e.pathPointF M N n i))
  rw [sub_add_cancel] at tri
  refine tri.trans ((add_le_add h hv).trans ?_)
  norm_num

-- A tilted ellipse: all one hundred points of the default path are included.
example {M N : MathLib} (hM : FEll.Accurate M) (hN : FEll.Accurate N) (i : ℕ) (hi : i < 100) :
    (⟨⟨1, -1⟩, 2, 1, 30, true⟩ : Ellipse).includesF M ((⟨⟨1, -1⟩, 2, 1, 30, true⟩ : Ellipse).pathPointF M N 100 i) :=
  C141_included hM hN _ ⟨by norm_num, by norm_num⟩ (by intro _; norm_num [abs_of_pos]) (by constructor <;> norm_num [abs_of_pos]) 100 i (by norm_num) hi
