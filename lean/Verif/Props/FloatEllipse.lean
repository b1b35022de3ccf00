import Verif.Model.FloatEllipse
import Verif.Props.FloatOrthOn
import Verif.Props.Ellipse

/-!
# C139: membership in an ellipse in double precision
-/

open Spec Real Classical FG FT

namespace FEll

/-- The functions of the library: errors of at most four units of `2 ^ -53`. -/
structure Accurate (M : MathLib) : Prop where
  cos : ∀ t, |M.cos t - Real.cos t| ≤ 4 / 2 ^ 53
  sin : ∀ t, |M.sin t - Real.sin t| ≤ 4 / 2 ^ 53

/-- Angles in degrees are at most a full turn; angles in radians are arbitrary. -/
def AngleOk (e : Ellipse) : Prop := e.degrees = true → |e.alpha| ≤ 360

/-- The data of an ellipse are at most `R`. -/
structure Within (R : ℝ) (e : Ellipse) : Prop where
  cx : |e.center.x| ≤ R
  cy : |e.center.y| ≤ R
  major : |e.rmajor| ≤ R
  minor : |e.rminor| ≤ R

theorem rad_err {e : Ellipse} (h : AngleOk e) : |e.radF - e.rad| ≤ 20 / 2 ^ 53 := by
  unfold Ellipse.radF Ellipse.rad
  by_cases hd : e.degrees = true
  · rw [if_pos hd, if_pos hd]
    have ha := h hd
    have p1 : π < 3.1416 := Real.pi_lt_d4
    have p0 := Real.pi_pos
    have q0 : Apx 0 (3.1416 / 180) (π / 180) (π / 180) := Apx.exact (by rw [abs_of_pos (by positivity)]; gcongr)
    have q1 : Apx (101 / 100) 3.1416 piF π := by
      have := Apx.round (Apx.exact (m := 3.1416) (x := π) (by rw [abs_of_pos p0]; exact p1.le)) le_rfl (by norm_num) (by norm_num)
      rw [zero_add] at this
      exact this
    have q2 : Apx (101 / 100) (3.1416 / 180) (piF / 180) (π / 180) := by
      refine ⟨?_, q0.2⟩
      rw [← sub_div, abs_div, abs_of_pos (by norm_num : (0 : ℝ) < 180), div_le_iff₀ (by norm_num)]
      refine q1.1.trans (le_of_eq ?_)
      ring
    have q3 := q2.round (by norm_num) (by norm_num) (by norm_num)
    have q4 := (Apx.exact ha).mul (e3 := 203 / 100) q3 le_rfl (by norm_num) (by norm_num) (by norm_num) (by norm_num)
    have q5 := q4.round (by norm_num) (by norm_num) (by norm_num)
    refine q5.1.trans (by norm_num)
  · rw [if_neg hd, if_neg hd, sub_self, abs_zero]
    norm_num

theorem sin_apx {M : MathLib} (hM : Accurate M) {e : Ellipse} (h : AngleOk e) : Apx 24 1 (M.sin e.radF) (Real.sin e.rad) := by
  refine ⟨?_, Real.abs_sin_le_one _⟩
  have h1 := hM.sin e.radF
  have h2 := (FLE.sin_lip e.radF e.rad).trans (rad_err h)
  refine (abs_sub_le _ (Real.sin e.radF) _).trans ((add_le_add h1 h2).trans ?_)
  norm_num

theorem cos_apx {M : MathLib} (hM : Accurate M) {e : Ellipse} (h : AngleOk e) : Apx 24 1 (M.cos e.radF) (Real.cos e.rad) := by
  refine ⟨?_, Real.abs_cos_le_one _⟩
  have h1 := hM.cos e.radF
  have h2 := (FLE.cos_lip e.radF e.rad).trans (rad_err h)
  refine (abs_sub_le _ (Real.cos e.radF) _).trans ((add_le_add h1 h2).trans ?_)
  norm_num

/-- A rounded product. -/
theorem fmul {e1 e2 e3 m1 m2 x' x y' y : ℝ} (h1 : Apx e1 m1 x' x) (h2 : Apx e2 m2 y' y) (he1 : 0 ≤ e1) (he2 : 0 ≤ e2) (he3 : e3 ≤ 1000)
    (he : e1 + e2 + 1 / 1000 + 101 / 100 ≤ e3) (hm : 1 / 2 ^ 60 ≤ m1 * m2) : Apx e3 (m1 * m2) (fl (x' * y')) (x * y) := by
  have := (h1.mul (e3 := e1 + e2 + 1 / 1000) h2 he1 (by linarith) (by linarith) he2 le_rfl).round (by linarith) (by linarith) hm
  exact this.mono he (by linarith) le_rfl

/-- A rounded sum. -/
theorem fadd {e1 e2 e3 m1 m2 x' x y' y : ℝ} (h1 : Apx e1 m1 x' x) (h2 : Apx e2 m2 y' y) (he1 : 0 ≤ e1) (he2 : 0 ≤ e2) (he3 : e3 ≤ 1000)
    (k1 : e1 + 101 / 100 ≤ e3) (k2 : e2 + 101 / 100 ≤ e3) (hm : 1 / 2 ^ 60 ≤ m1 + m2) : Apx e3 (m1 + m2) (fl (x' + y')) (x + y) := by
  have a1 := h1.mono (e' := e3 - 101 / 100) (by linarith) (by linarith) le_rfl
  have a2 := h2.mono (e' := e3 - 101 / 100) (by linarith) (by linarith) le_rfl
  have := (a1.add a2).round (by linarith) (by linarith) hm
  rwa [sub_add_cancel] at this

/-- A rounded difference. -/
theorem fsub {e1 e2 e3 m1 m2 x' x y' y : ℝ} (h1 : Apx e1 m1 x' x) (h2 : Apx e2 m2 y' y) (he1 : 0 ≤ e1) (he2 : 0 ≤ e2) (he3 : e3 ≤ 1000)
    (k1 : e1 + 101 / 100 ≤ e3) (k2 : e2 + 101 / 100 ≤ e3) (hm : 1 / 2 ^ 60 ≤ m1 + m2) : Apx e3 (m1 + m2) (fl (x' - y')) (x - y) := by
  rw [sub_eq_add_neg, sub_eq_add_neg]
  exact fadd h1 h2.neg he1 he2 he3 k1 k2 hm

theorem cast {e m m' x' x z : ℝ} (h : Apx e m x' x) (hm : m = m') (hx : x = z) : Apx e m' x' z := by subst hm hx; exact h

/-- The computed value of the equation. -/
theorem eval_err {M : MathLib} (hM : Accurate M) {e : Ellipse} (ha : AngleOk e) {R : ℝ} (hR : 1 ≤ R) (hw : Within R e) {P : Pt}
    (hx : |P.x| ≤ R) (hy : |P.y| ≤ R) : |(e.equationF M).evalF P - e.equation.eval P| ≤ R ^ 4 / 2 ^ 41 := by
  have r2 : 1 ≤ R * R := by nlinarith
  have r3 : 1 ≤ R * R * R := by nlinarith
  have r4 : 1 ≤ R * R * R * R := by nlinarith
  have s := sin_apx hM ha
  have c := cos_apx hM ha
  have x := Apx.exact hw.cx
  have y := Apx.exact hw.cy
  have px := Apx.exact hx
  have py := Apx.exact hy
  have two : Apx 0 2 (2 : ℝ) 2 := Apx.exact (by norm_num)
  have mtwo : Apx 0 2 (-2 : ℝ) (-2) := Apx.exact (by norm_num)
  have a2 := fmul (e3 := 1.1) (Apx.exact hw.major) (Apx.exact hw.major) le_rfl le_rfl (by norm_num) (by norm_num) (by linarith)
  have b2 := fmul (e3 := 1.1) (Apx.exact hw.minor) (Apx.exact hw.minor) le_rfl le_rfl (by norm_num) (by norm_num) (by linarith)
  unfold Ellipse.equationF Ellipse.equation
  unfold Coeffs.evalF Coeffs.eval
  dsimp only
  rw [show (if e.degrees = true then e.alpha * (π / 180) else e.alpha) = e.rad from rfl, sq, sq]
  have hcs := sin_sq_add_cos_sq e.rad
  generalize M.sin e.radF = s' at *
  generalize M.cos e.radF = c' at *
  generalize Real.sin e.rad = s0 at *
  generalize Real.cos e.rad = c0 at *
  have s2 := fmul (e3 := 49.1) s s (by norm_num) (by norm_num) (by norm_num) (by norm_num) (by norm_num)
  have c2 : Apx 50.2 1 (fl (1 - fl (s' * s'))) (1 - s0 * s0) := by
    have : Apx 49.1 1 (1 - fl (s' * s')) (1 - s0 * s0) := by
      refine ⟨?_, ?_⟩
      · rw [show 1 - fl (s' * s') - (1 - s0 * s0) = -(fl (s' * s') - s0 * s0) by ring, abs_neg]
        have := s2.1
        rwa [one_mul] at this
      · rw [abs_le]; constructor <;> nlinarith [sq_nonneg s0, sq_nonneg c0]
    exact (this.round (by norm_num) (by norm_num) (by norm_num)).mono (by norm_num) (by norm_num) le_rfl
  generalize fl (1 - fl (s' * s')) = c2' at *
  generalize fl (s' * s') = s2' at *
  generalize fl (e.rmajor * e.rmajor) = a2' at *
  generalize fl (e.rminor * e.rminor) = b2' at *
  have A := cast (m' := 2 * (R * R)) (fadd (e3 := 53.6) (fmul (e3 := 52.5) a2 s2 (by norm_num) (by norm_num) (by norm_num) (by norm_num) (by linarith))
    (fmul (e3 := 52.5) b2 c2 (by norm_num) (by norm_num) (by norm_num) (by norm_num) (by linarith)) (by norm_num) (by norm_num) (by norm_num) (by norm_num) (by norm_num) (by linarith))
    (by ring) rfl
  have C := cast (m' := 2 * (R * R)) (fadd (e3 := 53.6) (fmul (e3 := 52.5) a2 c2 (by norm_num) (by norm_num) (by norm_num) (by norm_num) (by linarith))
    (fmul (e3 := 52.5) b2 s2 (by norm_num) (by norm_num) (by norm_num) (by norm_num) (by linarith)) (by norm_num) (by norm_num) (by norm_num) (by norm_num) (by norm_num) (by linarith))
    (by ring) rfl
  have B0 := fmul (e3 := 3.3) two (fsub (e3 := 2.2) b2 a2 (by norm_num) (by norm_num) (by norm_num) (by norm_num) (by norm_num) (by linarith))
    (by norm_num) (by norm_num) (by norm_num) (by norm_num) (by linarith)
  have B := cast (m' := 4 * (R * R)) (fmul (e3 := 53.6) (fmul (e3 := 28.4) B0 s (by norm_num) (by norm_num) (by norm_num) (by norm_num) (by linarith)) c
    (by norm_num) (by norm_num) (by norm_num) (by norm_num) (by linarith)) (by ring) rfl
  have ab := fmul (e3 := 3.3) a2 b2 (by norm_num) (by norm_num) (by norm_num) (by norm_num) (by nlinarith)
  generalize fl (fl (a2' * s2') + fl (b2' * c2')) = A' at *
  generalize fl (fl (a2' * c2') + fl (b2' * s2')) = C' at *
  generalize fl (fl (fl (2 * fl (b2' - a2')) * s') * c') = B' at *
  generalize fl (a2' * b2') = ab' at *
  generalize e.rmajor * e.rmajor * (s0 * s0) + e.rminor * e.rminor * (1 - s0 * s0) = A0 at *
  generalize e.rmajor * e.rmajor * (1 - s0 * s0) + e.rminor * e.rminor * (s0 * s0) = C0 at *
  generalize 2 * (e.rminor * e.rminor - e.rmajor * e.rmajor) * s0 * c0 = B00 at *
  generalize e.rmajor * e.rmajor * (e.rminor * e.rminor) = ab0 at *
  clear a2 b2 s2 c2 B0 hcs s c
  have D := cast (m' := 8 * (R * R * R)) (fsub (e3 := 57.1) (fmul (e3 := 56) (fmul (e3 := 54.8) mtwo A (by norm_num) (by norm_num) (by norm_num) (by norm_num) (by nlinarith)) x
    (by norm_num) (by norm_num) (by norm_num) (by norm_num) (by nlinarith))
    (fmul (e3 := 56) B y (by norm_num) (by norm_num) (by norm_num) (by norm_num) (by nlinarith)) (by norm_num) (by norm_num) (by norm_num) (by norm_num) (by norm_num) (by nlinarith))
    (by ring) rfl
  have E := cast (m' := 8 * (R * R * R)) (fsub (e3 := 57.1) (fmul (e3 := 56) B.neg x (by norm_num) (by norm_num) (by norm_num) (by norm_num) (by nlinarith))
    (fmul (e3 := 56) (fmul (e3 := 54.8) two C (by norm_num) (by norm_num) (by norm_num) (by norm_num) (by nlinarith)) y
    (by norm_num) (by norm_num) (by norm_num) (by norm_num) (by nlinarith)) (by norm_num) (by norm_num) (by norm_num) (by norm_num) (by norm_num) (by nlinarith))
    (by ring) rfl
  have quad : ∀ {x y : ℝ}, |x| ≤ R → |y| ≤ R → ∃ v, v = fl (fl (fl (fl (A' * x) * x) + fl (fl (B' * x) * y)) + fl (fl (C' * y) * y)) ∧
      Apx 58.1 (8 * (R * R * R * R)) v (A0 * x * x + B00 * x * y + C0 * y * y) := by
    intro x y hx hy
    have x := Apx.exact hx
    have y := Apx.exact hy
    refine ⟨_, rfl, ?_⟩
    have t1 := cast (m' := 2 * (R * R * R * R)) (fmul (e3 := 55.9) (fmul (e3 := 54.8) A x (by norm_num) (by norm_num) (by norm_num) (by norm_num) (by nlinarith)) x
      (by norm_num) (by norm_num) (by norm_num) (by norm_num) (by nlinarith)) (by ring) rfl
    have t2 := cast (m' := 4 * (R * R * R * R)) (fmul (e3 := 55.9) (fmul (e3 := 54.8) B x (by norm_num) (by norm_num) (by norm_num) (by norm_num) (by nlinarith)) y
      (by norm_num) (by norm_num) (by norm_num) (by norm_num) (by nlinarith)) (by ring) rfl
    have t3 := cast (m' := 2 * (R * R * R * R)) (fmul (e3 := 55.9) (fmul (e3 := 54.8) C y (by norm_num) (by norm_num) (by norm_num) (by norm_num) (by nlinarith)) y
      (by norm_num) (by norm_num) (by norm_num) (by norm_num) (by nlinarith)) (by ring) rfl
    have t4 := fadd (e3 := 57) t1 t2 (by norm_num) (by norm_num) (by norm_num) (by norm_num) (by norm_num) (by nlinarith)
    exact cast (fadd (e3 := 58.1) t4 t3 (by norm_num) (by norm_num) (by norm_num) (by norm_num) (by norm_num) (by nlinarith)) (by ring) rfl
  obtain ⟨v, hv, q1⟩ := quad hw.cx hw.cy
  obtain ⟨w, hw', q2⟩ := quad hx hy
  rw [← hv, ← hw']
  clear hv hw' quad
  have F := cast (m' := 9 * (R * R * R * R)) (fsub (e3 := 59.2) q1 ab (by norm_num) (by norm_num) (by norm_num) (by norm_num) (by norm_num) (by nlinarith)) (by ring) rfl
  have dx := cast (m' := 8 * (R * R * R * R)) (fmul (e3 := 58.2) D px (by norm_num) (by norm_num) (by norm_num) (by norm_num) (by nlinarith)) (by ring) rfl
  have ey := cast (m' := 8 * (R * R * R * R)) (fmul (e3 := 58.2) E py (by norm_num) (by norm_num) (by norm_num) (by norm_num) (by nlinarith)) (by ring) rfl
  have u1 := fadd (e3 := 59.3) q2 dx (by norm_num) (by norm_num) (by norm_num) (by norm_num) (by norm_num) (by nlinarith)
  have u2 := fadd (e3 := 60.4) u1 ey (by norm_num) (by norm_num) (by norm_num) (by norm_num) (by norm_num) (by nlinarith)
  have u3 := fadd (e3 := 61.5) u2 F (by norm_num) (by norm_num) (by norm_num) (by norm_num) (by norm_num) (by nlinarith)
  refine u3.1.trans ?_
  have e4 : R ^ 4 = R * R * R * R := by ring
  rw [e4]
  generalize R * R * R * R = Z at *
  norm_num
  linarith

end FEll

/-- **C139, closed interior.** `Ellipse.contains` in double precision, for an ellipse with center, axes and point bounded by `R`: the answer is right
for every point whose left member of the equation `(X/a)² + (Y/b)² = 1` is away from `1` by more than `R⁴ / (2 ^ 41 a² b²)`. -/
theorem C139_contains {M : MathLib} (hM : FEll.Accurate M) (e : Ellipse) (he : e.Valid) (ha : FEll.AngleOk e) {R : ℝ} (hR : 1 ≤ R)
    (hw : FEll.Within R e) (P : Pt) (hx : |P.x| ≤ R) (hy : |P.y| ≤ R)
    (hP : R ^ 4 / 2 ^ 41 < (e.rmajor * e.rminor) ^ 2 *
      |((axisCoord e.center e.rad P).x / e.rmajor) ^ 2 + ((axisCoord e.center e.rad P).y / e.rminor) ^ 2 - 1|) :
    e.containsF M P ↔ InEllipse e.center e.rmajor e.rminor e.rad P := by
  have h := FEll.eval_err hM ha hR hw hx hy
  rw [equation_eval he] at h
  rw [inEllipse_iff]
  have hp : 0 < (e.rmajor * e.rminor) ^ 2 := by have := mul_pos he.1 he.2; positivity
  change R ^ 4 / 2 ^ 41 < (e.rmajor * e.rminor) ^ 2 * |ellVal e.center e.rmajor e.rminor e.rad P| at hP
  unfold Ellipse.containsF
  generalize (e.equationF M).evalF P = v at *
  generalize ellVal e.center e.rmajor e.rminor e.rad P = z at *
  generalize (e.rmajor * e.rminor) ^ 2 = k at *
  generalize R ^ 4 / 2 ^ 41 = t at *
  obtain ⟨h1, h2⟩ := abs_le.1 h
  rcases le_or_gt z 0 with hz | hz
  · rw [abs_of_nonpos hz] at hP
    exact ⟨fun _ => hz, fun _ => by linarith⟩
  · rw [abs_of_pos hz] at hP
    exact ⟨fun hv => by linarith, fun hv => by linarith⟩

/-- The origin and the point `(4, 4)` for an ellipse turned by 30 degrees. -/
example {M : MathLib} (hM : FEll.Accurate M) : (⟨⟨0, 0⟩, 4, 2, 30, true⟩ : Ellipse).containsF M ⟨0, 0⟩ ∧
    ¬ (⟨⟨0, 0⟩, 4, 2, 30, true⟩ : Ellipse).containsF M ⟨4, 4⟩ := by
  have hw : FEll.Within 4 ⟨⟨0, 0⟩, 4, 2, 30, true⟩ := by constructor <;> norm_num [abs_of_pos]
  have ha : FEll.AngleOk ⟨⟨0, 0⟩, 4, 2, 30, true⟩ := by intro _; norm_num [abs_of_pos]
  have he : (⟨⟨0, 0⟩, 4, 2, 30, true⟩ : Ellipse).Valid := by constructor <;> norm_num
  have hq : 1 < ((axisCoord ⟨0, 0⟩ (⟨⟨0, 0⟩, 4, 2, 30, true⟩ : Ellipse).rad ⟨4, 4⟩).x / 4) ^ 2 +
      ((axisCoord ⟨0, 0⟩ (⟨⟨0, 0⟩, 4, 2, 30, true⟩ : Ellipse).rad ⟨4, 4⟩).y / 2) ^ 2 - 1 / 2 := by
    generalize (⟨⟨0, 0⟩, 4, 2, 30, true⟩ : Ellipse).rad = t
    unfold axisCoord
    dsimp only
    nlinarith [sin_sq_add_cos_sq t, sq_nonneg (Real.cos t - Real.sin t)]
  constructor
  · rw [C139_contains hM _ he ha (R := 4) (by norm_num) hw ⟨0, 0⟩ (by norm_num) (by norm_num) (by unfold axisCoord; norm_num)]
    unfold InEllipse axisCoord
    norm_num
  · rw [C139_contains hM _ he ha (R := 4) (by norm_num) hw ⟨4, 4⟩ (by norm_num [abs_of_pos]) (by norm_num [abs_of_pos])]
    · unfold InEllipse
      dsimp only
      intro h
      linarith
    · dsimp only
      rw [abs_of_pos (by linarith)]
      norm_num
      linarith

/-- **C139, boundary.** `Ellipse.includes` in double precision: a point which is accepted satisfies the equation times `(a b)²` up to `3e-9` and the
rounding errors; when the data are at most `6`, every point of the ellipse is accepted. -/
theorem C139_includes {M : MathLib} (hM : FEll.Accurate M) (e : Ellipse) (he : e.Valid) (ha : FEll.AngleOk e) {R : ℝ} (hR : 1 ≤ R)
    (hw : FEll.Within R e) (P : Pt) (hx : |P.x| ≤ R) (hy : |P.y| ≤ R) :
    (e.includesF M P → (e.rmajor * e.rminor) ^ 2 *
      |((axisCoord e.center e.rad P).x / e.rmajor) ^ 2 + ((axisCoord e.center e.rad P).y / e.rminor) ^ 2 - 1| ≤ 3 / 10 ^ 9 + R ^ 4 / 2 ^ 41) ∧
    (R ≤ 6 → OnEllipse e.center e.rmajor e.rminor e.rad P → e.includesF M P) := by
  have h := FEll.eval_err hM ha hR hw hx hy
  rw [equation_eval he] at h
  have hp : 0 < (e.rmajor * e.rminor) ^ 2 := by have := mul_pos he.1 he.2; positivity
  rw [onEllipse_iff he.1 he.2]
  change (e.includesF M P → (e.rmajor * e.rminor) ^ 2 * |ellVal e.center e.rmajor e.rminor e.rad P| ≤ 3 / 10 ^ 9 + R ^ 4 / 2 ^ 41) ∧ _
  rw [← abs_of_pos hp, ← abs_mul]
  unfold Ellipse.includesF
  generalize (e.equationF M).evalF P = v at *
  have f1 := FG.fl_err' (v + 1)
  have f2 := FG.fl_err' (fl (v + 1) - 1)
  have ht := FI.tiny_small
  constructor
  · intro hi
    have key : |v| ≤ 3 / 10 ^ 9 := by
      have t1 := FI.tol_mul 1
      have t2 := FI.tol_mul (fl (v + 1))
      have b1 : |v + 1| ≤ |v| + 1 := by have := abs_add_le v 1; rwa [abs_one] at this
      have b2 : |fl (v + 1)| ≤ |fl (v + 1) - (v + 1)| + |v + 1| := by
        have := abs_add_le (fl (v + 1) - (v + 1)) (v + 1)
        rwa [sub_add_cancel] at this
      have b3 : |v| ≤ |fl (v + 1) - 1| + |fl (v + 1) - (v + 1)| := by
        have := abs_sub (fl (v + 1) - 1) (fl (v + 1) - (v + 1))
        rwa [show fl (v + 1) - 1 - (fl (v + 1) - (v + 1)) = v by ring] at this
      have b4 : |fl (v + 1) - 1| ≤ |fl (fl (v + 1) - 1)| + |fl (fl (v + 1) - 1) - (fl (v + 1) - 1)| := by
        have := abs_sub (fl (fl (v + 1) - 1)) (fl (fl (v + 1) - 1) - (fl (v + 1) - 1))
        rwa [sub_sub_cancel] at this
      rw [abs_one] at t1
      have b5 : |fl (fl (v + 1) - 1)| ≤ 11 / 10 ^ 10 * (1 + |fl (v + 1)|) + 1 / 2 ^ 100 := by
        rcases hi with hi | hi | hi
        · rw [← hi, sub_self, _root_.fl_zero]
          norm_num
        · refine hi.trans (t2.trans ?_)
          have := abs_nonneg (fl (v + 1))
          linarith
        · refine hi.trans (t1.trans ?_)
          have := abs_nonneg (fl (v + 1))
          linarith
      unfold FG.tiny at *
      clear * - f1 f2 ht b1 b2 b3 b4 b5
      generalize (2 : ℝ) ^ (-1075 : ℤ) = t at *
      generalize |fl (fl (v + 1) - 1) - (fl (v + 1) - 1)| = w1 at *
      generalize |fl (fl (v + 1) - 1)| = w2 at *
      generalize |fl (v + 1) - (v + 1)| = w3 at *
      generalize |fl (v + 1) - 1| = w4 at *
      generalize |fl (v + 1)| = w5 at *
      generalize |v + 1| = w6 at *
      generalize |v| = w7 at *
      norm_num at *
      linarith
    have := abs_sub v (v - (e.rmajor * e.rminor) ^ 2 * ellVal e.center e.rmajor e.rminor e.rad P)
    rw [sub_sub_cancel] at this
    linarith
  · intro h6 hz
    rw [hz, mul_zero, sub_zero] at h
    have h4 : R ^ 4 ≤ 6 ^ 4 := pow_le_pow_left₀ (by linarith) h6 4
    have hv : |v| ≤ 6 / 10 ^ 10 := h.trans ((div_le_div_of_nonneg_right h4 (by norm_num)).trans (by norm_num))
    refine Or.inr (Or.inr ?_)
    rw [mul_one, fl_double (fl_isDouble _)]
    have t1 : 9 / 10 ^ 10 ≤ fl (1 / 10 ^ 9) := by
      have := FG.fl_err' (1 / 10 ^ 9)
      rw [abs_of_pos (by norm_num : (0 : ℝ) < 1 / 10 ^ 9)] at this
      have := (abs_le.1 this).1
      unfold FG.tiny at *
      generalize (2 : ℝ) ^ (-1075 : ℤ) = t at *
      norm_num at *
      linarith
    have a1 : |fl (1 / 10 ^ 9)| = fl (1 / 10 ^ 9) := abs_of_pos (by linarith)
    rw [a1]
    refine le_trans ?_ t1
    have b1 : |v + 1| ≤ |v| + 1 := by have := abs_add_le v 1; rwa [abs_one] at this
    have b3 : |fl (v + 1) - 1| ≤ |v| + |fl (v + 1) - (v + 1)| := by
      have := abs_add_le v (fl (v + 1) - (v + 1))
      rwa [show v + (fl (v + 1) - (v + 1)) = fl (v + 1) - 1 by ring] at this
    have b4 : |fl (fl (v + 1) - 1)| ≤ |fl (fl (v + 1) - 1) - (fl (v + 1) - 1)| + |fl (v + 1) - 1| := by
      have := abs_add_le (fl (fl (v + 1) - 1) - (fl (v + 1) - 1)) (fl (v + 1) - 1)
      rwa [sub_add_cancel] at this
    unfold FG.tiny at *
    clear * - f1 f2 ht b1 b3 b4 hv
    generalize (2 : ℝ) ^ (-1075 : ℤ) = t at *
    generalize |fl (fl (v + 1) - 1) - (fl (v + 1) - 1)| = w1 at *
    generalize |fl (fl (v + 1) - 1)| = w2 at *
    generalize |fl (v + 1) - (v + 1)| = w3 at *
    generalize |fl (v + 1) - 1| = w4 at *
    generalize |v + 1| = w6 at *
    generalize |v| = w7 at *
    norm_num at *
    linarith

/-- A point of an ellipse turned by 30 degrees is accepted, the center is not. -/
example {M : MathLib} (hM : FEll.Accurate M) : (⟨⟨0, 0⟩, 4, 2, 30, true⟩ : Ellipse).includesF M (ellipsePoint ⟨0, 0⟩ 4 2 (⟨⟨0, 0⟩, 4, 2, 30, true⟩ : Ellipse).rad 1) ∧
    ¬ (⟨⟨0, 0⟩, 4, 2, 30, true⟩ : Ellipse).includesF M ⟨0, 0⟩ := by
  have hw : FEll.Within 6 ⟨⟨0, 0⟩, 4, 2, 30, true⟩ := by constructor <;> norm_num [abs_of_pos]
  have ha : FEll.AngleOk ⟨⟨0, 0⟩, 4, 2, 30, true⟩ := by intro _; norm_num [abs_of_pos]
  have he : (⟨⟨0, 0⟩, 4, 2, 30, true⟩ : Ellipse).Valid := by constructor <;> norm_num
  constructor
  · refine (C139_includes hM _ he ha (R := 6) (by norm_num) hw _ ?_ ?_).2 le_rfl ⟨1, rfl⟩
    all_goals
      generalize (⟨⟨0, 0⟩, 4, 2, 30, true⟩ : Ellipse).rad = t
      unfold ellipsePoint
      dsimp only
      have b : ∀ u v : ℝ, |u| ≤ 1 → |v| ≤ 1 → |u * v| ≤ 1 := fun u v hu hv => by
        rw [abs_mul]; exact mul_le_one₀ hu (abs_nonneg _) hv
      have b1 := abs_le.1 (b _ _ (abs_cos_le_one 1) (abs_cos_le_one t))
      have b2 := abs_le.1 (b _ _ (abs_sin_le_one 1) (abs_sin_le_one t))
      have b3 := abs_le.1 (b _ _ (abs_cos_le_one 1) (abs_sin_le_one t))
      have b4 := abs_le.1 (b _ _ (abs_sin_le_one 1) (abs_cos_le_one t))
      rw [abs_le]
      constructor <;> linarith
  · intro h
    have := (C139_includes hM _ he ha (R := 6) (by norm_num) hw ⟨0, 0⟩ (by norm_num) (by norm_num)).1 h
    unfold axisCoord at this
    norm_num at this

namespace FEll

/-- Axes parallel to the coordinate axes: the functions of the library are exact at zero. -/
structure AtZero (M : MathLib) : Prop where
  cos : M.cos 0 = 1
  sin : M.sin 0 = 0

theorem IntB.const {A : ℕ} (n : ℤ) (h : |n| ≤ A) : IntB A (n : ℝ) := ⟨n, rfl, h⟩

/-- No rounding for integer data and axes parallel to the coordinate axes. -/
theorem eval_exact {M : MathLib} (hM : AtZero M) {e : Ellipse} (ha : e.alpha = 0) (hc : IntPt (2 ^ 11) e.center) (h1 : IntB (2 ^ 11) e.rmajor)
    (h2 : IntB (2 ^ 11) e.rminor) {P : Pt} (hP : IntPt (2 ^ 11) P) :
    (e.equationF M).evalF P = e.equation.eval P ∧ IntB (2 ^ 51) (e.equation.eval P) := by
  have hr : e.radF = 0 := by unfold Ellipse.radF; rw [ha, zero_mul, _root_.fl_zero]; simp
  unfold Ellipse.equationF Ellipse.equation
  unfold Coeffs.evalF Coeffs.eval
  dsimp only
  rw [hr, hM.cos, hM.sin, ha]
  simp only [zero_mul, ite_self, Real.sin_zero, Real.cos_zero, mul_zero, sub_zero, mul_one, sq, _root_.fl_zero, zero_add, add_zero, neg_zero, zero_sub]
  obtain ⟨cx, cy⟩ := hc
  obtain ⟨px, py⟩ := hP
  have one : IntB 1 (1 : ℝ) := ⟨1, by simp, by norm_num⟩
  have two : IntB 2 (2 : ℝ) := ⟨2, by simp, by norm_num⟩
  have mtwo : IntB 2 (-2 : ℝ) := ⟨-2, by simp, by norm_num⟩
  have a2 := FI.mul h1 h1
  have b2 := FI.mul h2 h2
  simp only [FI.fl one (by norm_num), FI.fl a2 (by norm_num), FI.fl b2 (by norm_num), mul_one]
  generalize e.rmajor * e.rmajor = a at *
  generalize e.rminor * e.rminor = b at *
  have d1 := FI.mul mtwo b2
  have d2 := FI.mul d1 cx
  have e1 := FI.mul two a2
  have e2 := FI.mul e1 cy
  have f1 := FI.mul b2 cx
  have f2 := FI.mul f1 cx
  have f3 := FI.mul a2 cy
  have f4 := FI.mul f3 cy
  have f5 := FI.mul a2 b2
  have f6 := FI.add f2 f4
  have f7 := FI.sub f6 f5
  have g1 := FI.mul b2 px
  have g2 := FI.mul g1 px
  have g3 := FI.mul a2 py
  have g4 := FI.mul g3 py
  have g5 := FI.add g2 g4
  have g6 := FI.mul d2 px
  have g7 := FI.add g5 g6
  have e3 := FI.neg e2
  have g8 := FI.mul e3 py
  have g9 := FI.add g7 g8
  have g10 := FI.add g9 f7
  simp only [FI.fl d1 (by norm_num), FI.fl d2 (by norm_num), FI.fl e1 (by norm_num), FI.fl e2 (by norm_num), FI.fl f1 (by norm_num), FI.fl f2 (by norm_num),
    FI.fl f3 (by norm_num), FI.fl f4 (by norm_num), FI.fl f5 (by norm_num), FI.fl f6 (by norm_num), FI.fl f7 (by norm_num), FI.fl g1 (by norm_num),
    FI.fl g2 (by norm_num), FI.fl g3 (by norm_num), FI.fl g4 (by norm_num), FI.fl g5 (by norm_num), FI.fl g6 (by norm_num), FI.fl g7 (by norm_num),
    FI.fl e3 (by norm_num), FI.fl g8 (by norm_num), FI.fl g9 (by norm_num), FI.fl g10 (by norm_num)]
  exact ⟨trivial, FI.mono g10 (by norm_num)⟩

end FEll

/-- **C139, integers.** For an ellipse with axes parallel to the coordinate axes, with integers of absolute value at most 2048 as coordinates of the
center and of the point and as lengths of the axes, the answers of `contains` and `includes` in double precision are the exact ones. -/
theorem C139_integers {M : MathLib} (hM : FEll.AtZero M) (e : Ellipse) (he : e.Valid) (ha : e.alpha = 0) (hc : IntPt (2 ^ 11) e.center)
    (h1 : IntB (2 ^ 11) e.rmajor) (h2 : IntB (2 ^ 11) e.rminor) (P : Pt) (hP : IntPt (2 ^ 11) P) :
    (e.containsF M P ↔ InEllipse e.center e.rmajor e.rminor 0 P) ∧ (e.includesF M P ↔ OnEllipse e.center e.rmajor e.rminor 0 P) := by
  obtain ⟨hv, hi⟩ := FEll.eval_exact hM ha hc h1 h2 hP
  have hr : e.rad = 0 := by unfold Ellipse.rad; rw [ha]; simp
  have hE := C64_equation e he P
  rw [OnE, hr] at hE
  unfold Ellipse.containsF Ellipse.includesF
  rw [hv]
  refine ⟨hE.2.1, ?_⟩
  rw [← hE.1]
  generalize e.equation.eval P = v at *
  have one : IntB 1 (1 : ℝ) := ⟨1, by simp, by norm_num⟩
  have v1 := FI.add hi one
  have v2 := FI.sub v1 one
  unfold iscloseF
  rw [FI.fl v1 (by norm_num), FI.fl v2 (by norm_num), add_sub_cancel_right]
  constructor
  · intro h
    by_contra h0
    have k0 := FI.one_le_abs hi h0
    have t1 := FI.tol_mul 1
    have t2 := FI.tol_mul (v + 1)
    have b1 : |v + 1| ≤ |v| + 1 := by have := abs_add_le v 1; rwa [abs_one] at this
    rw [abs_one] at t1
    rcases h with h | h | h
    · exact h0 (by linarith)
    · generalize |fl (fl (1 / 10 ^ 9) * (v + 1))| = w at *
      generalize |v + 1| = w1 at *
      generalize |v| = w2 at *
      clear * - h t2 b1 k0
      norm_num at *
      linarith
    · generalize |fl (fl (1 / 10 ^ 9) * 1)| = w at *
      generalize |v| = w2 at *
      clear * - h t1 k0
      norm_num at *
      linarith
  · intro h
    left
    rw [h, zero_add]

/-- The point `(3, 8)` is on the ellipse of center `(3, 4)` with axes `7` and `4`, the point `(4, 8)` is outside. -/
example {M : MathLib} (hM : FEll.AtZero M) : (⟨⟨3, 4⟩, 7, 4, 0, true⟩ : Ellipse).includesF M ⟨3, 8⟩ ∧ ¬ (⟨⟨3, 4⟩, 7, 4, 0, true⟩ : Ellipse).containsF M ⟨4, 8⟩ := by
  have he : (⟨⟨3, 4⟩, 7, 4, 0, true⟩ : Ellipse).Valid := by constructor <;> norm_num
  have i3 : IntB (2 ^ 11) (3 : ℝ) := ⟨3, by norm_num, by norm_num⟩
  have i4 : IntB (2 ^ 11) (4 : ℝ) := ⟨4, by norm_num, by norm_num⟩
  have i7 : IntB (2 ^ 11) (7 : ℝ) := ⟨7, by norm_num, by norm_num⟩
  have i8 : IntB (2 ^ 11) (8 : ℝ) := ⟨8, by norm_num, by norm_num⟩
  constructor
  · rw [(C139_integers hM _ he rfl ⟨i3, i4⟩ i7 i4 ⟨3, 8⟩ ⟨i3, i8⟩).2, onEllipse_iff (by norm_num) (by norm_num)]
    unfold ellVal axisCoord
    norm_num
  · rw [(C139_integers hM _ he rfl ⟨i3, i4⟩ i7 i4 ⟨4, 8⟩ ⟨i4, i8⟩).1]
    unfold InEllipse axisCoord
    norm_num

/-- **C139, counterexample.** With integers above the bound the answers may be wrong: the point `(21999, 29332)` of the circle of radius `36665`, given as an
ellipse, is found neither in the closed interior nor on the ellipse. -/
theorem C139_counterexample {M : MathLib} (hM : FEll.AtZero M) :
    OnEllipse ⟨0, 0⟩ 36665 36665 0 ⟨21999, 29332⟩ ∧ ¬ (⟨⟨0, 0⟩, 36665, 36665, 0, true⟩ : Ellipse).containsF M ⟨21999, 29332⟩ ∧
    ¬ (⟨⟨0, 0⟩, 36665, 36665, 0, true⟩ : Ellipse).includesF M ⟨21999, 29332⟩ := by
  have int : ∀ n : ℤ, |n| ≤ 2 ^ 53 → fl (n : ℝ) = n := fun n h => FI.fl (A := 2 ^ 53) ⟨n, rfl, by exact_mod_cast h⟩ le_rfl
  have hv : ((⟨⟨0, 0⟩, 36665, 36665, 0, true⟩ : Ellipse).equationF M).evalF ⟨21999, 29332⟩ = 256 := by
    have hr : (⟨⟨0, 0⟩, 36665, 36665, 0, true⟩ : Ellipse).radF = 0 := by unfold Ellipse.radF; simp [_root_.fl_zero]
    unfold Ellipse.equationF Coeffs.evalF
    dsimp only
    rw [hr, hM.cos, hM.sin]
    simp only [zero_mul, mul_zero, sub_zero, mul_one, _root_.fl_zero, zero_add, add_zero, sub_self, zero_sub, neg_zero]
    have i1 : fl (1 : ℝ) = 1 := by exact_mod_cast int 1 (by norm_num)
    have i2 : fl ((36665 : ℝ) * 36665) = 1344322225 := by rw [show (36665 : ℝ) * 36665 = (1344322225 : ℤ) by norm_num, int _ (by norm_num)]; norm_num
    have i3 : fl (1344322225 : ℝ) = 1344322225 := by exact_mod_cast int 1344322225 (by norm_num)
    have i4 : fl ((1344322225 : ℝ) * 21999) = 29573744627775 := by
      rw [show (1344322225 : ℝ) * 21999 = (29573744627775 : ℤ) by norm_num, int _ (by norm_num)]; norm_num
    have i5 : fl ((1344322225 : ℝ) * 29332) = 39431659503700 := by
      rw [show (1344322225 : ℝ) * 29332 = (39431659503700 : ℤ) by norm_num, int _ (by norm_num)]; norm_num
    have i6 : fl ((29573744627775 : ℝ) * 21999) = (5082756313018924 : ℤ) * 2 ^ (7 : ℤ) := by
      apply fl_eval <;> norm_num [abs_of_pos, abs_lt]
    have i7 : fl ((39431659503700 : ℝ) * 29332) = (4518005611572377 : ℤ) * 2 ^ (8 : ℤ) := by
      apply fl_eval <;> norm_num [abs_of_pos, abs_lt]
    have i8 : fl ((1344322225 : ℝ) * 1344322225) = (7059383768081838 : ℤ) * 2 ^ (8 : ℤ) := by
      apply fl_eval <;> norm_num [abs_of_pos, abs_lt]
    have i9 : fl (((5082756313018924 : ℤ) : ℝ) * 2 ^ (7 : ℤ) + (4518005611572377 : ℤ) * 2 ^ (8 : ℤ)) = (7059383768081839 : ℤ) * 2 ^ (8 : ℤ) := by
      apply fl_eval <;> norm_num [abs_of_pos, abs_lt]
    have j1 : fl (((7059383768081839 : ℤ) : ℝ) * 2 ^ (8 : ℤ)) = (7059383768081839 : ℤ) * 2 ^ (8 : ℤ) := by rw [← i9, fl_double (fl_isDouble _)]
    have j2 : fl (-(((7059383768081838 : ℤ) : ℝ) * 2 ^ (8 : ℤ))) = -((7059383768081838 : ℤ) * 2 ^ (8 : ℤ)) := by
      rw [show -(((7059383768081838 : ℤ) : ℝ) * 2 ^ (8 : ℤ)) = ((-7059383768081838 : ℤ) : ℝ) * 2 ^ (8 : ℤ) by push_cast; ring]
      exact fl_double ⟨-7059383768081838, 8, by norm_num, by norm_num, rfl⟩
    have j3 : fl (((7059383768081839 : ℤ) : ℝ) * 2 ^ (8 : ℤ) + -((7059383768081838 : ℤ) * 2 ^ (8 : ℤ))) = 256 := by
      rw [show ((7059383768081839 : ℤ) : ℝ) * 2 ^ (8 : ℤ) + -((7059383768081838 : ℤ) * 2 ^ (8 : ℤ)) = (256 : ℤ) by norm_num, int _ (by norm_num)]
      norm_num
    have j0 : fl (((5082756313018924 : ℤ) : ℝ) * 2 ^ (7 : ℤ)) = (5082756313018924 : ℤ) * 2 ^ (7 : ℤ) := by rw [← i6, fl_double (fl_isDouble _)]
    simp only [i1, i2, i3, mul_one, i4, i5, i6, i7, i8, j0, i9, j1, j2, j3]
  refine ⟨?_, ?_, ?_⟩
  · rw [onEllipse_iff (by norm_num) (by norm_num)]
    unfold ellVal axisCoord
    norm_num
  · unfold Ellipse.containsF
    rw [hv]
    norm_num
  · unfold Ellipse.includesF iscloseF
    have k1 : fl ((256 : ℝ) + 1) = 257 := by rw [show (256 : ℝ) + 1 = (257 : ℤ) by norm_num, int _ (by norm_num)]; norm_num
    have k2 : fl ((257 : ℝ) - 1) = 256 := by rw [show (257 : ℝ) - 1 = (256 : ℤ) by norm_num, int _ (by norm_num)]; norm_num
    rw [hv, k1, k2]
    have t1 := FI.tol_mul 1
    have t2 := FI.tol_mul 257
    rw [abs_of_pos (by norm_num : (0 : ℝ) < 256)]
    rw [abs_of_pos (by norm_num : (0 : ℝ) < 257)] at t2
    rw [abs_one] at t1
    rintro (h | h | h)
    · norm_num at h
    · have := h.trans t2
      norm_num at this
    · have := h.trans t1
      norm_num at this

/-- The exact functions are accurate and exact at zero. -/
example : FEll.Accurate ⟨atan2, Real.cos, Real.sin⟩ ∧ FEll.AtZero ⟨atan2, Real.cos, Real.sin⟩ :=
  ⟨⟨fun t => by norm_num, fun t => by norm_num⟩, ⟨Real.cos_zero, Real.sin_zero⟩⟩
