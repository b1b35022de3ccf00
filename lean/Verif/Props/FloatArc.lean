import Verif.Model.FloatArc
import Verif.Props.FloatEllipsePath

/-!
# C142: the path of an arc in double precision
-/

open Spec Real Classical FG FT

namespace FArc

/-- The angle of the arc in radians. -/
noncomputable def rad (a : Arc) (alpha : ℝ) : ℝ := if a.degrees = true then alpha * π / 180 else alpha

/-- The angle is at most one turn. -/
def AngleOk (a : Arc) (alpha : ℝ) : Prop := (a.degrees = true → |alpha| ≤ 360) ∧ (a.degrees ≠ true → |alpha| ≤ 6.2832)

theorem flB {x B : ℝ} (h : |x| ≤ B) (hB : 1 / 2 ^ 60 ≤ B) : |fl x - x| ≤ 1.01 / 2 ^ 53 * B := by
  have := (Apx.exact h).round le_rfl (by norm_num) hB
  rw [zero_add] at this
  exact this.1.trans (le_of_eq (by norm_num))

theorem two_pi_err : |2 * piF - 2 * π| ≤ 6.4 / 2 ^ 53 := by
  rw [← mul_sub, abs_mul, abs_two]
  have := FEll.pi_apx.1
  norm_num at *
  linarith

theorem two_pi_val : 6.28 < 2 * piF ∧ 2 * piF < 6.2832 := by
  rw [FOO.piF_eq]
  norm_num

/-- Reduction of an angle. -/
theorem mod_near {x : ℝ} (h : |x| ≤ 6.29) :
    ∃ j : ℤ, |pyModF x (fl (2 * piF)) - (x - 2 * π * j)| ≤ 20 / 2 ^ 53 ∧ 0 ≤ pyModF x (fl (2 * piF)) ∧ pyModF x (fl (2 * piF)) ≤ 2 * piF := by
  have hm := FLE.two_pi
  rw [hm]
  obtain ⟨m1, m2⟩ := two_pi_val
  have tp := abs_le.1 two_pi_err
  have hx := abs_le.1 h
  have h0 := FLE.mod_nonneg x (m := 2 * piF) (by linarith)
  generalize 2 * piF = m at *
  rcases le_or_gt 0 x with x0 | x0
  · rcases lt_or_ge x m with x1 | x1
    · refine ⟨0, ?_, h0, ?_⟩ <;> rw [FLE.mod_small x0 x1]
      · norm_num
      · exact x1.le
    · refine ⟨1, ?_, h0, ?_⟩ <;> rw [FLE.mod_ge x1 (by linarith)]
      · rw [abs_le]
        push_cast
        norm_num at *
        constructor <;> linarith
      · linarith
  · rcases lt_or_ge (-m) x with x1 | x1
    · have f := abs_le.1 (flB (x := x + m) (B := 6.2832) (by rw [abs_le]; constructor <;> linarith) (by norm_num))
      refine ⟨-1, ?_, h0, ?_⟩ <;> rw [FLE.mod_neg x0 x1]
      · rw [abs_le]
        push_cast
        norm_num at *
        constructor <;> linarith
      · exact (fl_mono (by linarith)).trans hm.le
    · have e : fmod x m = x + m := by
        unfold fmod pyMod
        have : ⌊-x / m⌋ = 1 := by
          rw [Int.floor_eq_iff]
          constructor
          · rw [Int.cast_one, one_le_div (by linarith)]; linarith
          · rw [div_lt_iff₀ (by linarith)]; push_cast; linarith
        rw [if_neg (not_le.2 x0), this]
        push_cast
        ring
      unfold pyModF at h0 ⊢
      rw [e] at h0 ⊢
      by_cases hn : x + m < 0
      · rw [if_pos hn] at h0 ⊢
        have f := abs_le.1 (flB (x := x + m + m) (B := 6.2832) (by rw [abs_le]; constructor <;> linarith) (by norm_num))
        refine ⟨-2, ?_, h0, ?_⟩
        · rw [abs_le]
          push_cast
          norm_num at *
          constructor <;> linarith
        · exact (fl_mono (by linarith)).trans hm.le
      · rw [if_neg hn] at h0 ⊢
        refine ⟨-1, ?_, h0, by linarith⟩
        rw [abs_le]
        push_cast
        norm_num at *
        constructor <;> linarith

theorem angle_near (a : Arc) {alpha : ℝ} (h : AngleOk a alpha) :
    ∃ j : ℤ, |a.angleF alpha - (rad a alpha - 2 * π * j)| ≤ 40 / 2 ^ 53 ∧ 0 ≤ a.angleF alpha ∧ a.angleF alpha ≤ 2 * piF := by
  have e1 : |(if a.degrees = true then fl (fl (alpha * piF) / 180) else alpha) - rad a alpha| ≤ 20 / 2 ^ 53 := by
    unfold rad
    by_cases hd : a.degrees = true
    · rw [if_pos hd, if_pos hd]
      have q1 := FEll.fmul (e3 := 2.03) (Apx.exact (h.1 hd)) FEll.pi_apx le_rfl (by norm_num) (by norm_num) (by norm_num) (by norm_num)
      have q2 := (FEll.divNat q1 (n := 180) (by norm_num)).round (by norm_num) (by norm_num) (by norm_num)
      exact q2.1.trans (by norm_num)
    · rw [if_neg hd, if_neg hd, sub_self, abs_zero]
      norm_num
  have r1 : |rad a alpha| ≤ 6.2832 := by
    unfold rad
    by_cases hd : a.degrees = true
    · rw [if_pos hd, abs_div, abs_mul, abs_of_pos pi_pos, abs_of_pos (by norm_num : (0 : ℝ) < 180), div_le_iff₀ (by norm_num)]
      have := mul_le_mul (h.1 hd) Real.pi_lt_d4.le pi_pos.le (by norm_num)
      exact this.trans (by norm_num)
    · rw [if_neg hd]
      exact h.2 hd
  have e2 : |if a.degrees = true then fl (fl (alpha * piF) / 180) else alpha| ≤ 6.29 := by
    have := abs_le.1 e1
    have := abs_le.1 r1
    rw [abs_le]
    norm_num at *
    constructor <;> linarith
  obtain ⟨j, h1, h2, h3⟩ := mod_near e2
  refine ⟨j, ?_, h2, h3⟩
  unfold Arc.angleF
  generalize (if a.degrees = true then fl (fl (alpha * piF) / 180) else alpha) = x at *
  have := abs_le.1 e1
  have := abs_le.1 h1
  rw [abs_le]
  norm_num at *
  constructor <;> linarith

theorem sweep_near (a : Arc) (h1 : AngleOk a a.alpha1) (h2 : AngleOk a a.alpha2) :
    (∃ j : ℤ, |rad a a.alpha1 + a.sweepF - rad a a.alpha2 - 2 * π * j| ≤ 100 / 2 ^ 53) ∧ 0 ≤ a.sweepF ∧ a.sweepF ≤ 2 * piF := by
  obtain ⟨j1, u1, u2, u3⟩ := angle_near a h1
  obtain ⟨j2, v1, v2, v3⟩ := angle_near a h2
  have u := abs_le.1 u1
  have v := abs_le.1 v1
  obtain ⟨m1, m2⟩ := two_pi_val
  have f := abs_le.1 (flB (x := a.angleF a.alpha2 - a.angleF a.alpha1) (B := 6.29) (by rw [abs_le]; constructor <;> linarith) (by norm_num))
  have tp := abs_le.1 two_pi_err
  unfold Arc.sweepF
  dsimp only
  rw [FLE.two_pi]
  have lo : -(2 * piF) ≤ fl (a.angleF a.alpha2 - a.angleF a.alpha1) := by
    have := fl_mono (show -(2 * piF) ≤ a.angleF a.alpha2 - a.angleF a.alpha1 by linarith)
    rwa [fl_neg, FLE.two_pi] at this
  have hi : fl (a.angleF a.alpha2 - a.angleF a.alpha1) ≤ 2 * piF := by
    have := fl_mono (show a.angleF a.alpha2 - a.angleF a.alpha1 ≤ 2 * piF by linarith)
    rwa [FLE.two_pi] at this
  generalize fl (a.angleF a.alpha2 - a.angleF a.alpha1) = d at *
  by_cases hd : d < 0
  · rw [if_pos hd]
    have g := abs_le.1 (flB (x := d + 2 * piF) (B := 6.2832) (by rw [abs_le]; norm_num at *; constructor <;> linarith) (by norm_num))
    refine ⟨⟨j1 - j2 + 1, ?_⟩, ?_, ?_⟩
    · rw [abs_le]
      push_cast
      norm_num at *
      constructor <;> linarith
    · exact fl_nonneg (by linarith)
    · exact (fl_mono (by linarith)).trans FLE.two_pi.le
  · rw [if_neg hd]
    refine ⟨⟨j1 - j2, ?_⟩, not_lt.1 hd, hi⟩
    rw [abs_le]
    push_cast
    norm_num at *
    constructor <;> linarith

/-- The entries of `linspace`. -/
theorem linspace_near {s : ℝ} (h0 : 0 ≤ s) (h1 : s ≤ 6.2832) {n i : ℕ} (hn : n ≤ 2 ^ 50) (hi : i < n) :
    |linspaceToF s n i - s * i / (n - 1 : ℕ)| ≤ 13 / 2 ^ 53 ∧ |s * i / (n - 1 : ℕ)| ≤ 6.2832 := by
  unfold linspaceToF
  by_cases g1 : n ≤ 1
  · have : i = 0 := by omega
    rw [if_pos g1, this]
    norm_num
  have k0 : (0 : ℝ) < (n - 1 : ℕ) := by exact_mod_cast (show 0 < n - 1 by omega)
  have k1 : ((n - 1 : ℕ) : ℝ) ≤ 2 ^ 50 := by exact_mod_cast (show n - 1 ≤ 2 ^ 50 by omega)
  have ik : (i : ℝ) ≤ (n - 1 : ℕ) := by exact_mod_cast (show i ≤ n - 1 by omega)
  have i0 : (0 : ℝ) ≤ i := Nat.cast_nonneg i
  have sb : |s * i / (n - 1 : ℕ)| ≤ 6.2832 := by
    rw [abs_of_nonneg (by positivity), div_le_iff₀ k0]
    exact mul_le_mul h1 ik i0 (by norm_num)
  refine ⟨?_, sb⟩
  rw [if_neg g1]
  by_cases g2 : i = n - 1
  · rw [if_pos g2, g2, mul_div_assoc, div_self k0.ne', mul_one, sub_self, abs_zero]
    norm_num
  rw [if_neg g2]
  dsimp only
  have as : Apx 0 6.2832 s s := Apx.exact (by rw [abs_of_nonneg h0]; exact h1)
  generalize ((n - 1 : ℕ) : ℝ) = k at *
  by_cases g3 : fl (s / k) = 0
  · rw [if_pos g3]
    have q1 : Apx 1.01 1 (fl (i / k)) (i / k) := by
      have := (Apx.exact (m := 1) (x := i / k) (by rw [abs_of_nonneg (by positivity), div_le_one k0]; exact ik)).round le_rfl (by norm_num) (by norm_num)
      exact this.mono (by norm_num) (by norm_num) le_rfl
    have q2 := FEll.fmul (e3 := 2.03) q1 as (by norm_num) le_rfl (by norm_num) (by norm_num) (by norm_num)
    have := q2.1
    rw [show s * i / k = i / k * s by ring]
    exact this.trans (by norm_num)
  · rw [if_neg g3]
    have q2 := (FEll.divNat as k0).round (by norm_num) (by norm_num) (by
      rw [le_div_iff₀ k0]
      refine (mul_le_mul_of_nonneg_left k1 (by norm_num)).trans (by norm_num))
    have q3 : Apx 1.01 6.2832 (i * fl (s / k)) (s * i / k) := by
      refine ⟨?_, sb⟩
      rw [show (i : ℝ) * fl (s / k) - s * i / k = i * (fl (s / k) - s / k) by ring, abs_mul, Nat.abs_cast]
      refine (mul_le_mul ik q2.1 (abs_nonneg _) k0.le).trans (le_of_eq ?_)
      field_simp
      norm_num
    have q4 := q3.round (by norm_num) (by norm_num) (by norm_num)
    exact q4.1.trans (by norm_num)

/-- A point of a circle from an approximate angle. -/
theorem point_near {N : MathLib} (hN : FEll.Accurate N) {R o r t' t : ℝ} (hR : 1 ≤ R) (ho : |o| ≤ R) (hr : |r| ≤ R) (ht : |t' - t| ≤ 66 / 2 ^ 53) :
    |fl (o + fl (r * N.cos t')) - (o + r * Real.cos t)| ≤ 150 / 2 ^ 53 * R ∧ |fl (o + fl (r * N.sin t')) - (o + r * Real.sin t)| ≤ 150 / 2 ^ 53 * R := by
  have c : Apx 70 1 (N.cos t') (Real.cos t) := by
    refine ⟨(abs_sub_le _ (Real.cos t') _).trans ((add_le_add (hN.cos t') ((FLE.cos_lip t' t).trans ht)).trans ?_), Real.abs_cos_le_one _⟩
    norm_num
  have s : Apx 70 1 (N.sin t') (Real.sin t) := by
    refine ⟨(abs_sub_le _ (Real.sin t') _).trans ((add_le_add (hN.sin t') ((FLE.sin_lip t' t).trans ht)).trans ?_), Real.abs_sin_le_one _⟩
    norm_num
  have hm : 72.5 / 2 ^ 53 * (R + R * 1) ≤ 150 / 2 ^ 53 * R := by
    norm_num
    linarith
  constructor
  · exact (FEll.fadd (e3 := 72.5) (Apx.exact ho) (FEll.fmul (e3 := 71.1) (Apx.exact hr) c (by norm_num) (by norm_num) (by norm_num) (by norm_num) (by linarith))
      (by norm_num) (by norm_num) (by norm_num) (by norm_num) (by norm_num) (by linarith)).1.trans hm
  · exact (FEll.fadd (e3 := 72.5) (Apx.exact ho) (FEll.fmul (e3 := 71.1) (Apx.exact hr) s (by norm_num) (by norm_num) (by norm_num) (by norm_num) (by linarith))
      (by norm_num) (by norm_num) (by norm_num) (by norm_num) (by norm_num) (by linarith)).1.trans hm

end FArc

/-- **C142.** The rows of `Arc.path` in double precision, for center and radius bounded by `R` and angles of at most one turn: there is a sweep `s` of at most
one turn, equal to the difference of the two angles up to multiples of `2π` and an error `100 / 2 ^ 53`, such that row `i` of `n` differs from the point of the
circle of polar angle `alpha1 + s i / (n - 1)` by at most `150 R / 2 ^ 53` in each coordinate. -/
theorem C142_path {N : MathLib} (hN : FEll.Accurate N) (a : Arc) (h1 : FArc.AngleOk a a.alpha1) (h2 : FArc.AngleOk a a.alpha2) {R : ℝ} (hR : 1 ≤ R)
    (hx : |a.center.x| ≤ R) (hy : |a.center.y| ≤ R) (hr : |a.radius| ≤ R) :
    ∃ s : ℝ, 0 ≤ s ∧ s ≤ 2 * piF ∧ (∃ j : ℤ, |FArc.rad a a.alpha1 + s - FArc.rad a a.alpha2 - 2 * π * j| ≤ 100 / 2 ^ 53) ∧
      ∀ n i : ℕ, n ≤ 2 ^ 50 → i < n →
        |(a.pathPointF N n i).x - (a.center.x + a.radius * Real.cos (FArc.rad a a.alpha1 + s * i / (n - 1 : ℕ)))| ≤ 150 / 2 ^ 53 * R ∧
        |(a.pathPointF N n i).y - (a.center.y + a.radius * Real.sin (FArc.rad a a.alpha1 + s * i / (n - 1 : ℕ)))| ≤ 150 / 2 ^ 53 * R := by
  obtain ⟨hs, s0, s1⟩ := FArc.sweep_near a h1 h2
  refine ⟨a.sweepF, s0, s1, hs, fun n i hn hi => ?_⟩
  obtain ⟨m1, m2⟩ := FArc.two_pi_val
  obtain ⟨j, u1, u2, u3⟩ := FArc.angle_near a h1
  obtain ⟨l1, l2⟩ := FArc.linspace_near s0 (by linarith) hn hi
  have ht : |fl (a.angleF a.alpha1 + linspaceToF a.sweepF n i) - (FArc.rad a a.alpha1 + a.sweepF * i / (n - 1 : ℕ) - j * (2 * π))| ≤ 66 / 2 ^ 53 := by
    have := abs_le.1 u1
    have := abs_le.1 l1
    have := abs_le.1 l2
    have f := abs_le.1 (FArc.flB (x := a.angleF a.alpha1 + linspaceToF a.sweepF n i) (B := 12.6) (by
      rw [abs_le]
      norm_num at *
      constructor <;> linarith) (by norm_num))
    rw [abs_le]
    norm_num at *
    constructor <;> linarith
  have X := (FArc.point_near hN hR hx hr ht).1
  have Y := (FArc.point_near hN hR hy hr ht).2
  rw [Real.cos_sub_int_mul_two_pi] at X
  rw [Real.sin_sub_int_mul_two_pi] at Y
  exact ⟨X, Y⟩

-- Three quarters of a circle: the last row has the abscissa of the polar angle of 270 degrees, up to the errors.
example {N : MathLib} (hN : FEll.Accurate N) : ∃ s : ℝ, (∃ j : ℤ, |s - 3 * π / 2 - 2 * π * j| ≤ 100 / 2 ^ 53) ∧
    |((⟨⟨1, 2⟩, 2, 0, 270, true⟩ : Arc).pathPointF N 100 99).x - (1 + 2 * Real.cos s)| ≤ 300 / 2 ^ 53 := by
  have h1 : FArc.AngleOk ⟨⟨1, 2⟩, 2, 0, 270, true⟩ 0 := ⟨by norm_num, by norm_num⟩
  have h2 : FArc.AngleOk ⟨⟨1, 2⟩, 2, 0, 270, true⟩ 270 := ⟨by norm_num [abs_of_pos], by norm_num⟩
  obtain ⟨s, -, -, ⟨j, hj⟩, h⟩ := C142_path hN ⟨⟨1, 2⟩, 2, 0, 270, true⟩ h1 h2 (R := 2) (by norm_num) (by norm_num) (by norm_num) (by norm_num)
  have e1 : FArc.rad ⟨⟨1, 2⟩, 2, 0, 270, true⟩ 0 = 0 := by unfold FArc.rad; rw [if_pos rfl]; ring
  have e2 : FArc.rad ⟨⟨1, 2⟩, 2, 0, 270, true⟩ 270 = 3 * π / 2 := by unfold FArc.rad; rw [if_pos rfl]; ring
  refine ⟨s, ⟨j, ?_⟩, ?_⟩
  · dsimp only at hj
    rw [e1, e2, zero_add] at hj
    exact hj
  · have := (h 100 99 (by norm_num) (by norm_num)).1
    dsimp only at this
    rw [e1, zero_add] at this
    norm_num at this ⊢
    exact this

/-- **C142, ends.** The first row of the path is within `150 R / 2 ^ 53` of the starting point of the arc in exact arithmetic, and the last of at least two rows
is within `250 R / 2 ^ 53` of the ending point. -/
theorem C142_ends {N : MathLib} (hN : FEll.Accurate N) (a : Arc) (h1 : FArc.AngleOk a a.alpha1) (h2 : FArc.AngleOk a a.alpha2) {R : ℝ} (hR : 1 ≤ R)
    (hx : |a.center.x| ≤ R) (hy : |a.center.y| ≤ R) (hr : |a.radius| ≤ R) (n : ℕ) (hn : n ≤ 2 ^ 50) :
    (1 ≤ n → |(a.pathPointF N n 0).x - a.starting_point.x| ≤ 150 / 2 ^ 53 * R ∧ |(a.pathPointF N n 0).y - a.starting_point.y| ≤ 150 / 2 ^ 53 * R) ∧
    (2 ≤ n → |(a.pathPointF N n (n - 1)).x - a.ending_point.x| ≤ 250 / 2 ^ 53 * R ∧
      |(a.pathPointF N n (n - 1)).y - a.ending_point.y| ≤ 250 / 2 ^ 53 * R) := by
  obtain ⟨s, -, -, ⟨j, hj⟩, h⟩ := C142_path hN a h1 h2 hR hx hy hr
  have e1 : a.starting_point = ⟨a.center.x + a.radius * Real.cos (FArc.rad a a.alpha1), a.center.y + a.radius * Real.sin (FArc.rad a a.alpha1)⟩ := by
    unfold Arc.starting_point FArc.rad unit_vector_
    dsimp only
    rw [mul_div_assoc]
    rfl
  have e2 : a.ending_point = ⟨a.center.x + a.radius * Real.cos (FArc.rad a a.alpha2), a.center.y + a.radius * Real.sin (FArc.rad a a.alpha2)⟩ := by
    unfold Arc.ending_point FArc.rad unit_vector_
    dsimp only
    rw [mul_div_assoc]
    rfl
  constructor
  · intro hn1
    have := h n 0 hn (by omega)
    rw [Nat.cast_zero, mul_zero, zero_div, add_zero] at this
    rw [e1]
    exact this
  · intro hn2
    have k0 : (0 : ℝ) < (n - 1 : ℕ) := by exact_mod_cast (show 0 < n - 1 by omega)
    have w := h n (n - 1) hn (by omega)
    rw [mul_div_assoc, div_self k0.ne', mul_one] at w
    rw [e2]
    have ht : |FArc.rad a a.alpha1 + s - j * (2 * π) - FArc.rad a a.alpha2| ≤ 100 / 2 ^ 53 := by
      rw [show FArc.rad a a.alpha1 + s - j * (2 * π) - FArc.rad a a.alpha2 = FArc.rad a a.alpha1 + s - FArc.rad a a.alpha2 - 2 * π * j by ring]
      exact hj
    have c := (FLE.cos_lip _ _).trans ht
    have d := (FLE.sin_lip _ _).trans ht
    rw [Real.cos_sub_int_mul_two_pi] at c
    rw [Real.sin_sub_int_mul_two_pi] at d
    have step : ∀ {o x u v : ℝ}, |x - (o + a.radius * u)| ≤ 150 / 2 ^ 53 * R → |u - v| ≤ 100 / 2 ^ 53 → |x - (o + a.radius * v)| ≤ 250 / 2 ^ 53 * R := by
      intro o x u v p q
      have r := mul_le_mul hr q (abs_nonneg _) (by linarith)
      rw [← abs_mul] at r
      have t := abs_add_le (x - (o + a.radius * u)) (a.radius * (u - v))
      rw [show x - (o + a.radius * u) + a.radius * (u - v) = x - (o + a.radius * v) by ring] at t
      refine t.trans ((add_le_add p r).trans (le_of_eq ?_))
      ring
    exact ⟨step w.1 c, step w.2 d⟩

-- The quarter of the unit circle: the last of ten rows is near `(0, 1)`.
example {N : MathLib} (hN : FEll.Accurate N) : |((⟨⟨0, 0⟩, 1, 0, 90, true⟩ : Arc).pathPointF N 10 9).x| ≤ 250 / 2 ^ 53 ∧
    |((⟨⟨0, 0⟩, 1, 0, 90, true⟩ : Arc).pathPointF N 10 9).y - 1| ≤ 250 / 2 ^ 53 := by
  have h := (C142_ends hN ⟨⟨0, 0⟩, 1, 0, 90, true⟩ ⟨by norm_num, by norm_num⟩ ⟨by norm_num [abs_of_pos], by norm_num⟩ (R := 1) le_rfl (by norm_num)
    (by norm_num) (by norm_num) 10 (by norm_num)).2 (by norm_num)
  have e : (⟨⟨0, 0⟩, 1, 0, 90, true⟩ : Arc).ending_point = ⟨0, 1⟩ := by
    unfold Arc.ending_point unit_vector_
    dsimp only
    rw [if_pos rfl, show (90 : ℝ) * (π / 180) = π / 2 by ring, Real.cos_pi_div_two, Real.sin_pi_div_two]
    ext
    · change (0 : ℝ) + 1 * 0 = 0; norm_num
    · change (0 : ℝ) + 1 * 1 = 1; norm_num
  rw [e] at h
  simpa using h

namespace FArc

theorem linspace_zero (n i : ℕ) : linspaceToF 0 n i = 0 := by
  unfold linspaceToF
  rw [zero_div, _root_.fl_zero]
  dsimp only
  rw [if_pos rfl, mul_zero, _root_.fl_zero]
  split_ifs <;> rfl

theorem prod1 : fl (47 * (7074237752028440 / 2 ^ 51)) = 5195143349145886 / 2 ^ 45 := by
  rw [fl_eval (e := -45) (n := 5195143349145886) (by norm_num)]
  all_goals norm_num [abs_of_pos, abs_of_neg, abs_lt]

theorem prod2 : fl (6614661952700417 / 2 ^ 47 * (7074237752028440 / 2 ^ 51)) = 5195143349145886 / 2 ^ 45 := by
  rw [fl_eval (e := -45) (n := 5195143349145886) (by norm_num)]
  all_goals norm_num [abs_of_pos, abs_of_neg, abs_lt]

end FArc

/-- **C142, counterexample.** The arc of the unit circle from the double next to 47 degrees to 47 degrees is the whole circle up to the gap between these two
numbers, and the middle row of its path in exact arithmetic is opposite to the start. In double precision both angles are converted to the same number of
radians, and all rows of the path are the same point, for every number of rows. -/
theorem C142_counterexample : ∃ a : Arc, IsDouble a.alpha1 ∧ IsDouble a.alpha2 ∧ a.alpha2 < a.alpha1 ∧
    (∃ L P, a.path 3 = .ok L ∧ L[1]? = some P ∧ P.x * a.starting_point.x + P.y * a.starting_point.y < -1 / 2) ∧
    ∀ (N : MathLib) (n i : ℕ), a.pathPointF N n i = a.pathPointF N n 0 := by
  refine ⟨⟨⟨0, 0⟩, 1, 6614661952700417 / 2 ^ 47, 47, true⟩, ?_, ?_, by norm_num, ?_, ?_⟩
  · exact ⟨6614661952700417, -47, by norm_num, by norm_num, by norm_num⟩
  · exact ⟨47, 0, by norm_num, by norm_num, by norm_num⟩
  · have p0 := pi_pos
    have p1 := pi_gt_three
    have p2 := pi_lt_four
    have m1 : pyMod (6614661952700417 / 2 ^ 47 * π / 180) (2 * π) = 6614661952700417 / 2 ^ 47 * π / 180 := by
      unfold pyMod
      rw [Int.floor_eq_zero_iff.2 ⟨by positivity, (div_lt_one (by positivity)).2 (by norm_num; linarith)⟩]
      simp
    have m2 : pyMod (47 * π / 180) (2 * π) = 47 * π / 180 := by
      unfold pyMod
      rw [Int.floor_eq_zero_iff.2 ⟨by positivity, (div_lt_one (by positivity)).2 (by linarith)⟩]
      simp
    refine ⟨_, _, rfl, rfl, ?_⟩
    dsimp only
    have neg : 47 * π / 180 - 6614661952700417 / 2 ^ 47 * π / 180 < 0 := by norm_num; linarith
    rw [if_pos rfl, if_pos rfl, m1, m2, if_pos neg]
    unfold circle_point_ Arc.starting_point unit_vector_ linspace
    dsimp only
    rw [if_neg (by decide), if_pos rfl]
    change (0 + 1 * Real.cos _) * (0 + 1 * Real.cos _) + (0 + 1 * Real.sin _) * (0 + 1 * Real.sin _) < -1 / 2
    simp only [zero_add, one_mul]
    rw [← Real.cos_sub]
    have hc' : Real.cos (π / 3) < Real.cos (π / 180 / 2 ^ 48) := by
      refine Real.cos_lt_cos_of_nonneg_of_le_pi (by positivity) (by linarith) ?_
      norm_num
      linarith
    rw [Real.cos_pi_div_three] at hc'
    rw [show 6614661952700417 / 2 ^ 47 * π / 180 + ((1 : ℕ) : ℝ) * ((47 * π / 180 - 6614661952700417 / 2 ^ 47 * π / 180 + 2 * π - 0) /
      (((3 : ℤ).toNat : ℝ) - 1)) - 6614661952700417 / 2 ^ 47 * (π / 180) = π - π / 180 / 2 ^ 48 by
        rw [show (3 : ℤ).toNat = 3 from rfl]
        push_cast
        norm_num
        ring, Real.cos_pi_sub]
    linarith
  · intro N n i
    have e : (⟨⟨0, 0⟩, 1, 6614661952700417 / 2 ^ 47, 47, true⟩ : Arc).sweepF = 0 := by
      unfold Arc.sweepF Arc.angleF
      dsimp only
      rw [if_pos rfl, if_pos rfl, FOO.piF_eq, FArc.prod1, FArc.prod2, sub_self, _root_.fl_zero, if_neg (lt_irrefl _)]
    unfold Arc.pathPointF
    rw [e, FArc.linspace_zero, FArc.linspace_zero]
