import Verif.Model.Schottky
import Verif.Lemmas.PingPong
import Verif.Props.MobiusCircle
import Verif.Props.MobiusLine

/-!
# The circles of examples/Schottky.py and the action of the transformations on them
-/

open Spec Real Classical

namespace Schottky

/-- The data of the script as functions of the centre `(X, -R)` and the radius `R` of the circle `Cb`. -/
noncomputable def dataOf (X R : ℝ) : Data where
  Ca := ⟨⟨-1, 0⟩, ⟨1, 0⟩, true, true⟩
  CA := ⟨⟨0, -3 * √2 / 4⟩, √2 / 4⟩
  Cb := ⟨⟨X, -R⟩, R⟩
  CB := ⟨⟨-X, -R⟩, R⟩
  Moba := ⟨!![(√2 : ℂ), Complex.I; -Complex.I, (√2 : ℂ)]⟩
  Mobb := ⟨!![toC ⟨X, -R⟩, ((dot1_ ⟨X, -R⟩ - R ^ 2 : ℝ) : ℂ); 1, -toC ⟨-X, -R⟩]⟩
  MobA := Mobius.inverse ⟨!![(√2 : ℂ), Complex.I; -Complex.I, (√2 : ℂ)]⟩
  MobB := Mobius.inverse ⟨!![toC ⟨X, -R⟩, ((dot1_ ⟨X, -R⟩ - R ^ 2 : ℝ) : ℂ); 1, -toC ⟨-X, -R⟩]⟩

theorem sqrt2_sq : √2 * √2 = 2 := mul_self_sqrt (by norm_num)
theorem sqrt2_pos : 0 < √2 := by positivity

/-- The computation of lines 52-73. -/
theorem data_eq {θ : ℝ} (h1 : -(π / 2) < θ) (h2 : θ < 0) :
    ∃ X R, data θ = .ok (dataOf X R) ∧ 0 < X ∧ 1 < R ∧ X = √2 * cos θ / (1 + sin θ) ∧ R = √2 * (3 - sin θ) / (4 * (1 + sin θ)) := by
  have hc : 0 < cos θ := cos_pos_of_mem_Ioo ⟨h1, by linarith [pi_pos]⟩
  have hs : sin θ < 0 := sin_neg_of_neg_of_neg_pi_lt h2 (by linarith [pi_pos])
  have hcs := sin_sq_add_cos_sq θ
  have hs1 : 0 < 1 + sin θ := by nlinarith
  have hq := sqrt2_sq
  have hq0 := sqrt2_pos
  have ht : tan θ = sin θ / cos θ := tan_eq_sin_div_cos θ
  obtain ⟨c, hce⟩ : ∃ c, c = cos θ := ⟨_, rfl⟩
  obtain ⟨s, hse⟩ : ∃ s, s = sin θ := ⟨_, rfl⟩
  have hR1 : 1 < √2 * (3 - s) / (4 * (1 + s)) := by
    rw [hse, lt_div_iff₀ (by positivity)]
    have : 1.4 < √2 := by rw [lt_sqrt (by norm_num)]; norm_num
    nlinarith
  refine ⟨√2 * c / (1 + s), √2 * (3 - s) / (4 * (1 + s)), ?_, by rw [hce, hse]; positivity, hR1, by rw [hce, hse], by rw [hse]⟩
  unfold data
  have hl : mkLine (⟨-1, 0⟩ : Pt) ⟨1, 0⟩ = .ok ⟨⟨-1, 0⟩, ⟨1, 0⟩, true, true⟩ := by
    rw [mkLine_ok]
    refine ⟨?_, rfl⟩
    rintro ⟨h, -⟩
    unfold npClose at h
    norm_num at h
  rw [hl, Res.ok_bind]
  dsimp only
  rw [mkCircle_pos (by positivity), Res.ok_bind, ht, ← hce, ← hse]
  rw [← hce] at hc hcs
  rw [← hse] at hs hs1 hcs
  have hPT : distance_ (⟨√2 / 4 * c, -3 * √2 / 4 + √2 / 4 * s⟩ : Pt) ⟨√2 / 4 * c + (-3 * √2 / 4 + √2 / 4 * s) * (s / c), 0⟩ = √2 / 4 * (3 - s) / c := by
    unfold distance_ vlength_
    have h3 : 0 < 3 - s := by linarith
    rw [sqrt_eq_iff_mul_self_eq (add_nonneg (mul_self_nonneg _) (mul_self_nonneg _)) (by positivity)]
    simp only [Pt.sub_x, Pt.sub_y]
    field_simp
    linear_combination (√2 ^ 2 * (3 - s) ^ 2) * hcs
  rw [hPT]
  have hX : √2 / 4 * c + (-3 * √2 / 4 + √2 / 4 * s) * (s / c) + √2 / 4 * (3 - s) / c = √2 * c / (1 + s) := by
    field_simp
    linear_combination (-3 + s) * hcs
  rw [hX]
  have hsc : s / c ≠ 0 := div_ne_zero hs.ne hc.ne'
  unfold pyDiv npDiv
  rw [if_neg hsc, Res.ok_bind]
  have hn : -(-3 * √2 / 4) / (s / c) ≠ 0 := div_ne_zero (by simp) hsc
  rw [if_neg hn, Res.ok_bind]
  have hpos : 0 < √2 * c / (1 + s) - -(-3 * √2 / 4) / (s / c) := by
    have e : -(-3 * √2 / 4) / (s / c) < 0 := div_neg_of_pos_of_neg (by linarith) (div_neg_of_neg_of_pos hs hc)
    have : 0 < √2 * c / (1 + s) := by positivity
    linarith
  rw [abs_of_pos hpos]
  have hR : -3 * √2 / 4 * (√2 * c / (1 + s) - -(-3 * √2 / 4) / (s / c)) / (-(-3 * √2 / 4) / (s / c)) = √2 * (3 - s) / (4 * (1 + s)) := by
    have := hs.ne
    field_simp
    ring
  rw [hR, abs_of_pos (by linarith), mkCircle_pos (by linarith), Res.ok_bind, mkCircle_pos (by linarith), Res.ok_bind]
  rfl

/-- The relation which makes the circles touch. -/
theorem key_relation {θ X R : ℝ} (h1 : -(π / 2) < θ) (h2 : θ < 0) (hX : X = √2 * cos θ / (1 + sin θ)) (hR : R = √2 * (3 - sin θ) / (4 * (1 + sin θ))) :
    X ^ 2 = 2 * √2 * R - 1 ∧ (R < X ↔ 3 - sin θ < 4 * cos θ) := by
  have hc : 0 < cos θ := cos_pos_of_mem_Ioo ⟨h1, by linarith [pi_pos]⟩
  have hs : sin θ < 0 := sin_neg_of_neg_of_neg_pi_lt h2 (by linarith [pi_pos])
  have hcs := sin_sq_add_cos_sq θ
  have hs1 : 0 < 1 + sin θ := by nlinarith
  have hq := sqrt2_sq
  have hq0 := sqrt2_pos
  refine ⟨?_, ?_⟩
  · rw [hX, hR, div_pow, mul_pow, sq_sqrt (by norm_num)]
    have : 2 * √2 * (√2 * (3 - sin θ) / (4 * (1 + sin θ))) = (3 - sin θ) / (1 + sin θ) := by
      field_simp
      rw [sq_sqrt (by norm_num)]; ring
    rw [this]
    field_simp
    linear_combination 2 * hcs
  · rw [hX, hR, div_lt_div_iff₀ (by positivity) hs1]
    constructor
    · intro h
      by_contra hcon
      push Not at hcon
      have : √2 * cos θ * (4 * (1 + sin θ)) ≤ √2 * (3 - sin θ) * (1 + sin θ) := by
        have := mul_le_mul_of_nonneg_left hcon (by positivity : (0 : ℝ) ≤ √2 * (1 + sin θ))
        linarith
      linarith
    · intro h
      have := mul_lt_mul_of_pos_left h (by positivity : (0 : ℝ) < √2 * (1 + sin θ))
      linarith

/-- The conditions on the circles used below. -/
structure Good (X R : ℝ) : Prop where
  X0 : 0 < X
  R1 : 1 < R
  rel : X ^ 2 = 2 * √2 * R - 1
  far : R < X

theorem Good.R_lt {X R : ℝ} (h : Good X R) : R < 5 / 2 := by
  have h1 := h.far
  have h2 := h.rel
  have h3 := h.R1
  have : √2 < 1.42 := by rw [sqrt_lt' (by norm_num)]; norm_num
  nlinarith

/-- The equation of the circle of a letter: negative inside, positive outside. -/
noncomputable def form (X R : ℝ) : Letter → XPt → ℝ
  | (.a, true), .fin P => -P.y
  | (.a, true), .inf => 0
  | (.a, false), .fin P => √2 * (P.x ^ 2 + P.y ^ 2) + 3 * P.y + √2
  | (.a, false), .inf => √2
  | (.b, true), .fin P => (P.x - X) ^ 2 + (P.y + R) ^ 2 - R ^ 2
  | (.b, true), .inf => 1
  | (.b, false), .fin P => (P.x + X) ^ 2 + (P.y + R) ^ 2 - R ^ 2
  | (.b, false), .inf => 1

/-- The points of a circle or line of the completed plane. -/
def gset : GCircle → Set XPt
  | .circle c => {P | XOnCircle c.center c.radius P}
  | .line l => {P | XOnLine l.A l.B P}

theorem mem_circ (X R : ℝ) (x : Letter) (P : XPt) : P ∈ gset ((dataOf X R).circ x) ↔ form X R x P = 0 := by
  have hq := sqrt2_sq
  rcases x with ⟨_ | _, _ | _⟩ <;> rcases P with P | _ <;>
    simp only [Data.circ, dataOf, gset, Set.mem_setOf_eq, XOnCircle, XOnLine, form, OnCircle, sqDist]
  · constructor
    · intro h
      linear_combination √2 * h + (-(3 * P.y) / 2 - √2 / 2) * hq
    · intro h
      have h2 : √2 * ((P.x - 0) ^ 2 + (P.y - -3 * √2 / 4) ^ 2 - (√2 / 4) ^ 2) = 0 := by linear_combination h + ((3 * P.y) / 2 + √2 / 2) * hq
      have := (mul_eq_zero.1 h2).resolve_left sqrt2_pos.ne'
      linarith
  · simp [sqrt2_pos.ne']
  · rw [onLine_iff_cross (by intro h; have := congrArg Pt.x h; norm_num at this)]
    simp only [cross, Pt.sub_x, Pt.sub_y]
    constructor <;> intro h <;> linarith
  · constructor <;> intro h <;> linarith
  · simp
  · constructor <;> intro h <;> linarith
  · simp

/-! ### The forms in homogeneous coordinates -/

theorem form_a (X R : ℝ) (P : XPt) : form X R (.a, true) P = -(num P * (starRingEnd ℂ) (den P)).im := by
  cases P <;> simp [form, num, den, cpx]

theorem form_A (X R : ℝ) (P : XPt) :
    form X R (.a, false) P = √2 * Complex.normSq (num P) + 3 * (num P * (starRingEnd ℂ) (den P)).im + √2 * Complex.normSq (den P) := by
  cases P <;> simp [form, num, den, cpx, Complex.normSq_apply]
  ring

theorem form_b (X R : ℝ) (P : XPt) :
    form X R (.b, true) P = Complex.normSq (num P - toC ⟨X, -R⟩ * den P) - R ^ 2 * Complex.normSq (den P) := by
  cases P <;> simp [form, num, den, cpx, toC, Complex.normSq_apply]
  ring

theorem form_B (X R : ℝ) (P : XPt) :
    form X R (.b, false) P = Complex.normSq (num P - toC ⟨-X, -R⟩ * den P) - R ^ 2 * Complex.normSq (den P) := by
  cases P <;> simp [form, num, den, cpx, toC, Complex.normSq_apply]
  ring

theorem det_a (X R : ℝ) : Matrix.det (dataOf X R).Moba.M = 1 := by
  rw [Matrix.det_fin_two]
  show (√2 : ℂ) * (√2 : ℂ) - Complex.I * -Complex.I = 1
  rw [← Complex.ofReal_mul, sqrt2_sq]
  have := Complex.I_mul_I
  push_cast
  linear_combination this

theorem det_b (X R : ℝ) : Matrix.det (dataOf X R).Mobb.M = ((R ^ 2 : ℝ) : ℂ) := by
  rw [Matrix.det_fin_two]
  show toC ⟨X, -R⟩ * -toC ⟨-X, -R⟩ - ((dot1_ ⟨X, -R⟩ - R ^ 2 : ℝ) : ℂ) * 1 = _
  apply Complex.ext <;> simp [toC, dot1_, dot_] <;> ring

theorem act_a {X R : ℝ} {P Q : XPt} (h : (dataOf X R).Moba.transform P = .ok Q) :
    ∃ l : ℝ, 0 < l ∧ form X R (.a, true) Q = -(l * form X R (.a, false) P) := by
  have hd : Matrix.det (dataOf X R).Moba.M ≠ 0 := by rw [det_a]; exact one_ne_zero
  rw [C49_transform _ hd, mobImage_iff ((det_ne_iff _).1 hd)] at h
  obtain ⟨μ, hμ, e1, e2⟩ := h
  have e1' : (√2 : ℂ) * num P + Complex.I * den P = μ * num Q := e1
  have e2' : -Complex.I * num P + (√2 : ℂ) * den P = μ * den Q := e2
  have hn : 0 < Complex.normSq μ := Complex.normSq_pos.2 hμ
  refine ⟨1 / Complex.normSq μ, by positivity, ?_⟩
  rw [form_a, form_A]
  have k1 : Complex.normSq μ * (num Q * (starRingEnd ℂ) (den Q)).im = ((μ * num Q) * (starRingEnd ℂ) (μ * den Q)).im := by
    simp [Complex.normSq_apply]; ring
  rw [← e1', ← e2'] at k1
  have k2 : (((√2 : ℂ) * num P + Complex.I * den P) * (starRingEnd ℂ) (-Complex.I * num P + (√2 : ℂ) * den P)).im =
      √2 * Complex.normSq (num P) + 3 * (num P * (starRingEnd ℂ) (den P)).im + √2 * Complex.normSq (den P) := by
    simp [Complex.normSq_apply]
    have := sqrt2_sq
    linear_combination ((num P).im * (den P).re - (num P).re * (den P).im) * this
  rw [k2] at k1
  rw [← k1]
  field_simp

theorem act_b {X R : ℝ} (hR : 0 < R) {P Q : XPt} (h : (dataOf X R).Mobb.transform P = .ok Q) :
    ∃ l : ℝ, 0 < l ∧ form X R (.b, true) Q = -(l * form X R (.b, false) P) := by
  have hd : Matrix.det (dataOf X R).Mobb.M ≠ 0 := by rw [det_b]; simpa using hR.ne'
  rw [C49_transform _ hd, mobImage_iff ((det_ne_iff _).1 hd)] at h
  obtain ⟨μ, hμ, e1, e2⟩ := h
  have e1' : toC ⟨X, -R⟩ * num P + ((dot1_ ⟨X, -R⟩ - R ^ 2 : ℝ) : ℂ) * den P = μ * num Q := e1
  have e2' : 1 * num P + -toC ⟨-X, -R⟩ * den P = μ * den Q := e2
  have hn : 0 < Complex.normSq μ := Complex.normSq_pos.2 hμ
  refine ⟨R ^ 2 / Complex.normSq μ, by positivity, ?_⟩
  rw [form_b, form_B]
  have k1 : Complex.normSq μ * (Complex.normSq (num Q - toC ⟨X, -R⟩ * den Q) - R ^ 2 * Complex.normSq (den Q)) =
      Complex.normSq (μ * num Q - toC ⟨X, -R⟩ * (μ * den Q)) - R ^ 2 * Complex.normSq (μ * den Q) := by
    rw [show μ * num Q - toC ⟨X, -R⟩ * (μ * den Q) = μ * (num Q - toC ⟨X, -R⟩ * den Q) by ring, Complex.normSq_mul, Complex.normSq_mul]
    ring
  rw [← e1', ← e2'] at k1
  have k2 : toC ⟨X, -R⟩ * num P + ((dot1_ ⟨X, -R⟩ - R ^ 2 : ℝ) : ℂ) * den P - toC ⟨X, -R⟩ * (1 * num P + -toC ⟨-X, -R⟩ * den P) =
      -((R ^ 2 : ℝ) : ℂ) * den P := by
    have : ((dot1_ ⟨X, -R⟩ - R ^ 2 : ℝ) : ℂ) + toC ⟨X, -R⟩ * toC ⟨-X, -R⟩ = -((R ^ 2 : ℝ) : ℂ) := by
      apply Complex.ext <;> simp [toC, dot1_, dot_] <;> ring
    linear_combination den P * this
  rw [k2, Complex.normSq_mul, Complex.normSq_neg, Complex.normSq_ofReal, one_mul, neg_mul, ← sub_eq_add_neg] at k1
  have k3 : Complex.normSq (num Q - toC ⟨X, -R⟩ * den Q) - R ^ 2 * Complex.normSq (den Q) =
      (R ^ 2 * R ^ 2 * Complex.normSq (den P) - R ^ 2 * Complex.normSq (num P - toC ⟨-X, -R⟩ * den P)) / Complex.normSq μ := by
    rw [← k1]; field_simp
  rw [k3]
  ring

/-! ### The discs -/

/-- Two closed discs which touch have one common point. -/
theorem touching {O1 O2 P : Pt} {r1 r2 : ℝ} (h1 : 0 < r1) (h2 : 0 < r2) (h : sqDist O1 O2 = (r1 + r2) ^ 2)
    (k1 : sqDist P O1 ≤ r1 ^ 2) (k2 : sqDist P O2 ≤ r2 ^ 2) :
    sqDist P O1 = r1 ^ 2 ∧ sqDist P O2 = r2 ^ 2 ∧ P.x = (r2 * O1.x + r1 * O2.x) / (r1 + r2) ∧ P.y = (r2 * O1.y + r1 * O2.y) / (r1 + r2) := by
  have hr : 0 < r1 + r2 := by linarith
  have e : r2 * (sqDist P O1 - r1 ^ 2) + r1 * (sqDist P O2 - r2 ^ 2) =
      (r1 + r2) * ((P.x - (r2 * O1.x + r1 * O2.x) / (r1 + r2)) ^ 2 + (P.y - (r2 * O1.y + r1 * O2.y) / (r1 + r2)) ^ 2) := by
    have hh : r1 * r2 * (sqDist O1 O2 - (r1 + r2) ^ 2) = 0 := by rw [h]; ring
    simp only [sqDist] at hh ⊢
    field_simp
    linear_combination hh
  obtain ⟨u, hu⟩ : ∃ u, u = P.x - (r2 * O1.x + r1 * O2.x) / (r1 + r2) := ⟨_, rfl⟩
  obtain ⟨v, hv⟩ : ∃ v, v = P.y - (r2 * O1.y + r1 * O2.y) / (r1 + r2) := ⟨_, rfl⟩
  rw [← hu, ← hv] at e
  have a1 : r2 * (sqDist P O1 - r1 ^ 2) ≤ 0 := mul_nonpos_of_nonneg_of_nonpos h2.le (by linarith)
  have a2 : r1 * (sqDist P O2 - r2 ^ 2) ≤ 0 := mul_nonpos_of_nonneg_of_nonpos h1.le (by linarith)
  have b : 0 ≤ (r1 + r2) * (u ^ 2 + v ^ 2) := by positivity
  have a1' : r2 * (sqDist P O1 - r1 ^ 2) = 0 := by linarith
  have a2' : r1 * (sqDist P O2 - r2 ^ 2) = 0 := by linarith
  have b' : (r1 + r2) * (u ^ 2 + v ^ 2) = 0 := by linarith
  have b'' := (mul_eq_zero.1 b').resolve_left hr.ne'
  have u0 : u = 0 := by nlinarith [sq_nonneg u, sq_nonneg v]
  have v0 : v = 0 := by nlinarith [sq_nonneg u, sq_nonneg v]
  refine ⟨?_, ?_, by linarith, by linarith⟩
  · have := (mul_eq_zero.1 a1').resolve_left h2.ne'
    linarith
  · have := (mul_eq_zero.1 a2').resolve_left h1.ne'
    linarith

/-- The closed discs of different letters meet in at most one point, which is on both circles. -/
theorem forms_meet {X R : ℝ} (h : Good X R) {x y : Letter} (hxy : x ≠ y) :
    ∃ T : Pt, ∀ P, form X R x P ≤ 0 → form X R y P ≤ 0 → P = .fin T ∧ form X R x P = 0 ∧ form X R y P = 0 := by
  have hq := sqrt2_sq
  have hq0 := sqrt2_pos
  have hX := h.X0
  have hR := h.R1
  have hrel := h.rel
  have hfar := h.far
  have sym : ∀ x y : Letter, (∃ T : Pt, ∀ P, form X R x P ≤ 0 → form X R y P ≤ 0 → P = .fin T ∧ form X R x P = 0 ∧ form X R y P = 0) →
      ∃ T : Pt, ∀ P, form X R y P ≤ 0 → form X R x P ≤ 0 → P = .fin T ∧ form X R y P = 0 ∧ form X R x P = 0 := by
    rintro x y ⟨T, hT⟩
    exact ⟨T, fun P h1 h2 => ⟨(hT P h2 h1).1, (hT P h2 h1).2.2, (hT P h2 h1).2.1⟩⟩
  have aA : ∃ T : Pt, ∀ P, form X R (.a, true) P ≤ 0 → form X R (.a, false) P ≤ 0 → P = .fin T ∧ form X R (.a, true) P = 0 ∧ form X R (.a, false) P = 0 := by
    refine ⟨⟨0, 0⟩, ?_⟩
    rintro (P | _) h1 h2
    · simp only [form] at h1 h2
      exfalso
      nlinarith [mul_nonneg hq0.le (add_nonneg (sq_nonneg P.x) (sq_nonneg P.y))]
    · simp only [form] at h2
      linarith
  have ab : ∀ Z : ℝ, ∀ s : Bool, (∀ P : Pt, form X R (.b, s) (.fin P) = (P.x - Z) ^ 2 + (P.y + R) ^ 2 - R ^ 2) → form X R (.b, s) .inf = 1 →
      ∃ T : Pt, ∀ P, form X R (.a, true) P ≤ 0 → form X R (.b, s) P ≤ 0 → P = .fin T ∧ form X R (.a, true) P = 0 ∧ form X R (.b, s) P = 0 := by
    intro Z s hs hi
    refine ⟨⟨Z, 0⟩, ?_⟩
    rintro (P | _) h1 h2
    · rw [hs] at h2 ⊢
      simp only [form] at h1 ⊢
      have hy0 : 0 ≤ P.y := by linarith
      have hy : P.y = 0 := by nlinarith [sq_nonneg (P.x - Z), sq_nonneg P.y]
      have hx : P.x - Z = 0 := by rw [hy] at h2; nlinarith [sq_nonneg (P.x - Z)]
      refine ⟨?_, by linarith, by rw [hx, hy]; ring⟩
      congr 1
      ext
      · show P.x = Z
        linarith
      · exact hy
    · rw [hi] at h2
      linarith
  have Ab : ∀ Z : ℝ, Z ^ 2 = X ^ 2 → ∀ s : Bool, (∀ P : Pt, form X R (.b, s) (.fin P) = (P.x - Z) ^ 2 + (P.y + R) ^ 2 - R ^ 2) → form X R (.b, s) .inf = 1 →
      ∃ T : Pt, ∀ P, form X R (.a, false) P ≤ 0 → form X R (.b, s) P ≤ 0 → P = .fin T ∧ form X R (.a, false) P = 0 ∧ form X R (.b, s) P = 0 := by
    intro Z hZ s hs hi
    refine ⟨⟨(R * 0 + √2 / 4 * Z) / (√2 / 4 + R), (R * (-3 * √2 / 4) + √2 / 4 * -R) / (√2 / 4 + R)⟩, ?_⟩
    · rintro (P | _) h1 h2
      · rw [hs] at h2 ⊢
        simp only [form] at h1 ⊢
        have k1 : sqDist P ⟨0, -3 * √2 / 4⟩ ≤ (√2 / 4) ^ 2 := by
          have : √2 * (sqDist P ⟨0, -3 * √2 / 4⟩ - (√2 / 4) ^ 2) ≤ 0 := by
            have e : √2 * (sqDist P ⟨0, -3 * √2 / 4⟩ - (√2 / 4) ^ 2) = √2 * (P.x ^ 2 + P.y ^ 2) + 3 * P.y + √2 := by
              simp only [sqDist]
              linear_combination ((3 * P.y) / 2 + √2 / 2) * hq
            rw [e]; exact h1
          by_contra hcon
          push Not at hcon
          have : 0 < √2 * (sqDist P ⟨0, -3 * √2 / 4⟩ - (√2 / 4) ^ 2) := mul_pos hq0 (by linarith)
          linarith
        have k2 : sqDist P ⟨Z, -R⟩ ≤ R ^ 2 := by
          simp only [sqDist]; rw [sub_neg_eq_add]; linarith
        obtain ⟨c1, c2, c3, c4⟩ := touching (O1 := ⟨0, -3 * √2 / 4⟩) (O2 := ⟨Z, -R⟩) (r1 := √2 / 4) (r2 := R) (by positivity) (by linarith)
          (by simp only [sqDist]; linear_combination hZ + hrel + 1 / 2 * hq) k1 k2
        refine ⟨?_, ?_, ?_⟩
        · congr 1
          ext
          · exact c3
          · exact c4
        · have : √2 * (sqDist P ⟨0, -3 * √2 / 4⟩ - (√2 / 4) ^ 2) = √2 * (P.x ^ 2 + P.y ^ 2) + 3 * P.y + √2 := by
            simp only [sqDist]
            linear_combination ((3 * P.y) / 2 + √2 / 2) * hq
          rw [← this, c1]; ring
        · simp only [sqDist] at c2; rw [sub_neg_eq_add] at c2; linarith
      · rw [hi] at h2
        linarith
  have bB : ∃ T : Pt, ∀ P, form X R (.b, true) P ≤ 0 → form X R (.b, false) P ≤ 0 → P = .fin T ∧ form X R (.b, true) P = 0 ∧ form X R (.b, false) P = 0 := by
    refine ⟨⟨0, 0⟩, ?_⟩
    rintro (P | _) h1 h2
    · simp only [form] at h1 h2
      exfalso
      nlinarith [sq_nonneg P.x, sq_nonneg (P.y + R)]
    · simp only [form] at h1
      linarith
  have ft : ∀ P : Pt, form X R (.b, true) (.fin P) = (P.x - X) ^ 2 + (P.y + R) ^ 2 - R ^ 2 := fun _ => rfl
  have ff : ∀ P : Pt, form X R (.b, false) (.fin P) = (P.x - -X) ^ 2 + (P.y + R) ^ 2 - R ^ 2 := fun P => by rw [sub_neg_eq_add]; rfl
  rcases x with ⟨_ | _, _ | _⟩ <;> rcases y with ⟨_ | _, _ | _⟩
  · exact absurd rfl hxy
  · exact sym _ _ aA
  · exact Ab (-X) (by ring) false ff rfl
  · exact Ab X rfl true ft rfl
  · exact aA
  · exact absurd rfl hxy
  · exact ab (-X) false ff rfl
  · exact ab X true ft rfl
  · exact sym _ _ (Ab (-X) (by ring) false ff rfl)
  · exact sym _ _ (ab (-X) false ff rfl)
  · exact absurd rfl hxy
  · exact sym _ _ bB
  · exact sym _ _ (Ab X rfl true ft rfl)
  · exact sym _ _ (ab X true ft rfl)
  · exact bB
  · exact absurd rfl hxy

end Schottky
