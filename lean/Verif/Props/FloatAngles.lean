import Verif.Model.FloatAngles
import Verif.Props.FloatIncircle
import Mathlib.Analysis.SpecialFunctions.Trigonometric.Bounds
import Mathlib.Analysis.Real.Pi.Bounds

/-!
# C133: the angles of a triangle in double precision
-/

open Spec Real Classical

namespace FAng

open FH

/-- The cosine determines the angle, with a loss of precision which is the inverse of the sine. -/
theorem arccos_err {x y : ℝ} (hx : -1 ≤ x) (hx' : x ≤ 1) (hy : -1 ≤ y) (hy' : y ≤ 1) :
    √(1 - y ^ 2) * |arccos x - arccos y| ≤ π * |x - y| := by
  obtain ⟨s, hs⟩ : ∃ s, s = arccos x := ⟨_, rfl⟩
  obtain ⟨t, ht⟩ : ∃ t, t = arccos y := ⟨_, rfl⟩
  have s0 : 0 ≤ s := hs ▸ arccos_nonneg x
  have s1 : s ≤ π := hs ▸ arccos_le_pi x
  have t0 : 0 ≤ t := ht ▸ arccos_nonneg y
  have t1 : t ≤ π := ht ▸ arccos_le_pi y
  have ex : x = cos s := by rw [hs, cos_arccos hx hx']
  have ey : y = cos t := by rw [ht, cos_arccos hy hy']
  have esin : √(1 - y ^ 2) = sin t := by rw [ht, sin_arccos]
  rw [← hs, ← ht, esin, ex, ey, cos_sub_cos, abs_mul, abs_mul]
  have hmid : sin t / 2 ≤ sin ((s + t) / 2) := by
    have e : sin t = 2 * sin (t / 2) * cos (t / 2) := by rw [← sin_two_mul]; ring_nf
    have e2 : sin ((s + t) / 2) = sin (s / 2) * cos (t / 2) + cos (s / 2) * sin (t / 2) := by rw [← sin_add]; ring_nf
    have a0 : 0 ≤ sin (t / 2) := sin_nonneg_of_nonneg_of_le_pi (by linarith) (by linarith)
    have a1 : 0 ≤ cos (t / 2) := cos_nonneg_of_neg_pi_div_two_le_of_le (by linarith) (by linarith)
    have b0 : 0 ≤ sin (s / 2) := sin_nonneg_of_nonneg_of_le_pi (by linarith) (by linarith)
    have b1 : 0 ≤ cos (s / 2) := cos_nonneg_of_neg_pi_div_two_le_of_le (by linarith) (by linarith)
    have c1 : 1 ≤ sin (s / 2) + cos (s / 2) := by
      have := sin_sq_add_cos_sq (s / 2)
      nlinarith [mul_nonneg b0 b1]
    have d1 : sin (t / 2) ≤ 1 := sin_le_one _
    have d2 : cos (t / 2) ≤ 1 := cos_le_one _
    rw [e, e2]
    nlinarith [mul_nonneg b0 (mul_nonneg a1 (sub_nonneg.2 d1)), mul_nonneg b1 (mul_nonneg a0 (sub_nonneg.2 d2)), mul_nonneg a0 a1]
  have hst : 0 ≤ sin t := sin_nonneg_of_nonneg_of_le_pi t0 t1
  have hdel : 2 / π * |(s - t) / 2| ≤ |sin ((s - t) / 2)| := by
    have hp := pi_pos
    exact mul_abs_le_abs_sin (by rw [abs_le]; constructor <;> linarith)
  rw [abs_of_nonneg (le_trans (by positivity) hmid), show |(-2 : ℝ)| = 2 by norm_num]
  rw [abs_div, show |(2 : ℝ)| = 2 by norm_num] at hdel
  have hp := pi_pos
  have h1 : |s - t| ≤ π * |sin ((s - t) / 2)| := by
    have := mul_le_mul_of_nonneg_left hdel hp.le
    calc |s - t| = π * (2 / π * (|s - t| / 2)) := by field_simp
      _ ≤ _ := this
  calc sin t * |s - t| ≤ sin t * (π * |sin ((s - t) / 2)|) := mul_le_mul_of_nonneg_left h1 hst
    _ = π * (2 * (sin t / 2) * |sin ((s - t) / 2)|) := by ring
    _ ≤ _ := by gcongr

/-- Two divisions by rounded lengths. -/
theorem quot_pos {D b c b' c' : ℝ} (hD : 1 ≤ D) (hb : 1 ≤ b) (hc : 1 ≤ c) (hb2 : b ≤ 2 ^ 11) (hc2 : c ≤ 2 ^ 11)
    (rb : FH.Rel (101 / 100 / 2 ^ 53) b' b) (rc : FH.Rel (101 / 100 / 2 ^ 53) c' c) :
    FH.Rel (6 / 2 ^ 53) (fl (fl (D / b') / c')) (D / (b * c)) := by
  have r0 : FH.Rel 0 D D := by unfold FH.Rel; simp
  have r1 := r0.div (γ := 132 / 100 / 2 ^ 53) rb (by linarith) (by linarith) le_rfl (by norm_num) (by norm_num) (by norm_num) (by norm_num)
  have g1 : 1 / 2 ^ 11 ≤ D / b := by
    rw [div_le_div_iff₀ (by norm_num) (by linarith)]; linarith
  have r2 := r1.fl (γ := 262 / 100 / 2 ^ 53) (le_trans (by norm_num) g1) (by norm_num) (by norm_num) (by norm_num)
  have r3 := r2.div (γ := 394 / 100 / 2 ^ 53) rc (le_trans (by norm_num) g1) (by linarith) (by norm_num) (by norm_num) (by norm_num)
    (by norm_num) (by norm_num)
  have g2 : 1 / 2 ^ 22 ≤ D / b / c := by
    rw [div_le_div_iff₀ (by norm_num) (by linarith), one_mul]
    calc c ≤ 2 ^ 11 := hc2
      _ ≤ D / b * 2 ^ 22 := by
        have := mul_le_mul_of_nonneg_right g1 (by norm_num : (0 : ℝ) ≤ 2 ^ 22)
        refine le_trans (by norm_num) this
  have r4 := r3.fl (γ := 6 / 2 ^ 53) (le_trans (by norm_num) g2) (by norm_num) (by norm_num) (by norm_num)
  rwa [div_div] at r4

theorem quot {D b c b' c' : ℝ} {M : ℕ} (hD : IntB M D) (hb : 1 ≤ b) (hc : 1 ≤ c) (hb2 : b ≤ 2 ^ 11) (hc2 : c ≤ 2 ^ 11)
    (rb : FH.Rel (101 / 100 / 2 ^ 53) b' b) (rc : FH.Rel (101 / 100 / 2 ^ 53) c' c) :
    |fl (fl (D / b') / c') - D / (b * c)| ≤ 6 / 2 ^ 53 * |D / (b * c)| := by
  rcases lt_trichotomy D 0 with h | h | h
  · have h1 := FI.one_le_abs hD h.ne
    rw [abs_of_neg h] at h1
    have := quot_pos h1 hb hc hb2 hc2 rb rc
    unfold FH.Rel at this
    rw [neg_div, fl_neg, neg_div, fl_neg, neg_div] at this
    rw [abs_of_neg (div_neg_of_neg_of_pos h (by positivity))]
    rwa [← neg_add', abs_neg, ← sub_eq_add_neg] at this
  · rw [h]; simp [fl_zero]
  · have := quot_pos (FI.one_le hD h) hb hc hb2 hc2 rb rc
    unfold FH.Rel at this
    rwa [abs_of_pos (div_pos h (by positivity))]

theorem vlength_eq (k : Fma) (P Q : Pt) : vlengthF k (subF Q P) = distanceF k P Q := rfl

/-- The computation of the angle at `P`, with the two divisions in any order. -/
theorem angle {B : ℕ} (hB : B ≤ 512) (k : Fma) (acosF : ℝ → ℝ) {η : ℝ} (hη : ∀ x, -1 ≤ x → x ≤ 1 → |acosF x - arccos x| ≤ η) {P Q R : Pt}
    (hP : IntPt B P) (hQ : IntPt B Q) (hR : IntPt B R) (h : ¬ Collinear P Q R) {D b' c' : ℝ} (hD : D = vdotF k (subF R P) (subF Q P))
    (hbc : b' = distanceF k P R ∧ c' = distanceF k P Q ∨ b' = distanceF k P Q ∧ c' = distanceF k P R) :
    ∃ θ, (do let q ← npDivF D b'
             let q ← npDivF q c'
             pyAcosF acosF q) = .ok θ ∧ |θ - angleAt Q P R| ≤ η + 152 * (B : ℝ) ^ 2 / 2 ^ 53 := by
  have h1 : P ≠ Q := by
    rintro rfl; apply h; simp [Collinear, cross]
  have h2 : P ≠ R := by
    rintro rfl; apply h; simp [Collinear, cross]
  obtain ⟨rc, dc, sc⟩ := distance hB k hP hQ
  obtain ⟨rb, db, sb⟩ := distance hB k hP hR
  have pc := dist_pos_of_ne h1
  have pb := dist_pos_of_ne h2
  replace dc := dc.resolve_left pc.ne'
  replace db := db.resolve_left pb.ne'
  have hBr : (B : ℝ) ≤ 512 := by exact_mod_cast hB
  have hB0 : (0 : ℝ) ≤ B := Nat.cast_nonneg _
  obtain ⟨e1, i1⟩ := FI.subPt hR hP (by omega)
  obtain ⟨e2, i2⟩ := FI.subPt hQ hP (by omega)
  have eD : D = dot (Q - P) (R - P) := by
    rw [hD, e1, e2, FI.vdot k i1 i2 (by nlinarith)]; unfold dot; ring
  have iD : IntB ((B + B) * (B + B) + (B + B) * (B + B)) D := by
    rw [hD, e1, e2, FI.vdot k i1 i2 (by nlinarith)]
    exact FI.add (FI.mul i1.1 i2.1) (FI.mul i1.2 i2.2)
  have up : ∀ {z : ℝ}, 1 ≤ z → z ^ 2 ≤ 8 * (B : ℝ) ^ 2 → z ≤ 2 ^ 11 := by
    intro z h1 h2
    nlinarith
  have hq : |fl (fl (D / b') / c') - D / (Spec.dist P Q * Spec.dist P R)| ≤ 6 / 2 ^ 53 * |D / (Spec.dist P Q * Spec.dist P R)| := by
    rcases hbc with ⟨rfl, rfl⟩ | ⟨rfl, rfl⟩
    · have := quot iD db dc (up db sb) (up dc sc) rb rc
      rwa [mul_comm (Spec.dist P R)] at this
    · exact quot iD dc db (up dc sc) (up db sb) rc rb
  have nz : ∀ {x y : ℝ}, 1 ≤ y → FH.Rel (101 / 100 / 2 ^ 53) x y → x ≠ 0 := by
    intro x y hy hr hx
    have := hr.bounds.1
    rw [hx] at this
    norm_num at this; linarith
  have hb0 : b' ≠ 0 := by rcases hbc with ⟨rfl, rfl⟩ | ⟨rfl, rfl⟩; exacts [nz db rb, nz dc rc]
  have hc0 : c' ≠ 0 := by rcases hbc with ⟨rfl, rfl⟩ | ⟨rfl, rfl⟩; exacts [nz dc rc, nz db rb]
  have hcb := cos_bound _ _ P Q R h1 h2 rfl rfl
  have hsin := sin_angleAt Q P R h1 h2
  have hcr : 1 ≤ |cross (Q - P) (R - P)| := by
    have : IntB ((B + B) * (B + B) + (B + B) * (B + B)) (cross (Q - P) (R - P)) := by
      unfold cross
      exact FI.sub (FI.mul i2.1 i1.2) (FI.mul i2.2 i1.1)
    exact FI.one_le_abs this h
  have hprod : Spec.dist P Q * Spec.dist P R ≤ 8 * (B : ℝ) ^ 2 := by nlinarith [sq_nonneg (Spec.dist P Q - Spec.dist P R)]
  have hBpos : 0 < 8 * (B : ℝ) ^ 2 := lt_of_lt_of_le (mul_pos pc pb) hprod
  have hs : 1 / (8 * (B : ℝ) ^ 2) ≤ sin (angleAt Q P R) := by
    rw [hsin]
    exact div_le_div₀ (abs_nonneg _) hcr (mul_pos pc pb) hprod
  have hs2 : sin (angleAt Q P R) = √(1 - (dot (Q - P) (R - P) / (Spec.dist P Q * Spec.dist P R)) ^ 2) := by
    unfold angleAt; rw [sin_arccos]
  rw [eD] at hq ⊢
  unfold npDivF
  rw [if_neg hb0, Res.ok_bind, if_neg hc0, Res.ok_bind]
  have hang : angleAt Q P R = arccos (dot (Q - P) (R - P) / (Spec.dist P Q * Spec.dist P R)) := rfl
  rw [hs2] at hs
  rw [hang]
  generalize dot (Q - P) (R - P) / (Spec.dist P Q * Spec.dist P R) = y at *
  generalize fl (fl (dot (Q - P) (R - P) / b') / c') = x at *
  have hy1 : |y| ≤ 1 := abs_le.2 hcb
  have hy2 : |y| ≤ 1 - 1 / 2 ^ 43 := by
    have h8 : (8 * (B : ℝ) ^ 2) ≤ 2 ^ 21 := by nlinarith
    have : (1 : ℝ) / 2 ^ 21 ≤ √(1 - y ^ 2) := le_trans (one_div_le_one_div_of_le hBpos h8) hs
    have h3 : (1 / 2 ^ 21 : ℝ) ^ 2 ≤ 1 - y ^ 2 := (Real.le_sqrt (by norm_num) (by nlinarith [sq_abs y, abs_nonneg y])).1 this
    rw [← sq_abs y] at h3
    have h0 := abs_nonneg y
    generalize |y| = t at *
    norm_num at h3 ⊢
    nlinarith
  have hxy : |x - y| ≤ 6 / 2 ^ 53 := hq.trans (by
    calc 6 / 2 ^ 53 * |y| ≤ 6 / 2 ^ 53 * 1 := mul_le_mul_of_nonneg_left hy1 (by norm_num)
      _ = _ := mul_one _)
  have hx : -1 ≤ x ∧ x ≤ 1 := by
    obtain ⟨a1, a2⟩ := abs_le.1 hxy
    obtain ⟨a3, a4⟩ := abs_le.1 hy2
    norm_num at a1 a2 a3 a4
    constructor <;> linarith
  refine ⟨acosF x, if_neg (by push Not; exact hx), ?_⟩
  have ha := arccos_err hx.1 hx.2 hcb.1 hcb.2
  have hfin : |arccos x - arccos y| ≤ 152 * (B : ℝ) ^ 2 / 2 ^ 53 := by
    have k1 : 1 / (8 * (B : ℝ) ^ 2) * |arccos x - arccos y| ≤ π * (6 / 2 ^ 53) :=
      (mul_le_mul_of_nonneg_right hs (abs_nonneg _)).trans (ha.trans (mul_le_mul_of_nonneg_left hxy pi_pos.le))
    have k2 := mul_le_mul_of_nonneg_left k1 hBpos.le
    rw [← mul_assoc, mul_one_div_cancel hBpos.ne', one_mul] at k2
    refine k2.trans ?_
    have hpi := Real.pi_lt_d2
    have : 8 * (B : ℝ) ^ 2 * (π * (6 / 2 ^ 53)) ≤ 8 * (B : ℝ) ^ 2 * (3.15 * (6 / 2 ^ 53)) := by gcongr
    refine this.trans ?_
    norm_num
    nlinarith
  calc |acosF x - arccos y| = |(acosF x - arccos x) + (arccos x - arccos y)| := by ring_nf
    _ ≤ _ := abs_add_le _ _
    _ ≤ _ := add_le_add (hη x hx.1 hx.2) hfin

end FAng

/-- **C133** The angles of a triangle in double precision.  For a triangle with integer vertices (of absolute value at most `512`) which is
not flat, the three quotients are in the domain of `acos`, no exception is raised, and the three values are within `η + 152 B² / 2^53` of
the angles, where `η` is the error of the function `acos` of the C library. -/
theorem C133_angles (k : Fma) (acosF : ℝ → ℝ) {η : ℝ} (hη : ∀ x, -1 ≤ x → x ≤ 1 → |acosF x - arccos x| ≤ η) (T : Triangle) {B : ℕ}
    (hB : B ≤ 512) (hA : IntPt B T.A) (hB' : IntPt B T.B) (hC : IntPt B T.C) (h : ¬ Collinear T.A T.B T.C) :
    ∃ α β γ, T.angleAF k acosF = .ok α ∧ T.angleBF k acosF = .ok β ∧ T.angleCF k acosF = .ok γ ∧
      |α - angleAt T.B T.A T.C| ≤ η + 152 * (B : ℝ) ^ 2 / 2 ^ 53 ∧ |β - angleAt T.A T.B T.C| ≤ η + 152 * (B : ℝ) ^ 2 / 2 ^ 53 ∧
      |γ - angleAt T.A T.C T.B| ≤ η + 152 * (B : ℝ) ^ 2 / 2 ^ 53 := by
  have h2 : ¬ Collinear T.B T.A T.C := fun hc => h (by
    unfold Collinear cross at *; simp only [Pt.sub_x, Pt.sub_y] at *; linarith)
  have h3 : ¬ Collinear T.C T.B T.A := fun hc => h (by
    unfold Collinear cross at *; simp only [Pt.sub_x, Pt.sub_y] at *; linarith)
  obtain ⟨α, e1, b1⟩ := FAng.angle hB k acosF hη hA hB' hC h rfl (Or.inl ⟨rfl, rfl⟩)
  obtain ⟨β, e2, b2⟩ := FAng.angle hB k acosF hη hB' hA hC h2 rfl (Or.inl ⟨rfl, rfl⟩)
  obtain ⟨γ, e3, b3⟩ := FAng.angle hB k acosF hη hC hB' hA h3 rfl (Or.inr ⟨rfl, rfl⟩)
  refine ⟨α, β, γ, e1, e2, e3, b1, b2, ?_⟩
  rwa [angleAt_comm] at b3

/-- **C133** The sum of the three computed angles is nearly `π`. -/
theorem C133_sum (k : Fma) (acosF : ℝ → ℝ) {η : ℝ} (hη : ∀ x, -1 ≤ x → x ≤ 1 → |acosF x - arccos x| ≤ η) (T : Triangle) {B : ℕ}
    (hB : B ≤ 512) (hA : IntPt B T.A) (hB' : IntPt B T.B) (hC : IntPt B T.C) (h : ¬ Collinear T.A T.B T.C) {α β γ : ℝ}
    (h1 : T.angleAF k acosF = .ok α) (h2 : T.angleBF k acosF = .ok β) (h3 : T.angleCF k acosF = .ok γ) :
    |α + β + γ - π| ≤ 3 * η + 456 * (B : ℝ) ^ 2 / 2 ^ 53 := by
  obtain ⟨α', β', γ', e1, e2, e3, b1, b2, b3⟩ := C133_angles k acosF hη T hB hA hB' hC h
  rw [h1] at e1; rw [h2] at e2; rw [h3] at e3
  cases e1; cases e2; cases e3
  have hs := angleAt_sum T.A T.B T.C (by intro e; apply h; rw [e]; simp [Collinear, cross])
    (by intro e; apply h; rw [e]; simp [Collinear, cross]) (by intro e; apply h; rw [e]; simp [Collinear, cross]; ring)
  rw [abs_le] at *
  constructor <;> linarith [b1.1, b1.2, b2.1, b2.2, b3.1, b3.2]

/-- The triangle with the vertices `(0,0)`, `(4,0)`, `(0,3)` has a right angle. -/
example (k : Fma) (acosF : ℝ → ℝ) (hη : ∀ x, -1 ≤ x → x ≤ 1 → |acosF x - arccos x| ≤ 1 / 2 ^ 51) :
    ∃ α, (⟨⟨0, 0⟩, ⟨4, 0⟩, ⟨0, 3⟩⟩ : Triangle).angleAF k acosF = .ok α ∧ |α - π / 2| ≤ 1 / 2 ^ 41 := by
  obtain ⟨α, β, γ, e1, -, -, b1, -, -⟩ := C133_angles k acosF hη ⟨⟨0, 0⟩, ⟨4, 0⟩, ⟨0, 3⟩⟩ (B := 4) (by norm_num)
    ⟨⟨0, by norm_num, by norm_num⟩, ⟨0, by norm_num, by norm_num⟩⟩ ⟨⟨4, by norm_num, by norm_num⟩, ⟨0, by norm_num, by norm_num⟩⟩
    ⟨⟨0, by norm_num, by norm_num⟩, ⟨3, by norm_num, by norm_num⟩⟩ (by norm_num [Collinear, cross])
  refine ⟨α, e1, ?_⟩
  have : angleAt ⟨4, 0⟩ ⟨0, 0⟩ ⟨0, 3⟩ = π / 2 := by
    unfold angleAt; simp [dot]
  rw [← this]
  exact b1.trans (by norm_num)

/-- The sum of the angles of the same triangle. -/
example (k : Fma) (acosF : ℝ → ℝ) (hη : ∀ x, -1 ≤ x → x ≤ 1 → |acosF x - arccos x| ≤ 1 / 2 ^ 51) {α β γ : ℝ}
    (h1 : (⟨⟨0, 0⟩, ⟨4, 0⟩, ⟨0, 3⟩⟩ : Triangle).angleAF k acosF = .ok α) (h2 : (⟨⟨0, 0⟩, ⟨4, 0⟩, ⟨0, 3⟩⟩ : Triangle).angleBF k acosF = .ok β)
    (h3 : (⟨⟨0, 0⟩, ⟨4, 0⟩, ⟨0, 3⟩⟩ : Triangle).angleCF k acosF = .ok γ) : |α + β + γ - π| ≤ 1 / 2 ^ 40 :=
  (C133_sum k acosF hη ⟨⟨0, 0⟩, ⟨4, 0⟩, ⟨0, 3⟩⟩ (B := 4) (by norm_num)
    ⟨⟨0, by norm_num, by norm_num⟩, ⟨0, by norm_num, by norm_num⟩⟩ ⟨⟨4, by norm_num, by norm_num⟩, ⟨0, by norm_num, by norm_num⟩⟩
    ⟨⟨0, by norm_num, by norm_num⟩, ⟨3, by norm_num, by norm_num⟩⟩ (by norm_num [Collinear, cross]) h1 h2 h3).trans (by norm_num)

/-- **C133** The flat triangle with the vertices `(0,0)`, `(3,2)`, `(6,4)` has the angle `0` at its first vertex, and this is the value with
exact arithmetic; in double precision the quotient is `1 + 2^-52` and `acos` raises an exception. -/
theorem C133_flat_counterexample (k : Fma) (acosF : ℝ → ℝ) :
    (⟨⟨0, 0⟩, ⟨3, 2⟩, ⟨6, 4⟩⟩ : Triangle).angleA = .ok 0 ∧
    (⟨⟨0, 0⟩, ⟨3, 2⟩, ⟨6, 4⟩⟩ : Triangle).angleAF k acosF = .error (.valueError "math domain error") := by
  constructor
  · have h1 : (⟨0, 0⟩ : Pt) ≠ ⟨3, 2⟩ := by simp
    have h2 : (⟨0, 0⟩ : Pt) ≠ ⟨6, 4⟩ := by simp
    have e := angle_aux ⟨0, 0⟩ ⟨3, 2⟩ ⟨6, 4⟩ h1 h2
    have e0 : angleAt ⟨3, 2⟩ ⟨0, 0⟩ ⟨6, 4⟩ = 0 := by
      unfold angleAt
      have : Spec.dist (⟨0, 0⟩ : Pt) ⟨3, 2⟩ * Spec.dist (⟨0, 0⟩ : Pt) ⟨6, 4⟩ = 26 := by
        unfold Spec.dist
        rw [← Real.sqrt_mul (by norm_num [sqDist])]
        norm_num [sqDist]
        rw [show (676 : ℝ) = 26 ^ 2 by norm_num, Real.sqrt_sq (by norm_num)]
      rw [this]
      norm_num [dot]
    rw [e0] at e
    exact e
  · have i0 : IntPt 512 ⟨0, 0⟩ := ⟨⟨0, by norm_num, by norm_num⟩, ⟨0, by norm_num, by norm_num⟩⟩
    have i3 : IntPt 512 ⟨3, 2⟩ := ⟨⟨3, by norm_num, by norm_num⟩, ⟨2, by norm_num, by norm_num⟩⟩
    have i6 : IntPt 512 ⟨6, 4⟩ := ⟨⟨6, by norm_num, by norm_num⟩, ⟨4, by norm_num, by norm_num⟩⟩
    have eb : distanceF k ⟨0, 0⟩ ⟨6, 4⟩ = 8118979690322419 / 2 ^ 50 := by
      rw [FH.distance_int le_rfl k i0 i6, FH.fl_sqrt (e := -50) (n := 8118979690322419) (by norm_num) (by norm_num) (by norm_num)
        (by norm_num [sqDist]) (by norm_num [sqDist])]
      norm_num
    have ec : distanceF k ⟨0, 0⟩ ⟨3, 2⟩ = 8118979690322419 / 2 ^ 51 := by
      rw [FH.distance_int le_rfl k i0 i3, FH.fl_sqrt (e := -51) (n := 8118979690322419) (by norm_num) (by norm_num) (by norm_num)
        (by norm_num [sqDist]) (by norm_num [sqDist])]
      norm_num
    obtain ⟨s1, j1⟩ := FI.subPt i6 i0 (by norm_num)
    obtain ⟨s2, j2⟩ := FI.subPt i3 i0 (by norm_num)
    have eD : vdotF k (subF ⟨6, 4⟩ ⟨0, 0⟩) (subF ⟨3, 2⟩ ⟨0, 0⟩) = 26 := by
      rw [s1, s2, FI.vdot k j1 j2 (by norm_num)]; norm_num
    unfold Triangle.angleAF npDivF pyAcosF
    dsimp only
    rw [FAng.vlength_eq, FAng.vlength_eq, eD, eb, ec, if_neg (by norm_num), Res.ok_bind, if_neg (by norm_num), Res.ok_bind]
    have e1 : fl (26 / (8118979690322419 / 2 ^ 50)) = 8118979690322420 / 2 ^ 51 := by
      rw [fl_eval (e := -51) (n := 8118979690322420) (by norm_num) (by norm_num [abs_of_pos]) (by norm_num [abs_of_pos]) (by norm_num [abs_lt])]
      norm_num
    have e2 : fl (8118979690322420 / 2 ^ 51 / (8118979690322419 / 2 ^ 51)) = 4503599627370497 / 2 ^ 52 := by
      rw [fl_eval (e := -52) (n := 4503599627370497) (by norm_num) (by norm_num [abs_of_pos]) (by norm_num [abs_of_pos]) (by norm_num [abs_lt])]
      norm_num
    rw [e1, e2, if_pos (by norm_num)]

/-- **C133** The flat triangle with the vertices `(0,0)`, `(1,1)`, `(2,2)` has the angle `0` at its first vertex; the quotient is `1 - 2^-53` and
the computed angle is larger than `2^-27` (about `7·10⁻⁹`), however accurate the function `acos` is: the factor `1 / sin` of the error cannot
be dropped. -/
theorem C133_zero_counterexample (k : Fma) (acosF : ℝ → ℝ) (hη : ∀ x, -1 ≤ x → x ≤ 1 → |acosF x - arccos x| ≤ 1 / 2 ^ 51) :
    angleAt ⟨1, 1⟩ ⟨0, 0⟩ ⟨2, 2⟩ = 0 ∧
    ∃ α, (⟨⟨0, 0⟩, ⟨1, 1⟩, ⟨2, 2⟩⟩ : Triangle).angleAF k acosF = .ok α ∧ 1 / 2 ^ 27 < α := by
  constructor
  · unfold angleAt
    have : Spec.dist (⟨0, 0⟩ : Pt) ⟨1, 1⟩ * Spec.dist (⟨0, 0⟩ : Pt) ⟨2, 2⟩ = 4 := by
      unfold Spec.dist
      rw [← Real.sqrt_mul (by norm_num [sqDist])]
      norm_num [sqDist]
      rw [show (16 : ℝ) = 4 ^ 2 by norm_num, Real.sqrt_sq (by norm_num)]
    rw [this]
    norm_num [dot]
  · have i0 : IntPt 512 ⟨0, 0⟩ := by simpa using FH.int_diag 0 (by norm_num)
    have i1 : IntPt 512 ⟨1, 1⟩ := by simpa using FH.int_diag 1 (by norm_num)
    have i2 : IntPt 512 ⟨2, 2⟩ := by simpa using FH.int_diag 2 (by norm_num)
    have eb : distanceF k ⟨0, 0⟩ ⟨2, 2⟩ = 6369051672525773 / 2 ^ 51 := by
      rw [FH.distance_int le_rfl k i0 i2, FH.fl_sqrt (e := -51) (n := 6369051672525773) (by norm_num) (by norm_num) (by norm_num)
        (by norm_num [sqDist]) (by norm_num [sqDist])]
      norm_num
    have ec : distanceF k ⟨0, 0⟩ ⟨1, 1⟩ = 6369051672525773 / 2 ^ 52 := by
      rw [FH.distance_int le_rfl k i0 i1, FH.fl_sqrt (e := -52) (n := 6369051672525773) (by norm_num) (by norm_num) (by norm_num)
        (by norm_num [sqDist]) (by norm_num [sqDist])]
      norm_num
    obtain ⟨s1, j1⟩ := FI.subPt i2 i0 (by norm_num)
    obtain ⟨s2, j2⟩ := FI.subPt i1 i0 (by norm_num)
    have eD : vdotF k (subF ⟨2, 2⟩ ⟨0, 0⟩) (subF ⟨1, 1⟩ ⟨0, 0⟩) = 4 := by
      rw [s1, s2, FI.vdot k j1 j2 (by norm_num)]; norm_num
    unfold Triangle.angleAF npDivF pyAcosF
    dsimp only
    rw [FAng.vlength_eq, FAng.vlength_eq, eD, eb, ec, if_neg (by norm_num), Res.ok_bind, if_neg (by norm_num), Res.ok_bind]
    have e1 : fl (4 / (6369051672525773 / 2 ^ 51)) = 6369051672525772 / 2 ^ 52 := by
      rw [fl_eval (e := -52) (n := 6369051672525772) (by norm_num) (by norm_num [abs_of_pos]) (by norm_num [abs_of_pos]) (by norm_num [abs_lt])]
      norm_num
    have e2 : fl (6369051672525772 / 2 ^ 52 / (6369051672525773 / 2 ^ 52)) = 1 - 1 / 2 ^ 53 := by
      rw [fl_eval (e := -53) (n := 9007199254740991) (by norm_num) (by norm_num [abs_of_pos]) (by norm_num [abs_of_pos]) (by norm_num [abs_lt])]
      norm_num
    rw [e1, e2, if_neg (by norm_num)]
    refine ⟨_, rfl, ?_⟩
    have ha := (abs_le.1 (hη (1 - 1 / 2 ^ 53) (by norm_num) (by norm_num))).1
    have hlow : 1 / 2 ^ 26 ≤ arccos (1 - 1 / 2 ^ 53) := by
      by_contra hc
      push Not at hc
      have h0 := arccos_nonneg (1 - 1 / 2 ^ 53)
      have h1 := one_sub_sq_div_two_le_cos (x := arccos (1 - 1 / 2 ^ 53))
      rw [cos_arccos (by norm_num) (by norm_num)] at h1
      generalize arccos (1 - 1 / 2 ^ 53) = t at *
      have : t ^ 2 < (1 / 2 ^ 26) ^ 2 := pow_lt_pow_left₀ hc h0 (by norm_num)
      norm_num at this h1
      linarith
    generalize arccos (1 - 1 / 2 ^ 53) = t at *
    norm_num at *
    linarith
