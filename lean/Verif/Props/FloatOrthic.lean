import Verif.Model.FloatOrthic
import Verif.Props.FloatAngles
import Verif.Props.FloatCircumcircle

/-!
# C134: the orthic triangle in double precision
-/

open Spec Real Classical

namespace FOrth

open FH

/-- Rounding of a number of absolute value at most `M`. -/
theorem fl_abs {x M : ℝ} (hx : |x| ≤ M) (hM : 1 ≤ M) : |fl x - x| ≤ 101 / 100 / 2 ^ 53 * M := by
  have h1 := FG.fl_err' x
  have h2 := FI.tiny_small
  unfold FG.tiny at *
  generalize (2 : ℝ) ^ (-1075 : ℤ) = t at *
  generalize |fl x - x| = v at *
  generalize |x| = w at *
  norm_num at *
  linarith

/-- A weight: the length times the cosine. -/
theorem weight_pos {D a b c a' q' : ℝ} (hD : 1 ≤ D) (hb : 1 ≤ b) (hc : 1 ≤ c) (hb2 : b ≤ 2 ^ 11) (hc2 : c ≤ 2 ^ 11) (ha : 1 ≤ a)
    (ra : FH.Rel (101 / 100 / 2 ^ 53) a' a) (hle : D ≤ b * c) (rq : FH.Rel (6 / 2 ^ 53) q' (D / (b * c))) :
    FH.Rel (15 / 2 ^ 53) (fl (a' / fl (1 / q'))) (a * (D / (b * c))) ∧ 0 < q' := by
  have hbc : 0 < b * c := by positivity
  have hbc2 : b * c ≤ 2 ^ 22 := by
    calc b * c ≤ 2 ^ 11 * 2 ^ 11 := mul_le_mul hb2 hc2 (by linarith) (by norm_num)
      _ = _ := by norm_num
  have y1 : 1 / 2 ^ 22 ≤ D / (b * c) := by
    rw [div_le_div_iff₀ (by norm_num) hbc]; linarith
  have y2 : D / (b * c) ≤ 1 := by rw [div_le_one hbc]; exact hle
  generalize D / (b * c) = y at *
  have y0 : 0 < y := lt_of_lt_of_le (by norm_num) y1
  have q0 : 0 < q' := lt_of_lt_of_le (mul_pos (by norm_num) y0) rq.bounds.1
  refine ⟨?_, q0⟩
  have r0 : FH.Rel 0 (1 : ℝ) 1 := by unfold FH.Rel; simp
  have r1 := r0.div (γ := 78 / 10 / 2 ^ 53) rq (by norm_num) y0 le_rfl (by norm_num) (by norm_num) (by norm_num) (by norm_num)
  have g1 : 1 ≤ 1 / y := by rw [le_div_iff₀ y0]; linarith
  have r2 := r1.fl (γ := 91 / 10 / 2 ^ 53) (le_trans (by norm_num) g1) (by norm_num) (by norm_num) (by norm_num)
  have r3 := ra.div (γ := 129 / 10 / 2 ^ 53) r2 (by linarith) (by linarith) (by norm_num) (by norm_num) (by norm_num) (by norm_num)
    (by norm_num)
  have e : a / (1 / y) = a * y := by field_simp
  rw [e] at r3
  exact r3.fl (le_trans (le_trans (by norm_num) y1) (le_mul_of_one_le_left y0.le ha)) (by norm_num) (by norm_num) (by norm_num)

theorem weight {D a b c a' b' c' : ℝ} {M : ℕ} (hD : IntB M D) (hb : 1 ≤ b) (hc : 1 ≤ c) (hb2 : b ≤ 2 ^ 11) (hc2 : c ≤ 2 ^ 11) (ha : 1 ≤ a)
    (ra : FH.Rel (101 / 100 / 2 ^ 53) a' a) (rb : FH.Rel (101 / 100 / 2 ^ 53) b' b) (rc : FH.Rel (101 / 100 / 2 ^ 53) c' c)
    (hle : |D| ≤ b * c) :
    |orthicWeightF a' (fl (fl (D / b') / c')) - a * (D / (b * c))| ≤ 15 / 2 ^ 53 * |a * (D / (b * c))| := by
  unfold orthicWeightF
  rcases lt_trichotomy D 0 with h | h | h
  · have h1 := FI.one_le_abs hD h.ne
    rw [abs_of_neg h] at h1 hle
    have r := FAng.quot_pos h1 hb hc hb2 hc2 rb rc
    obtain ⟨r, q0⟩ := weight_pos h1 hb hc hb2 hc2 ha ra hle r
    rw [neg_div, fl_neg, neg_div, fl_neg] at q0 r
    unfold FH.Rel at r
    rw [if_neg (by linarith)]
    rw [div_neg, fl_neg, div_neg, fl_neg, neg_div, mul_neg] at r
    rw [abs_of_neg (mul_neg_of_pos_of_neg (by linarith) (div_neg_of_neg_of_pos h (by positivity)))]
    rwa [← neg_add', abs_neg, ← sub_eq_add_neg] at r
  · rw [h]; simp [fl_zero]
  · have h1 := FI.one_le hD h
    rw [abs_of_pos h] at hle
    obtain ⟨r, q0⟩ := weight_pos h1 hb hc hb2 hc2 ha ra hle (FAng.quot_pos h1 hb hc hb2 hc2 rb rc)
    rw [if_neg q0.ne', abs_of_pos (mul_pos (by linarith) (div_pos h (by positivity)))]
    exact r

/-- One product of the numerator. -/
theorem term {p p' x B : ℝ} (hB : 1 ≤ B) (hp : |p| ≤ 3 * B) (hp' : |p' - p| ≤ 15 / 2 ^ 53 * |p|) (hx : |x| ≤ B) :
    |fl (p' * x) - p * x| ≤ 4804 / 100 / 2 ^ 53 * B ^ 2 := by
  have h1 : |p' - p| ≤ 45 / 2 ^ 53 * B := hp'.trans (by
    calc 15 / 2 ^ 53 * |p| ≤ 15 / 2 ^ 53 * (3 * B) := mul_le_mul_of_nonneg_left hp (by norm_num)
      _ = _ := by ring)
  have h2 : |p'| ≤ 3001 / 1000 * B := by
    have : |p'| ≤ |p' - p| + |p| := by
      calc |p'| = |(p' - p) + p| := by ring_nf
        _ ≤ _ := abs_add_le _ _
    norm_num at h1
    linarith
  have h3 : |p' * x| ≤ 3001 / 1000 * B ^ 2 := by
    calc |p' * x| ≤ 3001 / 1000 * B * B := FCirc.abs_mul_le h2 hx
      _ = _ := by ring
  have hB2 : 1 ≤ B ^ 2 := one_le_pow₀ hB
  have h4 := fl_abs h3 (by linarith)
  have h5 : |p' * x - p * x| ≤ 45 / 2 ^ 53 * B ^ 2 := by
    rw [← sub_mul]
    calc |(p' - p) * x| ≤ 45 / 2 ^ 53 * B * B := FCirc.abs_mul_le h1 hx
      _ = _ := by ring
  have h6 := abs_sub_le (fl (p' * x)) (p' * x) (p * x)
  generalize |fl (p' * x) - p * x| = v at *
  generalize |fl (p' * x) - p' * x| = v1 at *
  generalize |p' * x - p * x| = v2 at *
  generalize B ^ 2 = S at *
  norm_num at *
  linarith

theorem denom {p q p' q' a B : ℝ} (hB : 1 ≤ B) (hB' : B ≤ 512) (hp : |p| ≤ 3 * B) (hq : |q| ≤ 3 * B) (hp' : |p' - p| ≤ 15 / 2 ^ 53 * |p|)
    (hq' : |q' - q| ≤ 15 / 2 ^ 53 * |q|) (hs : p + q = a) : |fl (p' + q') - a| ≤ 98 / 2 ^ 53 * B := by
  have h1 : |p' + q' - a| ≤ 90 / 2 ^ 53 * B := by
    rw [← hs, show p' + q' - (p + q) = (p' - p) + (q' - q) by ring]
    refine (abs_add_le _ _).trans ?_
    generalize |p' - p| = v at *
    generalize |q' - q| = w at *
    generalize |p| = v1 at *
    generalize |q| = v2 at *
    norm_num at *
    linarith
  have ha : |a| ≤ 6 * B := by
    rw [← hs]; exact (abs_add_le _ _).trans (by linarith)
  have h2 : |p' + q'| ≤ 7 * B := by
    have : |p' + q'| ≤ |p' + q' - a| + |a| := by
      calc |p' + q'| = |(p' + q' - a) + a| := by ring_nf
        _ ≤ _ := abs_add_le _ _
    norm_num at h1
    linarith
  have h3 := fl_abs h2 (by linarith)
  have h4 := abs_sub_le (fl (p' + q')) (p' + q') a
  generalize |fl (p' + q') - a| = v at *
  generalize |fl (p' + q') - (p' + q')| = v1 at *
  generalize |p' + q' - a| = v2 at *
  norm_num at *
  linarith

/-- A coordinate of a foot. -/
theorem coord {p q p' q' a x y B : ℝ} (hB : 1 ≤ B) (hB' : B ≤ 512) (hp : |p| ≤ 3 * B) (hq : |q| ≤ 3 * B) (hp' : |p' - p| ≤ 15 / 2 ^ 53 * |p|)
    (hq' : |q' - q| ≤ 15 / 2 ^ 53 * |q|) (hs : p + q = a) (ha : 1 ≤ a) (hx : |x| ≤ B) (hy : |y| ≤ B) (hxy : |y - x| ≤ a) :
    |orthicCoordF p' q' x y - (p * x + q * y) / a| ≤ B ^ 2 / 2 ^ 44 := by
  have hD := denom hB hB' hp hq hp' hq' hs
  have t1 := term hB hp hp' hx
  have t2 := term hB hq hq' hy
  have hB2 : B ≤ B ^ 2 := by nlinarith
  have hB3 : (1 : ℝ) ≤ B ^ 2 := hB.trans hB2
  have a0 : (0 : ℝ) < a := by linarith
  have hH : |(p * x + q * y) / a| ≤ 4 * B := by
    have e : (p * x + q * y) / a = x + q * ((y - x) / a) := by
      have : p = a - q := by linarith
      rw [this]; field_simp; ring
    have : |(y - x) / a| ≤ 1 := by rw [abs_div, abs_of_pos a0, div_le_one a0]; exact hxy
    rw [e]
    refine (abs_add_le _ _).trans ?_
    have := FCirc.abs_mul_le hq this
    linarith
  have hN : |p * x + q * y| ≤ 6 * B ^ 2 := by
    refine (abs_add_le _ _).trans ?_
    have := FCirc.abs_mul_le hp hx
    have := FCirc.abs_mul_le hq hy
    nlinarith
  unfold orthicCoordF
  generalize fl (p' * x) = f1 at *
  generalize fl (q' * y) = f2 at *
  generalize fl (p' + q') = D at *
  have e1 : |f1 + f2 - (p * x + q * y)| ≤ 9608 / 100 / 2 ^ 53 * B ^ 2 := by
    rw [show f1 + f2 - (p * x + q * y) = (f1 - p * x) + (f2 - q * y) by ring]
    refine (abs_add_le _ _).trans ?_
    generalize |f1 - p * x| = v at *
    generalize |f2 - q * y| = w at *
    norm_num at *
    linarith
  generalize p * x + q * y = N at *
  have e2 : |f1 + f2| ≤ 61 / 10 * B ^ 2 := by
    have : |f1 + f2| ≤ |f1 + f2 - N| + |N| := by
      calc |f1 + f2| = |(f1 + f2 - N) + N| := by ring_nf
        _ ≤ _ := abs_add_le _ _
    norm_num at e1
    linarith
  have e3 := fl_abs e2 (by linarith)
  have e4 : |fl (f1 + f2) - N| ≤ 1024 / 10 / 2 ^ 53 * B ^ 2 := by
    have := abs_sub_le (fl (f1 + f2)) (f1 + f2) N
    generalize |fl (f1 + f2) - N| = v at *
    generalize |fl (f1 + f2) - (f1 + f2)| = v1 at *
    generalize |f1 + f2 - N| = v2 at *
    norm_num at *
    linarith
  generalize fl (f1 + f2) = N' at *
  have hD1 : 999 / 1000 ≤ D := by
    have := (abs_le.1 hD).1
    norm_num at this
    linarith
  have D0 : 0 < D := by linarith
  have key : N' / D - N / a = ((N' - N) - N / a * (D - a)) / D := by field_simp; ring
  have e5 : |N' / D - N / a| ≤ 496 / 2 ^ 53 * B ^ 2 := by
    rw [key, abs_div, abs_of_pos D0, div_le_iff₀ D0]
    have k1 : |N / a * (D - a)| ≤ 392 / 2 ^ 53 * B ^ 2 := by
      calc |N / a * (D - a)| ≤ 4 * B * (98 / 2 ^ 53 * B) := FCirc.abs_mul_le hH hD
        _ = _ := by ring
    have k2 := (abs_sub (N' - N) (N / a * (D - a)))
    have k3 : 496 / 2 ^ 53 * B ^ 2 * (999 / 1000) ≤ 496 / 2 ^ 53 * B ^ 2 * D := mul_le_mul_of_nonneg_left hD1 (by positivity)
    generalize |N' - N - N / a * (D - a)| = v at *
    generalize |N / a * (D - a)| = v1 at *
    generalize |N' - N| = v2 at *
    generalize 496 / 2 ^ 53 * B ^ 2 * D = v3 at *
    norm_num at *
    linarith
  have e6 : |N' / D| ≤ 5 * B := by
    have : |N' / D| ≤ |N' / D - N / a| + |N / a| := by
      calc |N' / D| = |(N' / D - N / a) + N / a| := by ring_nf
        _ ≤ _ := abs_add_le _ _
    have : B ^ 2 ≤ 512 * B := by nlinarith
    norm_num at e5
    linarith
  have e7 := fl_abs e6 (by linarith)
  have e8 := abs_sub_le (fl (N' / D)) (N' / D) (N / a)
  generalize |fl (N' / D) - N / a| = v at *
  generalize |fl (N' / D) - N' / D| = v1 at *
  generalize |N' / D - N / a| = v2 at *
  norm_num at *
  linarith

theorem dot_le (P Q R : Pt) : |dot (Q - P) (R - P)| ≤ Spec.dist P Q * Spec.dist P R := by
  have e1 := dist_sq P Q
  have e2 := dist_sq P R
  apply abs_le_of_sq_le_sq _ (mul_nonneg (dist_nonneg _ _) (dist_nonneg _ _))
  rw [mul_pow, e1, e2]
  simp only [dot, sqDist, Pt.sub_x, Pt.sub_y]
  nlinarith [sq_nonneg ((Q.x - P.x) * (R.y - P.y) - (Q.y - P.y) * (R.x - P.x))]

/-- The foot of the altitude from `P`, from two weights. -/
theorem foot {B : ℕ} (hB : B ≤ 512) {P Q R : Pt} (hQ : IntPt B Q) (hR : IntPt B R) (ha : 1 ≤ Spec.dist Q R)
    (hb2 : Spec.dist P R ≤ 3 * B) (hc2 : Spec.dist P Q ≤ 3 * B) {p' q' p q : ℝ}
    (ep : p = dot (P - R) (Q - R) / Spec.dist Q R) (eq : q = dot (R - Q) (P - Q) / Spec.dist Q R)
    (hp : |p' - p| ≤ 15 / 2 ^ 53 * |p|) (hq : |q' - q| ≤ 15 / 2 ^ 53 * |q|) :
    fl (p' + q') ≠ 0 ∧ ∃ F, OnLine Q R F ∧ Perp (F - P) (R - Q) ∧ |orthicCoordF p' q' Q.x R.x - F.x| ≤ (B : ℝ) ^ 2 / 2 ^ 44 ∧
      |orthicCoordF p' q' Q.y R.y - F.y| ≤ (B : ℝ) ^ 2 / 2 ^ 44 := by
  have a0 : 0 < Spec.dist Q R := by linarith
  have a2 := dist_sq Q R
  have hBr : (B : ℝ) ≤ 512 := by exact_mod_cast hB
  have xq := FI.abs_le hQ.1
  have yq := FI.abs_le hQ.2
  have xr := FI.abs_le hR.1
  have yr := FI.abs_le hR.2
  have hB1 : (1 : ℝ) ≤ B := by
    rcases Nat.eq_zero_or_pos B with h0 | h0
    · exfalso
      rw [h0, Nat.cast_zero] at xq yq xr yr
      have q1 := abs_nonpos_iff.1 xq
      have q2 := abs_nonpos_iff.1 yq
      have q3 := abs_nonpos_iff.1 xr
      have q4 := abs_nonpos_iff.1 yr
      unfold sqDist at a2
      rw [q1, q2, q3, q4] at a2
      nlinarith
    · exact_mod_cast h0
  have m1 : |p| ≤ 3 * B := by
    rw [ep, abs_div, abs_of_pos a0, div_le_iff₀ a0]
    refine (dot_le R P Q).trans ?_
    rw [dist_comm R P, dist_comm R Q]
    exact mul_le_mul_of_nonneg_right hb2 a0.le
  have m2 : |q| ≤ 3 * B := by
    rw [eq, abs_div, abs_of_pos a0, div_le_iff₀ a0]
    refine (dot_le Q R P).trans ?_
    rw [dist_comm Q P, mul_comm]
    exact mul_le_mul_of_nonneg_right hc2 a0.le
  have hs : p + q = Spec.dist Q R := by
    rw [ep, eq, ← add_div, div_eq_iff a0.ne', ← sq, a2]
    simp only [dot, sqDist, Pt.sub_x, Pt.sub_y]; ring
  obtain ⟨d1, d2, -⟩ := FCirc.abs_le_dist R Q
  rw [dist_comm R Q] at d1 d2
  refine ⟨?_, ⟨(p * Q.x + q * R.x) / Spec.dist Q R, (p * Q.y + q * R.y) / Spec.dist Q R⟩, ?_, ?_, ?_, ?_⟩
  · intro h0
    have := denom hB1 hBr m1 m2 hp hq hs
    rw [h0, zero_sub, abs_neg, abs_of_pos a0] at this
    norm_num at this
    linarith
  · refine ⟨q / Spec.dist Q R, ?_⟩
    have : p = Spec.dist Q R - q := by linarith
    ext <;> simp only [Pt.add_x, Pt.add_y, Pt.smul_x, Pt.smul_y, Pt.sub_x, Pt.sub_y] <;> rw [this] <;> field_simp <;> ring
  · have hp2 : p = Spec.dist Q R - q := by linarith
    unfold Perp
    have hqa : q * Spec.dist Q R = dot (R - Q) (P - Q) := by rw [eq]; field_simp
    have e : dot ((⟨(p * Q.x + q * R.x) / Spec.dist Q R, (p * Q.y + q * R.y) / Spec.dist Q R⟩ : Pt) - P) (R - Q) =
        (q * Spec.dist Q R * sqDist Q R - Spec.dist Q R ^ 2 * dot (R - Q) (P - Q)) / Spec.dist Q R ^ 2 := by
      simp only [dot, sqDist, Pt.sub_x, Pt.sub_y]
      rw [hp2]; field_simp; ring
    rw [e, hqa, ← a2]; ring
  · exact coord hB1 hBr m1 m2 hp hq hs ha xq xr d1
  · exact coord hB1 hBr m1 m2 hp hq hs ha yq yr d2

end FOrth

set_option maxHeartbeats 1000000 in
/-- **C134** `Triangle.orthic_triangle` in double precision.  For three different points with integer coordinates of absolute value at most
`B ≤ 512` (acute, obtuse, right or flat triangles) the result is a triangle, whose vertices are within `B² / 2^44` (in each coordinate) of
the feet of the altitudes. -/
theorem C134_orthic (k : Fma) (T : Triangle) {B : ℕ} (hB : B ≤ 512) (hA : IntPt B T.A) (hB' : IntPt B T.B) (hC : IntPt B T.C)
    (h1 : T.A ≠ T.B) (h2 : T.A ≠ T.C) (h3 : T.B ≠ T.C) :
    ∃ H FA FB FC, T.orthicF k = .ok H ∧
      OnLine T.B T.C FA ∧ Perp (FA - T.A) (T.C - T.B) ∧ |H.A.x - FA.x| ≤ (B : ℝ) ^ 2 / 2 ^ 44 ∧ |H.A.y - FA.y| ≤ (B : ℝ) ^ 2 / 2 ^ 44 ∧
      OnLine T.A T.C FB ∧ Perp (FB - T.B) (T.C - T.A) ∧ |H.B.x - FB.x| ≤ (B : ℝ) ^ 2 / 2 ^ 44 ∧ |H.B.y - FB.y| ≤ (B : ℝ) ^ 2 / 2 ^ 44 ∧
      OnLine T.A T.B FC ∧ Perp (FC - T.C) (T.B - T.A) ∧ |H.C.x - FC.x| ≤ (B : ℝ) ^ 2 / 2 ^ 44 ∧ |H.C.y - FC.y| ≤ (B : ℝ) ^ 2 / 2 ^ 44 := by
  obtain ⟨ra, da, sa⟩ := FH.distance hB k hB' hC
  obtain ⟨rb, db, sb⟩ := FH.distance hB k hA hC
  obtain ⟨rc, dc, sc⟩ := FH.distance hB k hB' hA
  replace da := da.resolve_left (dist_pos_of_ne h3).ne'
  replace db := db.resolve_left (dist_pos_of_ne h2).ne'
  replace dc := dc.resolve_left (dist_pos_of_ne h1.symm).ne'
  have hBr : (B : ℝ) ≤ 512 := by exact_mod_cast hB
  have hB0 : (0 : ℝ) ≤ B := Nat.cast_nonneg _
  have up : ∀ {z : ℝ}, 1 ≤ z → z ^ 2 ≤ 8 * (B : ℝ) ^ 2 → z ≤ 3 * B := by
    intro z h1 h2
    by_contra hc
    push Not at hc
    nlinarith [sq_nonneg (B : ℝ)]
  have nz : ∀ {x y : ℝ}, 1 ≤ y → FH.Rel (101 / 100 / 2 ^ 53) x y → x ≠ 0 := by
    intro x y hy hr hx
    have := hr.bounds.1
    rw [hx] at this
    norm_num at this; linarith
  have ua := up da sa
  have ub := up db sb
  have uc := up dc sc
  have big : 3 * (B : ℝ) ≤ 2 ^ 11 := by norm_num; linarith
  obtain ⟨eCA, iCA⟩ := FI.subPt hC hA (by omega)
  obtain ⟨eBA, iBA⟩ := FI.subPt hB' hA (by omega)
  obtain ⟨eCB, iCB⟩ := FI.subPt hC hB' (by omega)
  obtain ⟨eAB, iAB⟩ := FI.subPt hA hB' (by omega)
  obtain ⟨eAC, iAC⟩ := FI.subPt hA hC (by omega)
  obtain ⟨eBC, iBC⟩ := FI.subPt hB' hC (by omega)
  have vA : vdotF k (subF T.C T.A) (subF T.B T.A) = dot (T.C - T.A) (T.B - T.A) := by
    rw [eCA, eBA, FI.vdot k iCA iBA (by nlinarith)]; rfl
  have vB : vdotF k (subF T.C T.B) (subF T.A T.B) = dot (T.C - T.B) (T.A - T.B) := by
    rw [eCB, eAB, FI.vdot k iCB iAB (by nlinarith)]; rfl
  have vC : vdotF k (subF T.A T.C) (subF T.B T.C) = dot (T.A - T.C) (T.B - T.C) := by
    rw [eAC, eBC, FI.vdot k iAC iBC (by nlinarith)]; rfl
  have jA : IntB ((B + B) * (B + B) + (B + B) * (B + B)) (dot (T.C - T.A) (T.B - T.A)) :=
    FI.add (FI.mul iCA.1 iBA.1) (FI.mul iCA.2 iBA.2)
  have jB : IntB ((B + B) * (B + B) + (B + B) * (B + B)) (dot (T.C - T.B) (T.A - T.B)) :=
    FI.add (FI.mul iCB.1 iAB.1) (FI.mul iCB.2 iAB.2)
  have jC : IntB ((B + B) * (B + B) + (B + B) * (B + B)) (dot (T.A - T.C) (T.B - T.C)) :=
    FI.add (FI.mul iAC.1 iBC.1) (FI.mul iAC.2 iBC.2)
  have lA : |dot (T.C - T.A) (T.B - T.A)| ≤ Spec.dist T.A T.C * Spec.dist T.B T.A := by
    rw [dist_comm T.B T.A]; exact FOrth.dot_le T.A T.C T.B
  have lB : |dot (T.C - T.B) (T.A - T.B)| ≤ Spec.dist T.B T.C * Spec.dist T.B T.A := FOrth.dot_le T.B T.C T.A
  have lC : |dot (T.A - T.C) (T.B - T.C)| ≤ Spec.dist T.B T.C * Spec.dist T.A T.C := by
    rw [dist_comm T.B T.C, dist_comm T.A T.C, mul_comm]; exact FOrth.dot_le T.C T.A T.B
  have ga := ua.trans big
  have gb := ub.trans big
  have gc := uc.trans big
  have wbz := FOrth.weight jC da db ga gb db rb ra rb lC
  have waz := FOrth.weight jC da db ga gb da ra ra rb lC
  have wcy := FOrth.weight jB da dc ga gc dc rc ra rc lB
  have way := FOrth.weight jB da dc ga gc da ra ra rc lB
  have wcx := FOrth.weight jA db dc gb gc dc rc rb rc lA
  have wbx := FOrth.weight jA db dc gb gc db rb rb rc lA
  have pa : Spec.dist T.B T.C ≠ 0 := by linarith
  have pb : Spec.dist T.A T.C ≠ 0 := by linarith
  have pc : Spec.dist T.B T.A ≠ 0 := by linarith
  have cl : ∀ {D a b : ℝ}, b ≠ 0 → b * (D / (a * b)) = D / a := by
    intro D a b hb
    by_cases ha : a = 0
    · simp [ha]
    · field_simp
  have cr : ∀ {D a b : ℝ}, a ≠ 0 → a * (D / (a * b)) = D / b := by
    intro D a b ha
    rw [mul_comm a b, cl ha]
  have dot_comm' : ∀ u v : Pt, dot u v = dot v u := by intro u v; unfold dot; ring
  rw [cl pb] at wbz
  rw [cr pa] at waz
  rw [cl pc] at wcy
  rw [cr pa] at way
  rw [cl pc] at wcx
  rw [cr pb] at wbx
  obtain ⟨n1, FA, a1, a2, a3, a4⟩ := FOrth.foot (P := T.A) hB hB' hC da ub (by rw [Spec.dist_comm]; exact uc) rfl rfl
    wbz wcy
  obtain ⟨n2, FB, b1, b2, b3, b4⟩ := FOrth.foot (P := T.B) hB hA hC db ua uc (p := dot (T.B - T.C) (T.A - T.C) / Spec.dist T.A T.C) rfl rfl
    (by rw [dot_comm']; exact waz) wcx
  obtain ⟨n3, FC, c1, c2, c3, c4⟩ := FOrth.foot (P := T.C) hB hA hB' (by rw [Spec.dist_comm]; exact dc) (by rw [Spec.dist_comm]; exact ua)
    (by rw [Spec.dist_comm]; exact ub) (p := dot (T.C - T.B) (T.A - T.B) / Spec.dist T.A T.B) rfl
    (q := dot (T.B - T.A) (T.C - T.A) / Spec.dist T.A T.B) rfl
    (by rw [Spec.dist_comm T.A T.B]; exact way) (by rw [Spec.dist_comm T.A T.B, dot_comm']; exact wbx)
  refine ⟨⟨⟨_, _⟩, ⟨_, _⟩, ⟨_, _⟩⟩, FA, FB, FC, ?_, a1, a2, a3, a4, b1, b2, b3, b4, c1, c2, c3, c4⟩
  unfold Triangle.orthicF npDivF
  dsimp only
  rw [if_neg (nz db rb), Res.ok_bind, if_neg (nz dc rc), Res.ok_bind, if_neg (nz da ra), Res.ok_bind, if_neg (nz dc rc), Res.ok_bind,
    if_neg (nz da ra), Res.ok_bind, if_neg (nz db rb), Res.ok_bind, vA, vB, vC]
  exact if_neg (by push Not; exact ⟨n1, n2, n3⟩)

/-- The right triangle with the vertices `(0,0)`, `(4,0)`, `(0,3)`: two feet are at the right angle, the third one is `(36/25, 48/25)`. -/
example (k : Fma) : ∃ H, (⟨⟨0, 0⟩, ⟨4, 0⟩, ⟨0, 3⟩⟩ : Triangle).orthicF k = .ok H ∧ |H.A.x - 36 / 25| ≤ 1 / 2 ^ 40 ∧ |H.A.y - 48 / 25| ≤ 1 / 2 ^ 40 ∧
    |H.B.y| ≤ 1 / 2 ^ 40 ∧ |H.C.x| ≤ 1 / 2 ^ 40 := by
  obtain ⟨H, FA, FB, FC, h, ⟨s, a1⟩, a2, a3, a4, ⟨t, b1⟩, b2, b3, b4, ⟨u, c1⟩, c2, c3, c4⟩ := C134_orthic k ⟨⟨0, 0⟩, ⟨4, 0⟩, ⟨0, 3⟩⟩ (B := 4)
    (by norm_num) ⟨⟨0, by norm_num, by norm_num⟩, ⟨0, by norm_num, by norm_num⟩⟩ ⟨⟨4, by norm_num, by norm_num⟩, ⟨0, by norm_num, by norm_num⟩⟩
    ⟨⟨0, by norm_num, by norm_num⟩, ⟨3, by norm_num, by norm_num⟩⟩ (by simp) (by simp) (by simp)
  simp only [Perp, dot, Pt.sub_x, Pt.sub_y] at a2 b2 c2
  rw [Pt.ext_iff] at a1 b1 c1
  simp only [Pt.add_x, Pt.add_y, Pt.smul_x, Pt.smul_y, Pt.sub_x, Pt.sub_y] at a1 b1 c1
  have f1 : FA.x = 36 / 25 := by linarith [a1.1, a1.2]
  have f2 : FA.y = 48 / 25 := by linarith [a1.1, a1.2]
  have f3 : FB.y = 0 := by linarith [b1.1, b1.2]
  have f4 : FC.x = 0 := by linarith [c1.1, c1.2]
  rw [f1] at a3; rw [f2] at a4; rw [f3, sub_zero] at b4; rw [f4, sub_zero] at c3
  exact ⟨H, h, a3.trans (by norm_num), a4.trans (by norm_num), b4.trans (by norm_num), c3.trans (by norm_num)⟩
