import Verif.Model.FloatExcircles
import Verif.Props.FloatOrthic

/-!
# C135: the excircles in double precision
-/

open Spec Real Classical

namespace FExc

open FH

/-- A sum of three approximate terms. -/
theorem sum3 {α t1 t2 t3 T1 T2 T3 M1 M2 M3 : ℝ} (ha : α ≤ 4) (h1 : |t1 - T1| ≤ α / 2 ^ 53 * M1) (h2 : |t2 - T2| ≤ α / 2 ^ 53 * M2)
    (h3 : |t3 - T3| ≤ α / 2 ^ 53 * M3) (m1 : |T1| ≤ M1) (m2 : |T2| ≤ M2) (m3 : |T3| ≤ M3) (hM : 1 ≤ M1 + M2 + M3) :
    |sum3F t1 t2 t3 - (T1 + T2 + T3)| ≤ (α + 203 / 100) / 2 ^ 53 * (M1 + M2 + M3) := by
  have n1 := (abs_nonneg T1).trans m1
  have n2 := (abs_nonneg T2).trans m2
  have n3 := (abs_nonneg T3).trans m3
  have hα : ∀ {M : ℝ}, 0 ≤ M → α / 2 ^ 53 * M ≤ 4 / 2 ^ 53 * M := fun h => by gcongr
  have g1 : |t1 + t2 - (T1 + T2)| ≤ α / 2 ^ 53 * (M1 + M2) := by
    rw [show t1 + t2 - (T1 + T2) = (t1 - T1) + (t2 - T2) by ring]
    refine (abs_add_le _ _).trans ?_
    linarith
  have g2 : |t1 + t2| ≤ M1 + M2 + M3 + 1 / 2 ^ 50 * (M1 + M2 + M3) := by
    have : |t1 + t2| ≤ |t1 + t2 - (T1 + T2)| + |T1 + T2| := by
      calc |t1 + t2| = |(t1 + t2 - (T1 + T2)) + (T1 + T2)| := by ring_nf
        _ ≤ _ := abs_add_le _ _
    have := abs_add_le T1 T2
    have := hα (add_nonneg n1 n2)
    norm_num at *
    linarith
  have g3 := FOrth.fl_abs g2 (by linarith)
  have g4 : |fl (t1 + t2) + t3 - (T1 + T2 + T3)| ≤ (α + 1011 / 1000) / 2 ^ 53 * (M1 + M2 + M3) := by
    rw [show fl (t1 + t2) + t3 - (T1 + T2 + T3) = (fl (t1 + t2) - (t1 + t2)) + (t1 + t2 - (T1 + T2)) + (t3 - T3) by ring]
    refine (abs_add_le _ _).trans ((add_le_add_left (abs_add_le _ _) _).trans ?_)
    have e : (α + 1011 / 1000) / 2 ^ 53 * (M1 + M2 + M3) = α / 2 ^ 53 * (M1 + M2) + α / 2 ^ 53 * M3 + 1011 / 1000 / 2 ^ 53 * (M1 + M2 + M3) := by
      ring
    rw [e]
    generalize α / 2 ^ 53 * (M1 + M2) = w1 at *
    generalize α / 2 ^ 53 * M3 = w2 at *
    generalize |fl (t1 + t2) - (t1 + t2)| = v1 at *
    generalize |t1 + t2 - (T1 + T2)| = v2 at *
    generalize |t3 - T3| = v3 at *
    norm_num at *
    linarith
  have g5 : |fl (t1 + t2) + t3| ≤ M1 + M2 + M3 + 1 / 2 ^ 50 * (M1 + M2 + M3) := by
    have k1 : |fl (t1 + t2) + t3| ≤ |fl (t1 + t2) + t3 - (T1 + T2 + T3)| + |T1 + T2 + T3| := by
      calc |fl (t1 + t2) + t3| = |(fl (t1 + t2) + t3 - (T1 + T2 + T3)) + (T1 + T2 + T3)| := by ring_nf
        _ ≤ _ := abs_add_le _ _
    have k2 := abs_add_le (T1 + T2) T3
    have k3 := abs_add_le T1 T2
    have k4 : (α + 1011 / 1000) / 2 ^ 53 * (M1 + M2 + M3) ≤ 6 / 2 ^ 53 * (M1 + M2 + M3) := by gcongr; linarith
    norm_num at *
    linarith
  have g6 := FOrth.fl_abs g5 (by linarith)
  have g7 := abs_sub_le (fl (fl (t1 + t2) + t3)) (fl (t1 + t2) + t3) (T1 + T2 + T3)
  unfold sum3F
  have e : (α + 203 / 100) / 2 ^ 53 * (M1 + M2 + M3) = (α + 1011 / 1000) / 2 ^ 53 * (M1 + M2 + M3) + 1019 / 1000 / 2 ^ 53 * (M1 + M2 + M3) := by
    ring
  rw [e]
  generalize (α + 1011 / 1000) / 2 ^ 53 * (M1 + M2 + M3) = w1 at *
  generalize |fl (fl (t1 + t2) + t3) - (T1 + T2 + T3)| = v1 at *
  generalize |fl (fl (t1 + t2) + t3) - (fl (t1 + t2) + t3)| = v2 at *
  generalize |fl (t1 + t2) + t3 - (T1 + T2 + T3)| = v3 at *
  norm_num at *
  linarith

/-- A signed length and its rounded value. -/
def SRel (a' a m : ℝ) : Prop := |a| = m ∧ FH.Rel (101 / 100 / 2 ^ 53) |a'| m ∧ (a' = |a'| ∧ a = m ∨ a' = -|a'| ∧ a = -m)

theorem SRel.pos {a' a : ℝ} (ha : 1 ≤ a) (r : FH.Rel (101 / 100 / 2 ^ 53) a' a) : SRel a' a a := by
  have : 0 < a' := lt_of_lt_of_le (mul_pos (by norm_num) (by linarith)) r.bounds.1
  refine ⟨abs_of_pos (by linarith), ?_, Or.inl ⟨(abs_of_pos this).symm, rfl⟩⟩
  rwa [abs_of_pos this]

theorem SRel.neg {a' a : ℝ} (ha : 1 ≤ a) (r : FH.Rel (101 / 100 / 2 ^ 53) a' a) : SRel (-a') (-a) a := by
  have : 0 < a' := lt_of_lt_of_le (mul_pos (by norm_num) (by linarith)) r.bounds.1
  refine ⟨by rw [abs_neg]; exact abs_of_pos (by linarith), ?_, Or.inr ⟨by rw [abs_neg, abs_of_pos this], rfl⟩⟩
  rwa [abs_neg, abs_of_pos this]

theorem SRel.err {a' a m : ℝ} (h : SRel a' a m) : |a' - a| ≤ 101 / 100 / 2 ^ 53 * m := by
  obtain ⟨h1, h2, ⟨h3, h4⟩ | ⟨h3, h4⟩⟩ := h
  · unfold FH.Rel at h2
    rw [← h3] at h2
    rw [h4]; exact h2
  · unfold FH.Rel at h2
    rw [h3, h4, show -|a'| - -m = -(|a'| - m) by ring, abs_neg]
    exact h2

theorem SRel.mul {a' a m x : ℝ} {B : ℕ} (h : SRel a' a m) (hm : 1 ≤ m) (hx : IntB B x) :
    |fl (a' * x) - a * x| ≤ 203 / 100 / 2 ^ 53 * (m * B) ∧ |a * x| ≤ m * B := by
  obtain ⟨h1, h2, h3⟩ := h
  have hb := FI.abs_le hx
  have w := FH.weight (Or.inr hm) h2 hx
  have k : 203 / 100 / 2 ^ 53 * (m * |x|) ≤ 203 / 100 / 2 ^ 53 * (m * B) := by gcongr
  refine ⟨?_, by rw [abs_mul, h1]; gcongr⟩
  rcases h3 with ⟨h3, h4⟩ | ⟨h3, h4⟩
  · rw [h3, h4]; exact w.trans k
  · rw [h3, h4, neg_mul, fl_neg, neg_mul, show -fl (|a'| * x) - -(m * x) = -(fl (|a'| * x) - m * x) by ring, abs_neg]
    exact w.trans k

/-- A coordinate of the center of an excircle. -/
theorem center {ε a b c a' b' c' ma mb mc u x y z : ℝ} {B : ℕ} (hB : 1 ≤ B) (ha : SRel a' a ma) (hb : SRel b' b mb) (hc : SRel c' c mc)
    (h1 : 1 ≤ ma) (h2 : 1 ≤ mb) (h3 : 1 ≤ mc) (hu : 0 < u) (hsum : a + b + c = 2 * u) (he : ε ≤ 1 / 64) (he' : 1 / 2 ^ 42 ≤ ε)
    (hsm : 506 / 100 / 2 ^ 53 * ((ma + mb + mc) / 2) ≤ ε * u) (hx : IntB B x) (hy : IntB B y) (hz : IntB B z) :
    sum3F a' b' c' ≠ 0 ∧
    |exCenterF a' b' c' x y z - (a * x + b * y + c * z) / (2 * u)| ≤ ε * (B + |(a * x + b * y + c * z) / (2 * u)|) := by
  have hBr : (1 : ℝ) ≤ B := by exact_mod_cast hB
  have hD := sum3 (by norm_num) ha.err hb.err hc.err ha.1.le hb.1.le hc.1.le (by linarith)
  rw [hsum] at hD
  have hN := sum3 (by norm_num) (ha.mul h1 hx).1 (hb.mul h2 hy).1 (hc.mul h3 hz).1 (ha.mul h1 hx).2 (hb.mul h2 hy).2 (hc.mul h3 hz).2
    (by nlinarith)
  obtain ⟨S, hS⟩ : ∃ S, S = ma + mb + mc := ⟨_, rfl⟩
  rw [← add_mul, ← add_mul, ← hS] at hN
  rw [← hS] at hD hsm
  unfold exCenterF
  generalize sum3F (fl (a' * x)) (fl (b' * y)) (fl (c' * z)) = N' at *
  generalize sum3F a' b' c' = D at *
  generalize a * x + b * y + c * z = N at *
  have S0 : 0 < S := by linarith
  have hD2 : |D - 2 * u| ≤ 61 / 100 * ε * (2 * u) := by
    refine hD.trans ?_
    have : (101 / 100 + 203 / 100) / 2 ^ 53 * S ≤ 61 / 100 * 2 * (506 / 100 / 2 ^ 53 * (S / 2)) := by
      norm_num
      linarith
    refine this.trans ?_
    calc 61 / 100 * 2 * (506 / 100 / 2 ^ 53 * (S / 2)) ≤ 61 / 100 * 2 * (ε * u) := by gcongr
      _ = _ := by ring
  have eu : ε * u ≤ 1 / 64 * u := by gcongr
  have hDl : 99 / 100 * (2 * u) ≤ D := by
    have := (abs_le.1 hD2).1
    linarith
  have D0 : 0 < D := by linarith
  refine ⟨D0.ne', ?_⟩
  obtain ⟨J, hJ⟩ : ∃ J, J = N / (2 * u) := ⟨_, rfl⟩
  rw [← hJ]
  have key : N' / D - J = ((N' - N) - J * (D - 2 * u)) / D := by rw [hJ]; field_simp; ring
  have J0 := abs_nonneg J
  have e5 : |N' / D - J| ≤ 83 / 100 * ε * (B + |J|) := by
    rw [key, abs_div, abs_of_pos D0, div_le_iff₀ D0]
    have k1 : |J * (D - 2 * u)| ≤ 61 / 100 * ε * (2 * u) * |J| := by
      rw [abs_mul, mul_comm]; exact mul_le_mul_of_nonneg_right hD2 (abs_nonneg _)
    have k2 : |N' - N| ≤ 81 / 100 * ε * (2 * u) * B := by
      refine hN.trans ?_
      rw [← mul_assoc]
      apply mul_le_mul_of_nonneg_right _ (by linarith)
      have : (203 / 100 + 203 / 100) / 2 ^ 53 * S ≤ 81 / 100 * 2 * (506 / 100 / 2 ^ 53 * (S / 2)) := by
        norm_num
        linarith
      refine this.trans ?_
      calc 81 / 100 * 2 * (506 / 100 / 2 ^ 53 * (S / 2)) ≤ 81 / 100 * 2 * (ε * u) := by gcongr
        _ = _ := by ring
    have e0 : 0 < ε * u := by nlinarith
    have k3 : 83 / 100 * ε * (B + |J|) * (99 / 100 * (2 * u)) ≤ 83 / 100 * ε * (B + |J|) * D := by
      apply mul_le_mul_of_nonneg_left hDl
      have : 0 < ε := lt_of_lt_of_le (by norm_num) he'
      positivity
    refine (abs_sub _ _).trans ?_
    have k4 : 61 / 100 * ε * (2 * u) * |J| = ε * u * |J| * (122 / 100) := by ring
    have k5 : 81 / 100 * ε * (2 * u) * B = ε * u * B * (162 / 100) := by ring
    have k6 : 83 / 100 * ε * (B + |J|) * (99 / 100 * (2 * u)) = (ε * u * B + ε * u * |J|) * (16434 / 10000) := by ring
    have p1 : 0 ≤ ε * u * B := by positivity
    have p2 : 0 ≤ ε * u * |J| := by positivity
    rw [k4] at k1; rw [k5] at k2; rw [k6] at k3
    generalize 83 / 100 * ε * (B + |J|) * D = w at *
    linarith
  have e6 : |N' / D| ≤ 2 * (B + |J|) := by
    have h0 : |N' / D| ≤ |N' / D - J| + |J| := by
      calc |N' / D| = |(N' / D - J) + J| := by ring_nf
        _ ≤ _ := abs_add_le _ _
    have h1 : 83 / 100 * ε * (B + |J|) ≤ 1 * (B + |J|) := by
      apply mul_le_mul_of_nonneg_right _ (by positivity)
      linarith
    linarith
  have e7 := FOrth.fl_abs e6 (by linarith)
  have e8 := abs_sub_le (fl (N' / D)) (N' / D) J
  have e9 : 101 / 100 / 2 ^ 53 * (2 * (B + |J|)) ≤ 1 / 100 * ε * (B + |J|) := by
    rw [← mul_assoc]
    apply mul_le_mul_of_nonneg_right _ (by positivity)
    norm_num at he' ⊢
    linarith
  have e10 : ε * (B + |J|) = 83 / 100 * ε * (B + |J|) + 1 / 100 * ε * (B + |J|) + 16 / 100 * (ε * (B + |J|)) := by ring
  have : 0 ≤ ε * (B + |J|) := by
    have : 0 < ε := lt_of_lt_of_le (by norm_num) he'
    positivity
  linarith

/-- The radius of an excircle. -/
theorem radius {ε s x y z s' x' y' z' : ℝ} (he : ε ≤ 1 / 1000) (he' : 1 / 2 ^ 42 ≤ ε) (hs : 1 ≤ s) (hs2 : s ≤ 2 ^ 12)
    (hx : 0 < x) (hy : 0 < y) (hz : 0 < z) (hxs : x ≤ s) (hys : y ≤ s) (hzs : z ≤ s) (hA : 1 / 4 ≤ s * x * y * z)
    (rs : FH.Rel (5 / 2 ^ 53) s' s) (rx : FH.Rel ε x' x) (ry : FH.Rel ε y' y) (rz : FH.Rel ε z' z) :
    0 ≤ fl (fl (fl (s' * y') * z') / x') ∧
    FH.Rel (2 * ε) (fl (√(fl (fl (fl (s' * y') * z') / x')))) (√(s * y * z / x)) := by
  have hs0 : 0 < s := by linarith
  have e0 : 0 < ε := lt_of_lt_of_le (by norm_num) he'
  have u1 : (5 : ℝ) / 2 ^ 53 ≤ ε / 400 := by linarith [show (5 : ℝ) / 2 ^ 53 ≤ 1 / 2 ^ 42 / 400 by norm_num]
  have u2 : (13 : ℝ) / 10 / 2 ^ 53 ≤ ε / 1000 := by linarith [show (13 : ℝ) / 10 / 2 ^ 53 ≤ 1 / 2 ^ 42 / 1000 by norm_num]
  have rs' : FH.Rel (ε / 400) s' s := rs.mono hs0.le u1
  have p1 : 0 < s * y := mul_pos hs0 hy
  have p2 : 0 < s * y * z := mul_pos p1 hz
  have p3 : 0 < s * y * z / x := div_pos p2 hx
  have l2 : 1 / 2 ^ 14 ≤ s * y * z := by
    have h1 : s * x * y * z = s * y * z * x := by ring
    have : s * y * z * x ≤ s * y * z * 2 ^ 12 := mul_le_mul_of_nonneg_left (hxs.trans hs2) p2.le
    norm_num at this ⊢
    linarith
  have l1 : 1 / 2 ^ 26 ≤ s * y := by
    have h1 : s * y * z ≤ s * y * 2 ^ 12 := mul_le_mul_of_nonneg_left (hzs.trans hs2) p1.le
    norm_num at h1 l2 ⊢
    linarith
  have l3 : 1 / 2 ^ 26 ≤ s * y * z / x := by
    rw [le_div_iff₀ hx]
    have := hxs.trans hs2
    norm_num at this l2 ⊢
    linarith
  have q1 : FH.Rel (1004 / 1000 * ε) (fl (s' * y')) (s * y) :=
    (rs'.mul ry hs0.le hy.le (by positivity) (γ := 1003 / 1000 * ε) (by nlinarith)).fl (le_trans (by norm_num) l1) (by positivity)
      (by linarith) (by linarith)
  have q2 : FH.Rel (2008 / 1000 * ε) (fl (fl (s' * y') * z')) (s * y * z) :=
    (q1.mul rz p1.le hz.le (by positivity) (γ := 2007 / 1000 * ε) (by nlinarith)).fl (le_trans (by norm_num) l2) (by positivity)
      (by linarith) (by linarith)
  have q3 : FH.Rel (332 / 100 * ε) (fl (fl (fl (s' * y') * z') / x')) (s * y * z / x) :=
    (q2.div rx p2.le hx (by positivity) (by linarith) e0.le (by linarith) (γ := 331 / 100 * ε) (by linarith)).fl (le_trans (by norm_num) l3)
      (by positivity) (by linarith) (by linarith)
  refine ⟨le_trans (mul_nonneg (by linarith) p3.le) q3.bounds.1, ?_⟩
  refine (q3.sqrt p3.le (by positivity) (by linarith)).fl ?_ (by positivity) (by linarith) (by linarith)
  refine Real.le_sqrt_of_sq_le (le_trans (by norm_num) l3)

end FExc

/-- `cf` is near the circle `c`: a coordinate `v` of the center has an error of at most `ε (B + |v|)`, the radius has a relative error of at
most `2 ε`. -/
def NearCircle (ε : ℝ) (B : ℕ) (cf c : Circle) : Prop :=
  |cf.center.x - c.center.x| ≤ ε * (B + |c.center.x|) ∧ |cf.center.y - c.center.y| ≤ ε * (B + |c.center.y|) ∧
    |cf.radius - c.radius| ≤ 2 * ε * c.radius

set_option maxHeartbeats 1000000 in
/-- **C135** `Triangle.excircles` in double precision.  For a triangle with integer vertices of absolute value at most `B ≤ 256` which is not
flat, the three results are circles; each of them is near the excircle, the circle tangent to the three lines whose center is on the other
side of one of the lines, with the relative error `B⁴ / 2^42`. -/
theorem C135_excircles (k : Fma) (T : Triangle) {B : ℕ} (hB : B ≤ 256) (hA : IntPt B T.A) (hB' : IntPt B T.B) (hC : IntPt B T.C)
    (h : ¬ Collinear T.A T.B T.C) :
    ∃ eA eB eC fA fB fC, (∀ c ∈ [eA, eB, eC], 0 < c.radius ∧ TangentLine c.center c.radius T.B T.C ∧
        TangentLine c.center c.radius T.C T.A ∧ TangentLine c.center c.radius T.A T.B) ∧
      OppositeSides T.B T.C T.A eA.center ∧ OppositeSides T.C T.A T.B eB.center ∧ OppositeSides T.A T.B T.C eC.center ∧
      T.excirclesF k = .ok (fA, fB, fC) ∧
      NearCircle (B ^ 4 / 2 ^ 42) B fA eA ∧ NearCircle (B ^ 4 / 2 ^ 42) B fB eB ∧ NearCircle (B ^ 4 / 2 ^ 42) B fC eC := by
  obtain ⟨cA, cB, cC, hc, ht, oA, oB, oC⟩ := C39_excircles T h
  obtain ⟨x, y, z, hx, hy, hz, ea, eb, ec, hS⟩ := ravi h
  have hps : ∀ v, 0 ≤ v → pySqrt v = .ok (√v) := fun v hv => if_neg (not_lt.2 hv)
  -- the exact circles
  have hcr : cA = ⟨((-(y + z)) • T.A + (z + x) • T.B + (x + y) • T.C) / (2 * x), √((x + y + z) * y * z / x)⟩ ∧
      cB = ⟨((y + z) • T.A - (z + x) • T.B + (x + y) • T.C) / (2 * y), √((x + y + z) * x * z / y)⟩ ∧
      cC = ⟨((y + z) • T.A + (z + x) • T.B - (x + y) • T.C) / (2 * z), √((x + y + z) * x * y / z)⟩ := by
    unfold Triangle.excircles at hc
    dsimp only at hc
    rw [distance_eq, distance_eq, distance_eq, dist_comm T.B T.A, ea, eb, ec] at hc
    rw [show -(y + z) + (z + x) + (x + y) = 2 * x by ring, show y + z - (z + x) + (x + y) = 2 * y by ring,
      show y + z + (z + x) - (x + y) = 2 * z by ring, show (y + z + (z + x) + (x + y)) / 2 = x + y + z by ring,
      show x + y + z - (y + z) = x by ring, show x + y + z - (z + x) = y by ring, show x + y + z - (x + y) = z by ring,
      if_neg (by push Not; exact ⟨by positivity, by positivity, by positivity⟩), hps _ (by positivity), hps _ (by positivity),
      hps _ (by positivity)] at hc
    simp only [Res.ok_bind] at hc
    rw [mkCircle_pos (by positivity), mkCircle_pos (by positivity), mkCircle_pos (by positivity)] at hc
    simp only [Res.ok_bind] at hc
    have := Except.ok.inj hc
    rw [Prod.mk.injEq, Prod.mk.injEq] at this
    exact ⟨this.1.symm, this.2.1.symm, this.2.2.symm⟩
  refine ⟨cA, cB, cC, ?_⟩
  obtain ⟨ra, da, sa⟩ := FH.distance (by omega) k hB' hC
  obtain ⟨rb, db, sb⟩ := FH.distance (by omega) k hA hC
  obtain ⟨rc, dc, sc⟩ := FH.distance (by omega) k hB' hA
  rw [dist_comm T.B T.A, ec] at rc dc sc
  rw [ea] at ra da sa
  rw [eb] at rb db sb
  -- the area is at least one half
  have h4 : 1 / 4 ≤ (x + y + z) * x * y * z := by
    have i1 : IntB ((B + B) * (B + B) + (B + B) * (B + B)) (cross (T.B - T.A) (T.C - T.A)) := by
      have e1 := FI.mul (FI.sub hB'.1 hA.1) (FI.sub hC.2 hA.2)
      have e2 := FI.mul (FI.sub hB'.2 hA.2) (FI.sub hC.1 hA.1)
      exact FI.sub e1 e2
    have i2 := FI.one_le_abs i1 h
    have i3 : 1 ≤ cross (T.B - T.A) (T.C - T.A) ^ 2 := by rw [← sq_abs]; nlinarith
    nlinarith
  clear hc hS h ea eb ec
  have hB1 : 1 ≤ B := by
    by_contra hc
    have : B = 0 := by omega
    rw [this] at sa
    norm_num at sa
    nlinarith
  have hBr : (1 : ℝ) ≤ B := by exact_mod_cast hB1
  have hBs : (B : ℝ) ≤ 256 := by exact_mod_cast hB
  have a1 : 1 ≤ y + z := by rcases da with h | h <;> linarith
  have b1 : 1 ≤ z + x := by rcases db with h | h <;> linarith
  have c1 : 1 ≤ x + y := by rcases dc with h | h <;> linarith
  obtain ⟨s, hs⟩ : ∃ s, s = x + y + z := ⟨_, rfl⟩
  have hs1 : 1 ≤ s := by linarith
  have hs2 : s ^ 2 ≤ 18 * (B : ℝ) ^ 2 := by
    rw [hs]
    nlinarith [sq_nonneg (x - y), sq_nonneg (y - z), sq_nonneg (z - x)]
  have hs4 : s ^ 4 ≤ 324 * (B : ℝ) ^ 4 := by
    calc s ^ 4 = s ^ 2 * s ^ 2 := by ring
      _ ≤ (18 * (B : ℝ) ^ 2) * (18 * (B : ℝ) ^ 2) := mul_le_mul hs2 hs2 (by positivity) (by positivity)
      _ = _ := by ring
  have hs12 : s ≤ 2 ^ 12 := by
    by_contra hc
    push Not at hc
    nlinarith
  have ia : IsDouble (distanceF k T.B T.C) := fl_isDouble _
  have ib : IsDouble (distanceF k T.A T.C) := fl_isDouble _
  have ic : IsDouble (distanceF k T.B T.A) := fl_isDouble _
  obtain ⟨-, rs⟩ := FH.perimeter (by linarith) (by linarith) (by linarith) (by linarith) ia ib ic ra rb rc
  have es : (y + z + (z + x) + (x + y)) / 2 = s := by rw [hs]; ring
  rw [es] at rs
  have hε1 : (1 : ℝ) / 2 ^ 42 ≤ B ^ 4 / 2 ^ 42 := by
    have : (1 : ℝ) ≤ B ^ 4 := one_le_pow₀ hBr
    gcongr
  have hε2 : (B : ℝ) ^ 4 / 2 ^ 42 ≤ 1 / 1000 := by
    have : (B : ℝ) ^ 4 ≤ 256 ^ 4 := by gcongr
    norm_num at this ⊢
    linarith
  have small : ∀ u v w : ℝ, 0 < u → 0 < v → 0 < w → s = u + v + w → 1 / 4 ≤ s * u * v * w →
      506 / 100 / 2 ^ 53 * s ≤ (B : ℝ) ^ 4 / 2 ^ 42 * u := by
    intro u v w hu hv hw e h
    have h1 : v * w ≤ s ^ 2 / 4 := by rw [e]; nlinarith [sq_nonneg (v - w)]
    have h2 : 1 ≤ u * s ^ 3 := by
      have : s * u * (v * w) ≤ s * u * (s ^ 2 / 4) := mul_le_mul_of_nonneg_left h1 (by positivity)
      nlinarith
    have h3 : 506 / 100 / 2 ^ 53 * s ^ 4 ≤ (B : ℝ) ^ 4 / 2 ^ 42 := by
      norm_num at hs4 ⊢
      nlinarith [show (0 : ℝ) ≤ B ^ 4 by positivity]
    have h5 : 506 / 100 / 2 ^ 53 * s ^ 4 * 1 ≤ (B : ℝ) ^ 4 / 2 ^ 42 * (u * s ^ 3) := mul_le_mul h3 h2 zero_le_one (by positivity)
    have h6 : 0 < s ^ 3 := by positivity
    refine le_of_mul_le_mul_right ?_ h6
    calc 506 / 100 / 2 ^ 53 * s * s ^ 3 = 506 / 100 / 2 ^ 53 * s ^ 4 * 1 := by ring
      _ ≤ (B : ℝ) ^ 4 / 2 ^ 42 * (u * s ^ 3) := h5
      _ = _ := by ring
  rw [← hs] at h4
  have mx := small x y z hx hy hz hs h4
  have my := small y z x hy hz hx (by linarith) (by linarith)
  have mz := small z x y hz hx hy (by linarith) (by linarith)
  have fx := FH.factor (s := s) (by linarith) hx.le (by linarith) (fl_isDouble _) ia rs ra mx
  have fy := FH.factor (s := s) (by linarith) hy.le (by linarith) (fl_isDouble _) ib rs rb my
  have fz := FH.factor (s := s) (by linarith) hz.le (by linarith) (fl_isDouble _) ic rs rc mz
  have rs5 := rs.mono (by linarith) (show (404 : ℝ) / 100 / 2 ^ 53 ≤ 5 / 2 ^ 53 by norm_num)
  obtain ⟨nA, qA⟩ := FExc.radius hε2 hε1 hs1 hs12 hx hy hz (by linarith) (by linarith) (by linarith) h4 rs5 fx fy fz
  obtain ⟨nB, qB⟩ := FExc.radius hε2 hε1 hs1 hs12 hy hx hz (by linarith) (by linarith) (by linarith) (by linarith) rs5 fy fx fz
  obtain ⟨nC, qC⟩ := FExc.radius hε2 hε1 hs1 hs12 hz hx hy (by linarith) (by linarith) (by linarith) (by linarith) rs5 fz fx fy
  have hS2 : (y + z + (z + x) + (x + y)) / 2 = s := es
  have he64 : (B : ℝ) ^ 4 / 2 ^ 42 ≤ 1 / 64 := hε2.trans (by norm_num)
  have pA := FExc.SRel.pos a1 ra
  have pB := FExc.SRel.pos b1 rb
  have pC := FExc.SRel.pos c1 rc
  have mA := FExc.SRel.neg a1 ra
  have mB := FExc.SRel.neg b1 rb
  have mC := FExc.SRel.neg c1 rc
  obtain ⟨zA, xA⟩ := FExc.center hB1 mA pB pC a1 b1 c1 hx (by ring) he64 hε1 (by rw [es]; exact mx) hA.1 hB'.1 hC.1
  obtain ⟨-, yA⟩ := FExc.center hB1 mA pB pC a1 b1 c1 hx (by ring) he64 hε1 (by rw [es]; exact mx) hA.2 hB'.2 hC.2
  obtain ⟨zB, xB⟩ := FExc.center hB1 pA mB pC a1 b1 c1 hy (by ring) he64 hε1 (by rw [es]; exact my) hA.1 hB'.1 hC.1
  obtain ⟨-, yB⟩ := FExc.center hB1 pA mB pC a1 b1 c1 hy (by ring) he64 hε1 (by rw [es]; exact my) hA.2 hB'.2 hC.2
  obtain ⟨zC, xC⟩ := FExc.center hB1 pA pB mC a1 b1 c1 hz (by ring) he64 hε1 (by rw [es]; exact mz) hA.1 hB'.1 hC.1
  obtain ⟨-, yC⟩ := FExc.center hB1 pA pB mC a1 b1 c1 hz (by ring) he64 hε1 (by rw [es]; exact mz) hA.2 hB'.2 hC.2
  have nz : ∀ {v w : ℝ}, 0 < w → FH.Rel ((B : ℝ) ^ 4 / 2 ^ 42) v w → v ≠ 0 := fun hw hr =>
    (lt_of_lt_of_le (mul_pos (by linarith) hw) hr.bounds.1).ne'
  have hs0 : 0 < s := by linarith
  have gA : 0 < √(s * y * z / x) := Real.sqrt_pos.2 (by positivity)
  have gB : 0 < √(s * x * z / y) := Real.sqrt_pos.2 (by positivity)
  have gC : 0 < √(s * x * y / z) := Real.sqrt_pos.2 (by positivity)
  have mk : ∀ {P : Pt} {v w : ℝ}, 0 < w → FH.Rel (2 * ((B : ℝ) ^ 4 / 2 ^ 42)) v w → mkCircleF P v = .ok ⟨P, v⟩ := fun hw hr =>
    if_neg (not_le.2 (lt_of_lt_of_le (mul_pos (by linarith) hw) hr.bounds.1))
  obtain ⟨rfl, rfl, rfl⟩ := hcr
  rw [← hs] at *
  refine ⟨⟨⟨exCenterF (-distanceF k T.B T.C) (distanceF k T.A T.C) (distanceF k T.B T.A) T.A.x T.B.x T.C.x, exCenterF (-distanceF k T.B T.C) (distanceF k T.A T.C) (distanceF k T.B T.A) T.A.y T.B.y T.C.y⟩, fl (√(_))⟩,
    ⟨⟨exCenterF (distanceF k T.B T.C) (-distanceF k T.A T.C) (distanceF k T.B T.A) T.A.x T.B.x T.C.x, exCenterF (distanceF k T.B T.C) (-distanceF k T.A T.C) (distanceF k T.B T.A) T.A.y T.B.y T.C.y⟩, fl (√(_))⟩,
    ⟨⟨exCenterF (distanceF k T.B T.C) (distanceF k T.A T.C) (-distanceF k T.B T.A) T.A.x T.B.x T.C.x, exCenterF (distanceF k T.B T.C) (distanceF k T.A T.C) (-distanceF k T.B T.A) T.A.y T.B.y T.C.y⟩, fl (√(_))⟩,
    ht, oA, oB, oC, ?_, ⟨xA, yA, qA⟩, ⟨?_, ?_, qB⟩, ⟨?_, ?_, qC⟩⟩
  · unfold Triangle.excirclesF
    dsimp only
    unfold exRadiusF
    rw [if_neg (by push Not; exact ⟨zA, zB, zC⟩), if_neg (by push Not; exact ⟨nz hx fx, nz hy fy, nz hz fz⟩)]
    unfold sum3F
    rw [hps _ nA, hps _ nB, hps _ nC, Res.ok_bind, Res.ok_bind, Res.ok_bind, mk gA qA, mk gB qB, mk gC qC]
    rfl
  · simpa only [Pt.add_x, Pt.sub_x, Pt.smul_x, Pt.div_x, neg_mul, ← sub_eq_add_neg] using xB
  · simpa only [Pt.add_y, Pt.sub_y, Pt.smul_y, Pt.div_y, neg_mul, ← sub_eq_add_neg] using yB
  · simpa only [Pt.add_x, Pt.sub_x, Pt.smul_x, Pt.div_x, neg_mul, ← sub_eq_add_neg] using xC
  · simpa only [Pt.add_y, Pt.sub_y, Pt.smul_y, Pt.div_y, neg_mul, ← sub_eq_add_neg] using yC

/-- **C135** A flat triangle has no excircle, and with exact arithmetic a denominator is zero; in double precision three circles are returned
for the flat triangle with the vertices `(0,0)`, `(1,1)`, `(3,3)`, and the radius of the second one is larger than `2^26`. -/
theorem C135_flat_counterexample (k : Fma) :
    (⟨⟨0, 0⟩, ⟨1, 1⟩, ⟨3, 3⟩⟩ : Triangle).excircles = .error .nonFinite ∧
    ∃ cA cB cC, (⟨⟨0, 0⟩, ⟨1, 1⟩, ⟨3, 3⟩⟩ : Triangle).excirclesF k = .ok (cA, cB, cC) ∧ 2 ^ 26 ≤ cB.radius := by
  constructor
  · have d : ∀ u v : ℝ, distance_ (⟨u, u⟩ : Pt) ⟨v, v⟩ = √2 * |v - u| := by
      intro u v
      rw [distance_eq]
      unfold Spec.dist sqDist
      rw [show (u - v) ^ 2 + (u - v) ^ 2 = 2 * (v - u) ^ 2 by ring, Real.sqrt_mul (by norm_num), Real.sqrt_sq_eq_abs]
    unfold Triangle.excircles
    dsimp only
    rw [d, d, d, if_pos]
    right; left
    norm_num
    ring
  have i0 : IntPt 512 ⟨0, 0⟩ := by simpa using FH.int_diag 0 (by norm_num)
  have i1 : IntPt 512 ⟨1, 1⟩ := by simpa using FH.int_diag 1 (by norm_num)
  have i3 : IntPt 512 ⟨3, 3⟩ := by simpa using FH.int_diag 3 (by norm_num)
  have ea : distanceF k ⟨1, 1⟩ ⟨3, 3⟩ = 6369051672525773 / 2 ^ 51 := by
    rw [FH.distance_int le_rfl k i1 i3, FH.fl_sqrt (e := -51) (n := 6369051672525773) (by norm_num) (by norm_num) (by norm_num)
      (by norm_num [sqDist]) (by norm_num [sqDist])]
    norm_num
  have eb : distanceF k ⟨0, 0⟩ ⟨3, 3⟩ = 4776788754394329 / 2 ^ 50 := by
    rw [FH.distance_int le_rfl k i0 i3, FH.fl_sqrt (e := -50) (n := 4776788754394329) (by norm_num) (by norm_num) (by norm_num)
      (by norm_num [sqDist]) (by norm_num [sqDist])]
    norm_num
  have ec : distanceF k ⟨1, 1⟩ ⟨0, 0⟩ = 6369051672525773 / 2 ^ 52 := by
    rw [FH.distance_int le_rfl k i1 i0, FH.fl_sqrt (e := -52) (n := 6369051672525773) (by norm_num) (by norm_num) (by norm_num)
      (by norm_num [sqDist]) (by norm_num [sqDist])]
    norm_num
  have e1 : fl (6369051672525773 / 2 ^ 51 + 4776788754394329 / 2 ^ 50) = 7961314590657216 / 2 ^ 50 := by
    rw [FH.fl_tie (e := -50) (n := 7961314590657216) (by norm_num) (by norm_num [abs_of_pos]) (by norm_num [abs_of_pos]) (by decide)
      (Or.inr (by norm_num))]
    norm_num
  have e2 : fl (7961314590657216 / 2 ^ 50 + 6369051672525773 / 2 ^ 52) = 4776788754394330 / 2 ^ 49 := by
    rw [fl_eval (e := -49) (n := 4776788754394330) (by norm_num) (by norm_num [abs_of_pos]) (by norm_num [abs_of_pos]) (by norm_num [abs_lt])]
    norm_num
  have e3 : fl (4776788754394330 / 2 ^ 49 / 2) = 4776788754394330 / 2 ^ 50 := by
    rw [FH.dbl 4776788754394330 (-50) (by norm_num) (by norm_num) (by norm_num)]; norm_num
  have h1 : (1 : ℝ) ≤ fl (4776788754394330 / 2 ^ 50 - 6369051672525773 / 2 ^ 51) := by
    simpa using FH.ge_pow 0 (by norm_num) (by norm_num : (2 : ℝ) ^ (0 : ℤ) ≤ 4776788754394330 / 2 ^ 50 - 6369051672525773 / 2 ^ 51)
  have h2 : fl (4776788754394330 / 2 ^ 50 - 4776788754394329 / 2 ^ 50) = 1 / 2 ^ 50 := by
    rw [FH.dbl 1 (-50) (by norm_num) (by norm_num) (by norm_num)]; norm_num
  have h3 : (2 : ℝ) ≤ fl (4776788754394330 / 2 ^ 50 - 6369051672525773 / 2 ^ 52) := by
    simpa using FH.ge_pow 1 (by norm_num) (by norm_num : (2 : ℝ) ^ (1 : ℤ) ≤ 4776788754394330 / 2 ^ 50 - 6369051672525773 / 2 ^ 52)
  have h4 : fl (4776788754394330 / 2 ^ 50 - 6369051672525773 / 2 ^ 51) ≤ 4 := by
    have := fl_mono (show (4776788754394330 : ℝ) / 2 ^ 50 - 6369051672525773 / 2 ^ 51 ≤ 4 by norm_num)
    have e4 : fl 4 = 4 := FH.dbl 4 0 (by norm_num) (by norm_num) (by norm_num)
    exact this.trans_eq e4
  have h5 : fl (4776788754394330 / 2 ^ 50 - 6369051672525773 / 2 ^ 52) ≤ 4 := by
    have := fl_mono (show (4776788754394330 : ℝ) / 2 ^ 50 - 6369051672525773 / 2 ^ 52 ≤ 4 by norm_num)
    have e4 : fl 4 = 4 := FH.dbl 4 0 (by norm_num) (by norm_num) (by norm_num)
    exact this.trans_eq e4
  have z1 : sum3F (-(6369051672525773 / 2 ^ 51)) (4776788754394329 / 2 ^ 50) (6369051672525773 / 2 ^ 52) ≠ 0 := by
    have g1 := FH.ge_pow 0 (by norm_num) (by norm_num : (2 : ℝ) ^ (0 : ℤ) ≤ -(6369051672525773 / 2 ^ 51) + 4776788754394329 / 2 ^ 50)
    unfold sum3F
    generalize fl (-(6369051672525773 / 2 ^ 51) + 4776788754394329 / 2 ^ 50) = w at *
    have g2 := FH.ge_pow 0 (x := w + 6369051672525773 / 2 ^ 52) (by norm_num) (by norm_num at g1 ⊢; linarith)
    exact (lt_of_lt_of_le (by positivity) g2).ne'
  have z2 : sum3F (6369051672525773 / 2 ^ 51) (-(4776788754394329 / 2 ^ 50)) (6369051672525773 / 2 ^ 52) ≠ 0 := by
    unfold sum3F
    have g1 := FH.dbl (-3184525836262885) (-51) (x := 6369051672525773 / 2 ^ 51 + -(4776788754394329 / 2 ^ 50)) (by norm_num) (by norm_num)
      (by norm_num)
    have g2 := FH.dbl 3 (-52) (x := 6369051672525773 / 2 ^ 51 + -(4776788754394329 / 2 ^ 50) + 6369051672525773 / 2 ^ 52) (by norm_num)
      (by norm_num) (by norm_num)
    rw [g1, g2]
    norm_num
  have z3 : sum3F (6369051672525773 / 2 ^ 51) (4776788754394329 / 2 ^ 50) (-(6369051672525773 / 2 ^ 52)) ≠ 0 := by
    unfold sum3F
    rw [e1]
    have g2 := FH.ge_pow 0 (x := 7961314590657216 / 2 ^ 50 + -(6369051672525773 / 2 ^ 52)) (by norm_num) (by norm_num)
    exact (lt_of_lt_of_le (by positivity) g2).ne'
  unfold Triangle.excirclesF
  dsimp only
  rw [ea, eb, ec, if_neg (by push Not; exact ⟨z1, z2, z3⟩)]
  unfold sum3F exRadiusF
  rw [e1, e2, e3, h2]
  generalize fl (4776788754394330 / 2 ^ 50 - 6369051672525773 / 2 ^ 51) = f1 at *
  generalize fl (4776788754394330 / 2 ^ 50 - 6369051672525773 / 2 ^ 52) = f3 at *
  rw [if_neg (by push Not; exact ⟨by linarith, by norm_num, by linarith⟩)]
  have hps : ∀ {v : ℝ}, 0 < v → pySqrt v = .ok (√v) := fun hv => if_neg (not_lt.2 hv.le)
  have mk : ∀ {P : Pt} {v : ℝ}, 0 < v → mkCircleF P v = .ok ⟨P, v⟩ := fun hv => if_neg (not_le.2 hv)
  have t1 : (4 : ℝ) ≤ fl (4776788754394330 / 2 ^ 50 * f1) := by
    have := FH.ge_pow 2 (x := 4776788754394330 / 2 ^ 50 * f1) (by norm_num) (by norm_num; linarith)
    norm_num at this ⊢
    exact this
  have t2 : (8 : ℝ) ≤ fl (fl (4776788754394330 / 2 ^ 50 * f1) * f3) := by
    have := FH.ge_pow 3 (x := fl (4776788754394330 / 2 ^ 50 * f1) * f3) (by norm_num) (by norm_num; nlinarith)
    norm_num at this ⊢
    exact this
  have t3 : (2 : ℝ) ^ (53 : ℤ) ≤ fl (fl (fl (4776788754394330 / 2 ^ 50 * f1) * f3) / (1 / 2 ^ 50)) := by
    apply FH.ge_pow 53 (by norm_num)
    rw [le_div_iff₀ (by norm_num)]
    exact le_trans (by norm_num) t2
  have t4 : (2 : ℝ) ^ (-48 : ℤ) ≤ fl (fl (4776788754394330 / 2 ^ 50 * f1) * (1 / 2 ^ 50)) := by
    apply FH.ge_pow (-48) (by norm_num)
    generalize fl (4776788754394330 / 2 ^ 50 * f1) = w at *
    norm_num
    linarith
  have t5 : (2 : ℝ) ^ (-50 : ℤ) ≤ fl (fl (fl (4776788754394330 / 2 ^ 50 * f1) * (1 / 2 ^ 50)) / f3) := by
    apply FH.ge_pow (-50) (by norm_num)
    rw [le_div_iff₀ (by linarith)]
    refine le_trans ?_ t4
    norm_num
    linarith
  have t6 : (2 : ℝ) ^ (-48 : ℤ) ≤ fl (4776788754394330 / 2 ^ 50 * (1 / 2 ^ 50)) := by
    apply FH.ge_pow (-48) (by norm_num)
    norm_num
  have t7 : (2 : ℝ) ^ (-48 : ℤ) ≤ fl (fl (4776788754394330 / 2 ^ 50 * (1 / 2 ^ 50)) * f3) := by
    apply FH.ge_pow (-48) (by norm_num)
    exact t6.trans (le_mul_of_one_le_right (le_trans (by positivity) t6) (by linarith))
  have t8 : (2 : ℝ) ^ (-50 : ℤ) ≤ fl (fl (fl (4776788754394330 / 2 ^ 50 * (1 / 2 ^ 50)) * f3) / f1) := by
    apply FH.ge_pow (-50) (by norm_num)
    rw [le_div_iff₀ (by linarith)]
    refine le_trans ?_ t7
    norm_num
    linarith
  generalize fl (fl (fl (4776788754394330 / 2 ^ 50 * f1) * f3) / (1 / 2 ^ 50)) = R2 at *
  generalize fl (fl (fl (4776788754394330 / 2 ^ 50 * f1) * (1 / 2 ^ 50)) / f3) = R3 at *
  generalize fl (fl (fl (4776788754394330 / 2 ^ 50 * (1 / 2 ^ 50)) * f3) / f1) = R1 at *
  have s1 : (2 : ℝ) ^ (-25 : ℤ) ≤ fl (√R1) := by
    apply FH.ge_pow (-25) (by norm_num)
    exact Real.le_sqrt_of_sq_le (le_trans (by norm_num) t8)
  have s2 : (2 : ℝ) ^ (26 : ℤ) ≤ fl (√R2) := by
    apply FH.ge_pow 26 (by norm_num)
    exact Real.le_sqrt_of_sq_le (le_trans (by norm_num) t3)
  have s3 : (2 : ℝ) ^ (-25 : ℤ) ≤ fl (√R3) := by
    apply FH.ge_pow (-25) (by norm_num)
    exact Real.le_sqrt_of_sq_le (le_trans (by norm_num) t5)
  rw [hps (lt_of_lt_of_le (by positivity) t8), hps (lt_of_lt_of_le (by positivity) t3), hps (lt_of_lt_of_le (by positivity) t5)]
  simp only [Res.ok_bind]
  rw [mk (lt_of_lt_of_le (by positivity) s1), mk (lt_of_lt_of_le (by positivity) s2), mk (lt_of_lt_of_le (by positivity) s3)]
  exact ⟨_, _, _, rfl, by exact_mod_cast s2⟩

/-- The excircle opposite to the right angle of the triangle with the vertices `(0,0)`, `(4,0)`, `(0,3)` has the center `(6,6)` and the radius
`6`. -/
example (k : Fma) : ∃ fA fB fC, (⟨⟨0, 0⟩, ⟨4, 0⟩, ⟨0, 3⟩⟩ : Triangle).excirclesF k = .ok (fA, fB, fC) ∧
    |fA.center.x - 6| ≤ 1 / 2 ^ 30 ∧ |fA.center.y - 6| ≤ 1 / 2 ^ 30 ∧ |fA.radius - 6| ≤ 1 / 2 ^ 30 := by
  obtain ⟨eA, eB, eC, fA, fB, fC, ht, oA, -, -, hf, ⟨n1, n2, n3⟩, -, -⟩ := C135_excircles k ⟨⟨0, 0⟩, ⟨4, 0⟩, ⟨0, 3⟩⟩ (B := 4)
    (by norm_num) ⟨⟨0, by norm_num, by norm_num⟩, ⟨0, by norm_num, by norm_num⟩⟩ ⟨⟨4, by norm_num, by norm_num⟩, ⟨0, by norm_num, by norm_num⟩⟩
    ⟨⟨0, by norm_num, by norm_num⟩, ⟨3, by norm_num, by norm_num⟩⟩ (by norm_num [Collinear, cross])
  refine ⟨fA, fB, fC, hf, ?_⟩
  obtain ⟨r0, t1, t2, t3⟩ := ht eA (by simp)
  rw [tangentLine_iff (by simp)] at t1 t2 t3
  unfold OppositeSides at oA
  obtain ⟨⟨p, q⟩, r⟩ := eA
  simp only [cross, sqDist, Pt.sub_x, Pt.sub_y] at t1 t2 t3 oA r0 n1 n2 n3
  have hs : (p - r) * (p + r) = 0 := by nlinarith
  have hs2 : (q - r) * (q + r) = 0 := by nlinarith
  have h3 : (3 * p + 4 * q - 12 - 5 * r) * (3 * p + 4 * q - 12 + 5 * r) = 0 := by nlinarith
  have h4 : 0 < 3 * p + 4 * q - 12 := by nlinarith
  have h5 : 3 * p + 4 * q - 12 - 5 * r = 0 := by
    rcases mul_eq_zero.1 h3 with h | h
    · exact h
    · linarith
  have hp : p = r := by
    rcases mul_eq_zero.1 hs with h | h
    · linarith
    · rcases mul_eq_zero.1 hs2 with h' | h' <;> linarith
  have hq : q = r := by
    rcases mul_eq_zero.1 hs2 with h | h <;> linarith
  have hr : r = 6 := by linarith
  rw [hp, hr] at n1; rw [hq, hr] at n2; rw [hr] at n3
  refine ⟨n1.trans ?_, n2.trans ?_, n3.trans ?_⟩ <;> norm_num
