import Verif.Model.FloatGeom
import Verif.Lemmas.Float64
import Verif.Lemmas.Basic

/-!
# C88, C89, C90: decisions taken in double precision
-/

open Spec Real Classical

namespace Spec

/-- Both coordinates are doubles. -/
def DoublePt (P : Pt) : Prop := IsDouble P.x ∧ IsDouble P.y

end Spec

namespace FG

/-- Half of the smallest positive double. -/
noncomputable def tiny : ℝ := 2 ^ (-1075 : ℤ)

theorem tiny_pos : 0 < tiny := two_zpow_pos _

theorem fl_err' (x : ℝ) : |fl x - x| ≤ |x| / 2 ^ 53 + tiny := fl_err_le x

/-- `ddot` on two vectors. -/
theorem vdot_err (k : Fma) (p q : Pt) :
    |vdotF k p q - (p.x * q.x + p.y * q.y)| ≤ (2 / 2 ^ 53 + 1 / 2 ^ 106) * (|p.x * q.x| + |p.y * q.y|) + 4 * tiny := by
  have ht := tiny_pos
  obtain ⟨A, hA⟩ : ∃ A, A = p.x * q.x := ⟨_, rfl⟩
  obtain ⟨B, hB⟩ : ∃ B, B = p.y * q.y := ⟨_, rfl⟩
  have a0 := abs_nonneg A
  have b0 := abs_nonneg B
  have key : ∀ a b : ℝ, |a| ≤ |A| / 2 ^ 53 + tiny → |b| ≤ |B| / 2 ^ 53 + tiny →
      |fl (A + a + (B + b)) - (A + B)| ≤ (2 / 2 ^ 53 + 1 / 2 ^ 106) * (|A| + |B|) + 4 * tiny := by
    intro a b ha hb
    have h1 := fl_err' (A + a + (B + b))
    have h2 : |A + a + (B + b)| ≤ |A| + |B| + |a| + |b| := by
      calc |A + a + (B + b)| ≤ |A + a| + |B + b| := abs_add_le _ _
        _ ≤ |A| + |a| + (|B| + |b|) := add_le_add (abs_add_le _ _) (abs_add_le _ _)
        _ = _ := by ring
    have h3 : |fl (A + a + (B + b)) - (A + B)| ≤ |fl (A + a + (B + b)) - (A + a + (B + b))| + (|a| + |b|) := by
      have : fl (A + a + (B + b)) - (A + B) = (fl (A + a + (B + b)) - (A + a + (B + b))) + (a + b) := by ring
      rw [this]
      exact (abs_add_le _ _).trans (by gcongr; exact abs_add_le _ _)
    norm_num at *
    linarith
  unfold vdotF
  rw [← hA, ← hB]
  cases k
  · have := key (fl A - A) (fl B - B) (fl_err' A) (fl_err' B)
    simpa using this
  · have := key 0 (fl B - B) (by rw [abs_zero]; positivity) (fl_err' B)
    simpa using this
  · have := key (fl A - A) 0 (fl_err' A) (by rw [abs_zero]; positivity)
    simpa using this

/-- The square of a rounded difference. -/
theorem sub_sq {x y : ℝ} (hx : IsDouble x) (hy : IsDouble y) :
    (1 - 1 / 2 ^ 53) ^ 2 * (x - y) ^ 2 ≤ fl (x - y) ^ 2 ∧ fl (x - y) ^ 2 ≤ (1 + 1 / 2 ^ 53) ^ 2 * (x - y) ^ 2 := by
  have h := fl_sub_err hx hy
  have h1 : |fl (x - y)| ≤ (1 + 1 / 2 ^ 53) * |x - y| := by
    have := abs_sub_abs_le_abs_sub (fl (x - y)) (x - y)
    have e : (1 + 1 / 2 ^ 53 : ℝ) * |x - y| = |x - y| + |x - y| / 2 ^ 53 := by ring
    linarith
  have h2 : (1 - 1 / 2 ^ 53) * |x - y| ≤ |fl (x - y)| := by
    have := abs_sub_abs_le_abs_sub (x - y) (fl (x - y))
    rw [abs_sub_comm (x - y) (fl (x - y))] at this
    have e : (1 - 1 / 2 ^ 53 : ℝ) * |x - y| = |x - y| - |x - y| / 2 ^ 53 := by ring
    linarith
  have h0 := abs_nonneg (x - y)
  constructor
  · rw [← sq_abs (x - y), ← sq_abs (fl (x - y)), ← mul_pow]
    exact pow_le_pow_left₀ (mul_nonneg (by norm_num) h0) h2 2
  · rw [← sq_abs (x - y), ← sq_abs (fl (x - y)), ← mul_pow]
    exact pow_le_pow_left₀ (abs_nonneg _) h1 2

/-- The squared distance computed with `dot_`. -/
theorem sqDist_err (k : Fma) {P O : Pt} (hP : DoublePt P) (hO : DoublePt O) :
    sqDist O P * (1 - 5 / 2 ^ 53) - 4 * tiny ≤ vdotF k (subF P O) (subF P O) ∧
    vdotF k (subF P O) (subF P O) ≤ sqDist O P * (1 + 5 / 2 ^ 53) + 4 * tiny := by
  have hx := sub_sq hP.1 hO.1
  have hy := sub_sq hP.2 hO.2
  have h := vdot_err k (subF P O) (subF P O)
  have e1 : (subF P O).x * (subF P O).x = fl (P.x - O.x) ^ 2 := by unfold subF; ring
  have e2 : (subF P O).y * (subF P O).y = fl (P.y - O.y) ^ 2 := by unfold subF; ring
  rw [e1, e2, abs_of_nonneg (sq_nonneg (fl (P.x - O.x))), abs_of_nonneg (sq_nonneg (fl (P.y - O.y))), abs_le] at h
  have eD : sqDist O P = (P.x - O.x) ^ 2 + (P.y - O.y) ^ 2 := by unfold sqDist; ring
  rw [eD]
  have p1 := sq_nonneg (P.x - O.x)
  have p2 := sq_nonneg (P.y - O.y)
  have ht := tiny_pos
  generalize fl (P.x - O.x) ^ 2 = s at *
  generalize fl (P.y - O.y) ^ 2 = t at *
  generalize (P.x - O.x) ^ 2 = X at *
  generalize (P.y - O.y) ^ 2 = Y at *
  generalize vdotF k (subF P O) (subF P O) = d at *
  norm_num at hx hy h ⊢
  constructor <;> linarith

end FG

open FG

/-- C88: away from the circle, `Circle.contains` in double precision gives the right answer. -/
theorem C88_contains (k : Fma) (c : Circle) (P : Pt) (hO : DoublePt c.center) (hP : DoublePt P) :
    (sqDist c.center P ≤ c.radius ^ 2 * (1 - 1 / 2 ^ 50) - 2 ^ (-1072 : ℤ) → c.containsF k P) ∧
    (c.radius ^ 2 * (1 + 1 / 2 ^ 50) + 2 ^ (-1072 : ℤ) ≤ sqDist c.center P → ¬ c.containsF k P) := by
  obtain ⟨h1, h2⟩ := sqDist_err k hP hO
  have h3 := fl_err' (c.radius * c.radius)
  have e : c.radius * c.radius = c.radius ^ 2 := by ring
  have ht := tiny_pos
  have et : (2 : ℝ) ^ (-1072 : ℤ) = 8 * tiny := by
    unfold tiny
    rw [show (-1072 : ℤ) = 3 + -1075 by norm_num, zpow_add₀ (by norm_num)]
    norm_num
  have hr := sq_nonneg c.radius
  have hd := sqDist_nonneg c.center P
  unfold Circle.containsF
  rw [e, abs_of_nonneg hr, abs_le] at h3
  rw [e, et]
  generalize vdotF k (subF P c.center) (subF P c.center) = d at *
  generalize sqDist c.center P = D at *
  generalize fl (c.radius ^ 2) = f at *
  generalize c.radius ^ 2 = R at *
  norm_num at h1 h2 h3 ⊢
  constructor
  · intro h; linarith
  · intro h; linarith

/-- C88: in double precision the three methods agree exactly: a point is contained iff its power is not positive; the power is zero iff
the computed squared distance is the computed squared radius, and then the point is also included. -/
theorem C88_power (k : Fma) (c : Circle) (M : Pt) :
    (c.containsF k M ↔ c.powerF k M ≤ 0) ∧ (c.powerF k M = 0 → c.includesF k M ∧ c.containsF k M) := by
  have hd : IsDouble (vdotF k (subF M c.center) (subF M c.center)) := by
    unfold vdotF; cases k <;> exact fl_isDouble _
  have hr := fl_isDouble (c.radius * c.radius)
  have hz := fl_sub_eq_zero hd hr
  unfold Circle.containsF Circle.powerF Circle.includesF approx_equalF iscloseF
  refine ⟨⟨fun h => fl_nonpos (by linarith), fun h => ?_⟩, fun h => ?_⟩
  · by_contra hc
    push Not at hc
    have h1 := fl_nonneg (sub_nonneg.2 hc.le)
    have := hz.1 (le_antisymm h h1)
    linarith
  · have := hz.1 h
    exact ⟨Or.inl (Or.inl this), this.le⟩

/-- C88: larger circles contain more, and every circle contains its center, in double precision as well. -/
theorem C88_monotone (k : Fma) (O P : Pt) (r r' : ℝ) (hr : 0 ≤ r) (h : r ≤ r') :
    ((⟨O, r⟩ : Circle).containsF k P → (⟨O, r'⟩ : Circle).containsF k P) ∧ (⟨O, r⟩ : Circle).containsF k O := by
  unfold Circle.containsF
  refine ⟨fun h1 => h1.trans (fl_mono (by nlinarith)), ?_⟩
  have h0 : subF O O = ⟨0, 0⟩ := by unfold subF; simp [fl_zero]
  have : vdotF k (subF O O) (subF O O) = 0 := by
    rw [h0]; unfold vdotF; cases k <;> simp [fl_zero]
  simp only
  rw [this]
  exact fl_nonneg (by positivity)

/-- C88: the computed distance is exactly symmetric. -/
theorem C88_distance_symm (k : Fma) (A B : Pt) : distanceF k A B = distanceF k B A := by
  have hx : fl (B.x - A.x) = -fl (A.x - B.x) := by rw [← fl_neg]; congr 1; ring
  have hy : fl (B.y - A.y) = -fl (A.y - B.y) := by rw [← fl_neg]; congr 1; ring
  unfold distanceF vdotF subF
  simp only [hx, hy, neg_mul_neg]

/-- C88: the computed power is the exact one up to 2^-50 times the sum of the two squares. -/
theorem C88_power_error (k : Fma) (c : Circle) (M : Pt) (hO : DoublePt c.center) (hM : DoublePt M) :
    |c.powerF k M - (sqDist c.center M - c.radius ^ 2)| ≤ (sqDist c.center M + c.radius ^ 2) / 2 ^ 50 + 2 ^ (-1072 : ℤ) := by
  obtain ⟨h1, h2⟩ := sqDist_err k hM hO
  have h3 := fl_err' (c.radius * c.radius)
  have e : c.radius * c.radius = c.radius ^ 2 := by ring
  have ht := tiny_pos
  have et : (2 : ℝ) ^ (-1072 : ℤ) = 8 * tiny := by
    unfold tiny
    rw [show (-1072 : ℤ) = 3 + -1075 by norm_num, zpow_add₀ (by norm_num)]
    norm_num
  have hr := sq_nonneg c.radius
  have hd := sqDist_nonneg c.center M
  have dd : IsDouble (vdotF k (subF M c.center) (subF M c.center)) := by
    unfold vdotF; cases k <;> exact fl_isDouble _
  have h4 := fl_sub_err dd (fl_isDouble (c.radius * c.radius))
  unfold Circle.powerF
  rw [e, abs_of_nonneg hr, abs_le] at h3
  rw [et]
  rw [e] at h4 ⊢
  generalize vdotF k (subF M c.center) (subF M c.center) = d at *
  generalize sqDist c.center M = D at *
  generalize fl (c.radius ^ 2) = f at *
  generalize c.radius ^ 2 = R at *
  have h5 : |d - f| ≤ D * (1 + 1 / 2 ^ 50) + R * (1 + 1 / 2 ^ 50) + 5 * tiny := by
    rw [abs_le]; norm_num at h1 h2 h3 ⊢; constructor <;> linarith
  generalize |d - f| = m at *
  rw [abs_le] at h4 ⊢
  norm_num at h1 h2 h3 h4 h5 ⊢
  constructor <;> linarith

/-- C88: the computed distance is the exact one up to a relative error of 2^-51 (and 2^-535 near underflow). -/
theorem C88_distance_error (k : Fma) (A B : Pt) (hA : DoublePt A) (hB : DoublePt B) :
    |distanceF k A B - Spec.dist A B| ≤ Spec.dist A B / 2 ^ 51 + 2 ^ (-535 : ℤ) := by
  obtain ⟨h1, h2⟩ := sqDist_err k hB hA
  have ht := tiny_pos
  have hd := sqDist_nonneg A B
  have e4 : (4 * tiny) ≤ (2 ^ (-536 : ℤ)) ^ 2 := by
    have : ((2 : ℝ) ^ (-536 : ℤ)) ^ 2 = 8 * tiny := by
      unfold tiny
      rw [sq, ← zpow_add₀ (by norm_num), show (-536 : ℤ) + -536 = 3 + -1075 by norm_num, zpow_add₀ (by norm_num)]
      norm_num
    linarith
  have e5 : (2 : ℝ) ^ (-535 : ℤ) = 2 * 2 ^ (-536 : ℤ) := by
    rw [show (-535 : ℤ) = 1 + -536 by norm_num, zpow_add₀ (by norm_num)]; norm_num
  have e6 : tiny ≤ 2 ^ (-600 : ℤ) := zpow_le_zpow_right₀ (by norm_num) (by norm_num)
  have e7 : (2 : ℝ) ^ (-600 : ℤ) = 2 ^ (-64 : ℤ) * 2 ^ (-536 : ℤ) := by rw [← zpow_add₀ (by norm_num)]; norm_num
  have e8 : (2 : ℝ) ^ (-64 : ℤ) = 1 / 2 ^ 64 := by norm_num
  rw [e8] at e7
  rw [e5]
  rw [e7] at e6
  have ew : (0 : ℝ) < 2 ^ (-536 : ℤ) := two_zpow_pos _
  unfold distanceF Spec.dist
  have hv : 0 ≤ vdotF k (subF B A) (subF B A) := by
    have := fun x : ℝ => fl_nonneg (mul_self_nonneg x)
    unfold vdotF
    cases k
    · exact fl_nonneg (add_nonneg (this _) (this _))
    · exact fl_nonneg (add_nonneg (mul_self_nonneg _) (this _))
    · exact fl_nonneg (add_nonneg (this _) (mul_self_nonneg _))
  generalize vdotF k (subF B A) (subF B A) = v at *
  generalize sqDist A B = D at *
  generalize (2 : ℝ) ^ (-536 : ℤ) = w at *
  have hf := fl_err' √v
  rw [abs_of_nonneg (Real.sqrt_nonneg v)] at hf
  have sD := Real.sq_sqrt hd
  have sv := Real.sq_sqrt hv
  have pD := Real.sqrt_nonneg D
  have pv := Real.sqrt_nonneg v
  generalize √D = d at *
  generalize fl √v = f at *
  generalize √v = s at *
  have u1 : s ≤ d * (1 + 5 / 2 / 2 ^ 53) + w := by
    by_contra hc
    push Not at hc
    have hn : 0 ≤ d * (1 + 5 / 2 / 2 ^ 53) + w := by positivity
    have : (d * (1 + 5 / 2 / 2 ^ 53) + w) ^ 2 < s ^ 2 := by gcongr
    have hdw := mul_nonneg pD ew.le
    norm_num at this h2
    nlinarith
  have u2 : d * (1 - 3 / 2 ^ 53) ≤ s + w := by
    by_contra hc
    push Not at hc
    have hn : 0 ≤ s + w := by positivity
    have : (s + w) ^ 2 < (d * (1 - 3 / 2 ^ 53)) ^ 2 := by gcongr
    have hsw := mul_nonneg pv ew.le
    rw [mul_pow, sD] at this
    norm_num at this h1
    nlinarith
  rw [abs_le] at hf ⊢
  norm_num at hf u1 u2 e6 ⊢
  constructor <;> linarith

/-- The hypotheses of `C88_contains` on both sides of the unit circle. -/
example : DoublePt ⟨0, 0⟩ ∧ DoublePt ⟨1, 1⟩ ∧ sqDist ⟨0, 0⟩ ⟨1, 1⟩ ≤ (2 : ℝ) ^ 2 * (1 - 1 / 2 ^ 50) - 2 ^ (-1072 : ℤ) ∧
    (1 : ℝ) ^ 2 * (1 + 1 / 2 ^ 50) + 2 ^ (-1072 : ℤ) ≤ sqDist ⟨0, 0⟩ ⟨1, 1⟩ := by
  have d0 : IsDouble 0 := by simpa using isDouble_int (n := 0) (by norm_num)
  have d1 : IsDouble 1 := by simpa using isDouble_int (n := 1) (by norm_num)
  have hz : (2 : ℝ) ^ (-1072 : ℤ) ≤ 2 ^ (-2 : ℤ) := zpow_le_zpow_right₀ (by norm_num) (by norm_num)
  have e : (2 : ℝ) ^ (-2 : ℤ) = 1 / 4 := by norm_num
  rw [e] at hz
  refine ⟨⟨d0, d0⟩, ⟨d1, d1⟩, ?_, ?_⟩ <;> unfold sqDist <;> norm_num at hz ⊢ <;> linarith

/-- Points with small integer coordinates. -/
theorem Ex.dbl (m n : ℤ) (hm : |m| ≤ 2 ^ 53) (hn : |n| ≤ 2 ^ 53) : DoublePt ⟨m, n⟩ := ⟨isDouble_int hm, isDouble_int hn⟩

/-- The circle of radius 2 about the origin contains `(1, 1)` and not `(2, 1)`, in double precision too, with or without fused
multiplication; the computed power and the computed distance are within `10^-14`. -/
example (k : Fma) : (⟨⟨0, 0⟩, 2⟩ : Circle).containsF k ⟨1, 1⟩ ∧ ¬ (⟨⟨0, 0⟩, 2⟩ : Circle).containsF k ⟨2, 1⟩ ∧
    (⟨⟨0, 0⟩, 3⟩ : Circle).containsF k ⟨1, 1⟩ ∧ (⟨⟨0, 0⟩, 2⟩ : Circle).powerF k ⟨1, 1⟩ ≤ 0 ∧
    |(⟨⟨0, 0⟩, 2⟩ : Circle).powerF k ⟨1, 1⟩ - -2| ≤ 1 / 10 ^ 14 ∧
    distanceF k ⟨1, 1⟩ ⟨4, 5⟩ = distanceF k ⟨4, 5⟩ ⟨1, 1⟩ ∧ |distanceF k ⟨4, 5⟩ ⟨1, 1⟩ - 5| ≤ 1 / 10 ^ 14 := by
  have h0 : DoublePt ⟨0, 0⟩ := by simpa using Ex.dbl 0 0 (by norm_num) (by norm_num)
  have h1 : DoublePt ⟨1, 1⟩ := by simpa using Ex.dbl 1 1 (by norm_num) (by norm_num)
  have h2 : DoublePt ⟨2, 1⟩ := by simpa using Ex.dbl 2 1 (by norm_num) (by norm_num)
  have h3 : DoublePt ⟨4, 5⟩ := by simpa using Ex.dbl 4 5 (by norm_num) (by norm_num)
  have z1 : (2 : ℝ) ^ (-1072 : ℤ) ≤ 2 ^ (-60 : ℤ) := zpow_le_zpow_right₀ (by norm_num) (by norm_num)
  have z2 : (2 : ℝ) ^ (-535 : ℤ) ≤ 2 ^ (-60 : ℤ) := zpow_le_zpow_right₀ (by norm_num) (by norm_num)
  have hz : (2 : ℝ) ^ (-60 : ℤ) = 1 / 1152921504606846976 := by norm_num
  rw [hz] at z1 z2
  have c1 : (⟨⟨0, 0⟩, 2⟩ : Circle).containsF k ⟨1, 1⟩ := by
    refine (C88_contains k ⟨⟨0, 0⟩, 2⟩ ⟨1, 1⟩ h0 h1).1 ?_
    unfold sqDist; norm_num at z1 ⊢; linarith
  refine ⟨c1, ?_, ((C88_monotone k _ _ 2 3 (by norm_num) (by norm_num)).1 c1), (C88_power k _ _).1.1 c1, ?_, C88_distance_symm k _ _, ?_⟩
  · refine (C88_contains k ⟨⟨0, 0⟩, 2⟩ ⟨2, 1⟩ h0 h2).2 ?_
    unfold sqDist; norm_num at z1 ⊢; linarith
  · have := C88_power_error k ⟨⟨0, 0⟩, 2⟩ ⟨1, 1⟩ h0 h1
    unfold sqDist at this; norm_num at this z1 ⊢; linarith
  · have := C88_distance_error k ⟨4, 5⟩ ⟨1, 1⟩ h3 h1
    rw [show Spec.dist (⟨4, 5⟩ : Pt) ⟨1, 1⟩ = 5 by rw [dist_eq_iff (by norm_num)]; norm_num [sqDist]] at this
    norm_num at this z2 ⊢; linarith
