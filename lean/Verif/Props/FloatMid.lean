import Verif.Model.FloatMid
import Verif.Props.FloatSwap
import Verif.Props.FloatRadical
import Verif.Props.FloatReflection

/-!
# C144: mid-circles in double precision
-/

open Spec Real Classical FG FT

namespace FMid

/-- A circle near another one. -/
structure Near (B : ℕ) (c' c : Circle) : Prop where
  x : |c'.center.x - c.center.x| ≤ 28 * B ^ 3 / 2 ^ 53
  y : |c'.center.y - c.center.y| ≤ 28 * B ^ 3 / 2 ^ 53
  radius : |c'.radius - c.radius| ≤ B ^ 7 / 2 ^ 41

/-- The square root of an approximate number. -/
theorem sqrt_near {B : ℕ} (hB1 : 1 ≤ B) (hB : B ≤ 2 ^ 5) {k' k : ℝ} (hk : 1 / (4 * (B : ℝ) ^ 2) ≤ k) (hk' : k ≤ 33 * (B : ℝ) ^ 5)
    (h : |k' - k| ≤ (B : ℝ) ^ 6 / 2 ^ 43) : 0 < fl (√k') ∧ |fl (√k') - √k| ≤ (B : ℝ) ^ 7 / 2 ^ 41 := by
  have b1 : (1 : ℝ) ≤ B := by exact_mod_cast hB1
  have b2 : (B : ℝ) ≤ 2 ^ 5 := by exact_mod_cast hB
  generalize (B : ℝ) = b at *
  have h' := abs_le.1 h
  have b8 : b ^ 8 ≤ 2 ^ 40 := (pow_le_pow_left₀ (by linarith) b2 8).trans (by norm_num)
  have lo : 1 / (8 * b ^ 2) ≤ k' := by
    have : b ^ 6 / 2 ^ 43 ≤ 1 / (8 * b ^ 2) := by
      rw [div_le_div_iff₀ (by norm_num) (by positivity)]
      have e : b ^ 6 * (8 * b ^ 2) = 8 * b ^ 8 := by ring
      rw [e]
      norm_num at *
      linarith
    have e : 1 / (4 * b ^ 2) = 1 / (8 * b ^ 2) + 1 / (8 * b ^ 2) := by field_simp; norm_num
    linarith
  have k0 : 0 < k := lt_of_lt_of_le (by positivity) hk
  have k0' : 0 < k' := lt_of_lt_of_le (by positivity) lo
  have s1 : 1 / (2 * b) ≤ √k := by
    apply Real.le_sqrt_of_sq_le
    refine le_trans (le_of_eq ?_) hk
    field_simp
    norm_num
  have s0 := Real.sqrt_pos.2 k0'
  have s0' := Real.sqrt_pos.2 k0
  have d : |√k' - √k| ≤ b ^ 7 / 2 ^ 42 := by
    have e : (√k' - √k) * (√k' + √k) = k' - k := by
      have := Real.sq_sqrt k0.le
      have := Real.sq_sqrt k0'.le
      nlinarith
    have : |√k' - √k| * (1 / (2 * b)) ≤ b ^ 6 / 2 ^ 43 := by
      refine le_trans ?_ h
      rw [← e, abs_mul, abs_of_pos (show 0 < √k' + √k by linarith)]
      exact mul_le_mul_of_nonneg_left (by linarith) (abs_nonneg _)
    rw [mul_one_div, div_le_iff₀ (by linarith)] at this
    refine this.trans (le_of_eq ?_)
    ring
  have up : √k ≤ 6 * b ^ 3 := by
    rw [Real.sqrt_le_left (by positivity)]
    refine hk'.trans ?_
    have : b ^ 5 ≤ b ^ 6 := pow_le_pow_right₀ b1 (by norm_num)
    have b0 : (0 : ℝ) ≤ b ^ 5 := by positivity
    have e : (6 * b ^ 3) ^ 2 = 36 * b ^ 6 := by ring
    rw [e]
    linarith
  have b37 : b ^ 3 ≤ b ^ 7 := pow_le_pow_right₀ b1 (by norm_num)
  have b3 : 1 ≤ b ^ 3 := one_le_pow₀ b1
  have f := FSwap.flN (x := √k') (B := 7 * b ^ 7) (by
    have := abs_le.1 d
    rw [abs_of_pos s0]
    norm_num at *
    linarith) (by norm_num; linarith)
  constructor
  · have l8 : 1 / 2 ^ 10 ≤ √k' := by
      apply Real.le_sqrt_of_sq_le
      refine le_trans ?_ lo
      rw [div_pow, div_le_div_iff₀ (by norm_num) (by positivity)]
      have : b ^ 2 ≤ (2 ^ 5) ^ 2 := pow_le_pow_left₀ (by linarith) b2 2
      norm_num at *
      linarith
    have e : fl (1 / 2 ^ 10) = 1 / 2 ^ 10 := fl_double ⟨1, -10, by norm_num, by norm_num, by norm_num⟩
    have := fl_mono l8
    rw [e] at this
    exact lt_of_lt_of_le (by norm_num) this
  · have a1 := abs_le.1 f
    have a2 := abs_le.1 d
    have b7 : (0 : ℝ) ≤ b ^ 7 := by positivity
    rw [abs_le]
    norm_num at *
    constructor <;> linarith

theorem eps_add {s : ℝ} {A : ℕ} (h : IntB A s) (hA : A ≤ 2 ^ 20) : fl (s + sepsilon_) = s + sepsilon_ ∧ fl (s - sepsilon_) = s - sepsilon_ := by
  obtain ⟨n, rfl, hn⟩ := h
  have hn' : |n| ≤ 2 ^ 20 := hn.trans (by exact_mod_cast hA)
  unfold sepsilon_
  have b := abs_le.1 hn'
  constructor
  · refine fl_double ⟨n * 2 ^ 26 + 1, -26, by norm_num, by rw [abs_le]; constructor <;> norm_num at * <;> linarith, ?_⟩
    push_cast
    norm_num
    ring
  · refine fl_double ⟨n * 2 ^ 26 - 1, -26, by norm_num, by rw [abs_le]; constructor <;> norm_num at * <;> linarith, ?_⟩
    push_cast
    norm_num
    ring

/-- The powers of the two mid-circles. -/
theorem kext_eq {O1 O2 : Pt} {r1 r2 : ℝ} (h1 : 0 < r1) (h2 : 0 < r2) (hne : r1 ≠ r2) :
    r1 / r2 * |dot1_ (O1 - (r1 / r2 / (1 - r1 / r2)) • (O2 - O1) - O2) - r2 * r2| = r1 * r2 * |sqDist O1 O2 - (r1 - r2) ^ 2| / (r1 - r2) ^ 2 := by
  have hd : r2 - r1 ≠ 0 := sub_ne_zero.2 hne.symm
  have hd' : r1 - r2 ≠ 0 := sub_ne_zero.2 hne
  have e : dot1_ (O1 - (r1 / r2 / (1 - r1 / r2)) • (O2 - O1) - O2) - r2 * r2 = r2 ^ 2 / (r1 - r2) ^ 2 * (sqDist O1 O2 - (r1 - r2) ^ 2) := by
    change (O1.x - r1 / r2 / (1 - r1 / r2) * (O2.x - O1.x) - O2.x) * (O1.x - r1 / r2 / (1 - r1 / r2) * (O2.x - O1.x) - O2.x) +
      (O1.y - r1 / r2 / (1 - r1 / r2) * (O2.y - O1.y) - O2.y) * (O1.y - r1 / r2 / (1 - r1 / r2) * (O2.y - O1.y) - O2.y) - r2 * r2 = _
    have q : r1 / r2 / (1 - r1 / r2) = r1 / (r2 - r1) := by field_simp
    rw [q]
    unfold sqDist
    have s : (r1 - r2) ^ 2 = (r2 - r1) ^ 2 := by ring
    rw [s]
    field_simp
    ring
  rw [e, abs_mul, abs_of_pos (by positivity)]
  field_simp

theorem kint_eq {O1 O2 : Pt} {r1 r2 : ℝ} (h1 : 0 < r1) (h2 : 0 < r2) :
    r1 / r2 * |dot1_ (O1 + (r1 / r2 / (1 + r1 / r2)) • (O2 - O1) - O2) - r2 * r2| = r1 * r2 * |sqDist O1 O2 - (r1 + r2) ^ 2| / (r1 + r2) ^ 2 := by
  have e : dot1_ (O1 + (r1 / r2 / (1 + r1 / r2)) • (O2 - O1) - O2) - r2 * r2 = r2 ^ 2 / (r1 + r2) ^ 2 * (sqDist O1 O2 - (r1 + r2) ^ 2) := by
    change (O1.x + r1 / r2 / (1 + r1 / r2) * (O2.x - O1.x) - O2.x) * (O1.x + r1 / r2 / (1 + r1 / r2) * (O2.x - O1.x) - O2.x) +
      (O1.y + r1 / r2 / (1 + r1 / r2) * (O2.y - O1.y) - O2.y) * (O1.y + r1 / r2 / (1 + r1 / r2) * (O2.y - O1.y) - O2.y) - r2 * r2 = _
    have q : r1 / r2 / (1 + r1 / r2) = r1 / (r1 + r2) := by field_simp; ring
    rw [q]
    unfold sqDist
    field_simp
    ring
  rw [e, abs_mul, abs_of_pos (by positivity)]
  field_simp

/-- Pole and power of both kinds. -/
theorem bounds (k : Fma) (c1 c2 : Circle) {B : ℕ} (hB : B ≤ 2 ^ 5) (h1 : IntPt B c1.center) (h2 : IntPt B c2.center) (g1 : IntB B c1.radius)
    (g2 : IntB B c2.radius) (q1 : 1 ≤ c1.radius) (q2 : 1 ≤ c2.radius) (hd : 1 ≤ |c2.radius - c1.radius|) {O' O : Pt}
    (hO : (O' = Inversion.swapOuterF c1.center c2.center (fl (c1.radius / c2.radius)) ∧
        O = c1.center - (c1.radius / c2.radius / (1 - c1.radius / c2.radius)) • (c2.center - c1.center)) ∨
      (O' = Inversion.swapInnerF c1.center c2.center (fl (c1.radius / c2.radius)) ∧
        O = c1.center + (c1.radius / c2.radius / (1 + c1.radius / c2.radius)) • (c2.center - c1.center)))
    (hk : 1 / (4 * (B : ℝ) ^ 2) ≤ c1.radius / c2.radius * |dot1_ (O - c2.center) - c2.radius * c2.radius|) :
    ∃ c' c, mkCircleF O' (fl (√(fl (fl (c1.radius / c2.radius) * Inversion.swapPowerF k O' c2.center c2.radius)))) = .ok c' ∧
      mkCircle O (√(c1.radius / c2.radius * |dot1_ (O - c2.center) - c2.radius * c2.radius|)) = .ok c ∧ Near B c' c := by
  have u1 : c1.radius ≤ B := (le_abs_self _).trans (FI.abs_le g1)
  have u2 : c2.radius ≤ B := (le_abs_self _).trans (FI.abs_le g2)
  have hb1 : (1 : ℝ) ≤ B := q1.trans u1
  have hb5 : (B : ℝ) ≤ 2 ^ 5 := by exact_mod_cast hB
  have hb : (B : ℝ) ≤ 2 ^ 7 := hb5.trans (by norm_num)
  have In := FSwap.inner hb q1 u1 q2 u2
  have Ou := FSwap.outer hb1 hb q1 u1 q2 u2 hd
  obtain ⟨ra, ra1, ra2⟩ := FSwap.ratio hb q1 u1 q2 u2
  have a0 : 0 ≤ c1.radius / c2.radius := by positivity
  have ha := FSwap.apx_of_rel (e := 1.3) ra a0 (by norm_num) (by norm_num) ra1
  have r2 : |c2.radius| ≤ B := FI.abs_le g2
  have P : Apx (2 * (B : ℝ) + 7.2) (3 * (B : ℝ) ^ 2) O'.x O.x ∧ Apx (2 * (B : ℝ) + 7.2) (3 * (B : ℝ) ^ 2) O'.y O.y := by
    rcases hO with ⟨rfl, rfl⟩ | ⟨rfl, rfl⟩
    · exact ⟨(FSwap.pole rfl hb1 hb Ou h1.1 h2.1).2, (FSwap.pole rfl hb1 hb Ou h1.2 h2.2).2⟩
    · exact ⟨(FSwap.pole rfl hb1 hb In h1.1 h2.1).1, (FSwap.pole rfl hb1 hb In h1.2 h2.2).1⟩
  obtain ⟨hx, hy⟩ := P
  have hp := FSwap.power k rfl hb1 hb ha hx hy h2 r2
  have e1 : (2 * (B : ℝ) + 7.2) / 2 ^ 53 * (3 * (B : ℝ) ^ 2) ≤ 28 * B ^ 3 / 2 ^ 53 := by
    rw [div_mul_eq_mul_div]
    gcongr ?_ / _
    have := mul_nonneg (sq_nonneg (B : ℝ)) (show (0 : ℝ) ≤ B - 1 by linarith)
    norm_num
    nlinarith
  have e2 : (4 * (B : ℝ) + 22.3) / 2 ^ 53 * (B * (33 * B ^ 4)) ≤ B ^ 6 / 2 ^ 43 := by
    have b5 : (0 : ℝ) ≤ (B : ℝ) ^ 5 := by positivity
    have := mul_nonneg b5 (show (0 : ℝ) ≤ B - 1 by linarith)
    norm_num
    nlinarith
  have kp : 0 < c1.radius / c2.radius * |dot1_ (O - c2.center) - c2.radius * c2.radius| := lt_of_lt_of_le (by positivity) hk
  obtain ⟨s0, s1⟩ := sqrt_near (by exact_mod_cast hb1) hB hk ((le_abs_self _).trans (hp.2.trans (le_of_eq (by ring)))) (hp.1.trans e2)
  refine ⟨_, _, by unfold mkCircleF; rw [if_neg (not_le.2 s0)], by unfold mkCircle; rw [if_neg (not_le.2 (Real.sqrt_pos.2 kp))], ⟨hx.1.trans e1, hy.1.trans e1, s1⟩⟩

theorem k_low {B : ℕ} {r1 r2 x S : ℝ} (q1 : 1 ≤ r1) (q2 : 1 ≤ r2) (hx : 1 ≤ |x|) (hS0 : 0 < S) (hS : S ≤ 4 * (B : ℝ) ^ 2) : 1 / (4 * (B : ℝ) ^ 2) ≤ r1 * r2 * |x| / S := by
  have : 1 ≤ r1 * r2 := by nlinarith
  have : 1 ≤ r1 * r2 * |x| := by nlinarith
  exact div_le_div₀ (by linarith) this hS0 hS

end FMid

/-- **C144.** For integer centers and different positive integer radii up to `B ≤ 2 ^ 5`, `mid_circles` in double precision returns as many circles as without
rounding, one or two. The coordinates of their centers have an error of at most `28 B ^ 3 / 2 ^ 53` and their radii an error of at most `B ^ 7 / 2 ^ 41`. There is one
circle exactly when the given circles do not cross, that is when the distance of the centers is at least the sum or at most the difference of the radii. -/
theorem C144_mid_circles (k : Fma) (c1 c2 : Circle) {B : ℕ} (hB : B ≤ 2 ^ 5) (h1 : IntPt B c1.center) (h2 : IntPt B c2.center) (g1 : IntB B c1.radius)
    (g2 : IntB B c2.radius) (p1 : 0 < c1.radius) (p2 : 0 < c2.radius) (hne : c1.radius ≠ c2.radius) :
    ((¬ ((c1.radius - c2.radius) ^ 2 < sqDist c1.center c2.center ∧ sqDist c1.center c2.center < (c1.radius + c2.radius) ^ 2)) ∧
      ∃ c' c, mid_circlesF k c1 c2 = .ok (.single (.circle c')) ∧ mid_circles c1 c2 = .ok (.single (.circle c)) ∧ FMid.Near B c' c) ∨
    (((c1.radius - c2.radius) ^ 2 < sqDist c1.center c2.center ∧ sqDist c1.center c2.center < (c1.radius + c2.radius) ^ 2) ∧
      ∃ c' c e' e, mid_circlesF k c1 c2 = .ok (.pair (.circle c') (.circle e')) ∧ mid_circles c1 c2 = .ok (.pair (.circle c) (.circle e)) ∧
        FMid.Near B c' c ∧ FMid.Near B e' e) := by
  have one : ∀ {x : ℝ}, IntB B x → 0 < x → 1 ≤ x := by
    rintro x ⟨n, rfl, -⟩ hx
    have : 0 < n := by exact_mod_cast hx
    exact_mod_cast this
  have q1 := one g1 p1
  have q2 := one g2 p2
  have u1 : c1.radius ≤ B := (le_abs_self _).trans (FI.abs_le g1)
  have u2 : c2.radius ≤ B := (le_abs_self _).trans (FI.abs_le g2)
  have hd : 1 ≤ |c2.radius - c1.radius| := FI.one_le_abs (FI.sub g2 g1) (sub_ne_zero.2 hne.symm)
  have up : ∀ {x : ℝ}, IntB B x → IntB (2 ^ 5) x := fun h => FI.mono h hB
  obtain ⟨e, iN⟩ := FI.sqd k (P := c1.center) (Q := c2.center) ⟨up h1.1, up h1.2⟩ ⟨up h2.1, up h2.2⟩ (by norm_num)
  have er : fl (c1.radius + c2.radius) = c1.radius + c2.radius := FI.fl (FI.add (up g1) (up g2)) (by norm_num)
  have es : fl (c1.radius - c2.radius) = c1.radius - c2.radius := FI.fl (FI.sub (up g1) (up g2)) (by norm_num)
  have iS := FI.mul (FI.add (up g1) (up g2)) (FI.add (up g1) (up g2))
  have iD := FI.mul (FI.sub (up g1) (up g2)) (FI.sub (up g1) (up g2))
  have fS : fl ((c1.radius + c2.radius) * (c1.radius + c2.radius)) = (c1.radius + c2.radius) * (c1.radius + c2.radius) := FI.fl iS (by norm_num)
  have fD : fl ((c1.radius - c2.radius) * (c1.radius - c2.radius)) = (c1.radius - c2.radius) * (c1.radius - c2.radius) := FI.fl iD (by norm_num)
  have fa := (FMid.eps_add iS (by norm_num)).1
  have fb := (FMid.eps_add iD (by norm_num)).2
  have fc : fl ((c1.radius + c2.radius) * (c1.radius + c2.radius) - sqDist c1.center c2.center) = (c1.radius + c2.radius) * (c1.radius + c2.radius) - sqDist c1.center c2.center :=
    FI.fl (FI.sub iS iN) (by norm_num)
  have fd : fl (sqDist c1.center c2.center - (c1.radius - c2.radius) * (c1.radius - c2.radius)) = sqDist c1.center c2.center - (c1.radius - c2.radius) * (c1.radius - c2.radius) :=
    FI.fl (FI.sub iN iD) (by norm_num)
  have dot : dot1_ (c1.center - c2.center) = sqDist c1.center c2.center := by
    change (c1.center.x - c2.center.x) * (c1.center.x - c2.center.x) + (c1.center.y - c2.center.y) * (c1.center.y - c2.center.y) = _
    unfold sqDist
    ring
  -- integers at a distance less than `sepsilon_`
  have gapS : sqDist c1.center c2.center ≠ (c1.radius + c2.radius) * (c1.radius + c2.radius) →
      1 ≤ |sqDist c1.center c2.center - (c1.radius + c2.radius) * (c1.radius + c2.radius)| := fun h => FI.one_le_abs (FI.sub iN iS) (sub_ne_zero.2 h)
  have gapD : sqDist c1.center c2.center ≠ (c1.radius - c2.radius) * (c1.radius - c2.radius) →
      1 ≤ |sqDist c1.center c2.center - (c1.radius - c2.radius) * (c1.radius - c2.radius)| := fun h => FI.one_le_abs (FI.sub iN iD) (sub_ne_zero.2 h)
  have DS : (c1.radius - c2.radius) * (c1.radius - c2.radius) < (c1.radius + c2.radius) * (c1.radius + c2.radius) := by nlinarith
  have eps : (0 : ℝ) < sepsilon_ ∧ sepsilon_ < 1 := by unfold sepsilon_; norm_num
  have Ext : sqDist c1.center c2.center ≠ (c1.radius - c2.radius) * (c1.radius - c2.radius) → _ := fun h =>
    FMid.bounds k c1 c2 hB h1 h2 g1 g2 q1 q2 hd (Or.inl ⟨rfl, rfl⟩) (by
      rw [FMid.kext_eq p1 p2 hne]
      refine FMid.k_low q1 q2 (by have := gapD h; rwa [← sq] at this) ?_ ?_
      · have := sub_ne_zero.2 hne
        positivity
      · nlinarith)
  have Int : sqDist c1.center c2.center ≠ (c1.radius + c2.radius) * (c1.radius + c2.radius) → _ := fun h =>
    FMid.bounds k c1 c2 hB h1 h2 g1 g2 q1 q2 hd (Or.inr ⟨rfl, rfl⟩) (by
      rw [FMid.kint_eq p1 p2]
      refine FMid.k_low q1 q2 (by have := gapS h; rwa [← sq] at this) (by positivity) ?_
      nlinarith)
  unfold mid_circlesF mid_circles
  dsimp only
  rw [if_neg hne, if_neg hne, e, er, es, fS, fD, fa, fb, fc, fd, dot, sq, sq]
  generalize sqDist c1.center c2.center = N at *
  generalize (c1.radius + c2.radius) * (c1.radius + c2.radius) = S at *
  generalize (c1.radius - c2.radius) * (c1.radius - c2.radius) = D at *
  by_cases b1 : N > S + sepsilon_
  · obtain ⟨c', c, w1, w2, w3⟩ := Ext (by intro h; linarith)
    left
    refine ⟨fun h => by linarith, c', c, ?_, ?_, w3⟩
    · rw [if_pos b1, w1]; rfl
    · rw [if_pos b1, w2]; rfl
  by_cases b2 : N < D - sepsilon_
  · obtain ⟨c', c, w1, w2, w3⟩ := Int (by intro h; linarith)
    left
    refine ⟨fun h => by linarith, c', c, ?_, ?_, w3⟩
    · rw [if_neg b1, if_pos b2, w1]; rfl
    · rw [if_neg b1, if_pos b2, w2]; rfl
  by_cases b3 : S - N < sepsilon_
  · have hN : N = S := by
      by_contra hc
      rcases le_abs.1 (gapS hc) with g | g <;> linarith
    obtain ⟨c', c, w1, w2, w3⟩ := Ext (by intro h; linarith)
    left
    refine ⟨fun h => by linarith, c', c, ?_, ?_, w3⟩
    · rw [if_neg b1, if_neg b2, if_pos b3, w1]; rfl
    · rw [if_neg b1, if_neg b2, if_pos b3, w2]; rfl
  by_cases b4 : N - D < sepsilon_
  · have hN : N = D := by
      by_contra hc
      rcases le_abs.1 (gapD hc) with g | g <;> linarith
    obtain ⟨c', c, w1, w2, w3⟩ := Int (by intro h; linarith)
    left
    refine ⟨fun h => by linarith, c', c, ?_, ?_, w3⟩
    · rw [if_neg b1, if_neg b2, if_neg b3, if_pos b4, w1]; rfl
    · rw [if_neg b1, if_neg b2, if_neg b3, if_pos b4, w2]; rfl
  · obtain ⟨c', c, w1, w2, w3⟩ := Ext (by intro h; linarith)
    obtain ⟨d', d, v1, v2, v3⟩ := Int (by intro h; linarith)
    right
    refine ⟨⟨by linarith, by linarith⟩, c', c, d', d, ?_, ?_, w3, v3⟩
    · rw [if_neg b1, if_neg b2, if_neg b3, if_neg b4, w1, v1]; rfl
    · rw [if_neg b1, if_neg b2, if_neg b3, if_neg b4, w2, v2]; rfl

-- Circles of radii 1 and 3 around the origin and `(10, 0)`, outside of each other: one mid-circle, its center near `(-5, 0)`.
example (k : Fma) : ∃ c', mid_circlesF k ⟨⟨0, 0⟩, 1⟩ ⟨⟨10, 0⟩, 3⟩ = .ok (.single (.circle c')) ∧ |c'.center.x - (-5)| ≤ 28 * 10 ^ 3 / 2 ^ 53 ∧
    |c'.radius - √72| ≤ 10 ^ 7 / 2 ^ 41 := by
  have z : IntB 10 0 := ⟨0, by norm_num, by norm_num⟩
  have s : IntB 10 10 := ⟨10, by norm_num, by norm_num⟩
  rcases C144_mid_circles k ⟨⟨0, 0⟩, 1⟩ ⟨⟨10, 0⟩, 3⟩ (B := 10) (by norm_num) ⟨z, z⟩ ⟨s, z⟩ ⟨1, by norm_num, by norm_num⟩
    ⟨3, by norm_num, by norm_num⟩ (by norm_num) (by norm_num) (by norm_num) with ⟨-, c', c, h1, h2, h3⟩ | ⟨⟨-, h⟩, -⟩
  · have hO : (⟨0, 0⟩ : Pt) - ((1 : ℝ) / 3 / (1 - 1 / 3)) • ((⟨10, 0⟩ : Pt) - ⟨0, 0⟩) = ⟨-5, 0⟩ := by
      ext
      · change (0 : ℝ) - 1 / 3 / (1 - 1 / 3) * (10 - 0) = -5; norm_num
      · change (0 : ℝ) - 1 / 3 / (1 - 1 / 3) * (0 - 0) = 0; norm_num
    have d : dot1_ ((⟨0, 0⟩ : Pt) - ⟨10, 0⟩) = 100 := by
      change (0 - 10 : ℝ) * (0 - 10) + (0 - 0) * (0 - 0) = 100
      norm_num
    have p : (1 : ℝ) / 3 * |dot1_ ((⟨-5, 0⟩ : Pt) - ⟨10, 0⟩) - 3 * 3| = 72 := by
      change (1 : ℝ) / 3 * |(-5 - 10) * (-5 - 10) + (0 - 0) * (0 - 0) - 3 * 3| = 72
      norm_num
    have e : mid_circles ⟨⟨0, 0⟩, 1⟩ ⟨⟨10, 0⟩, 3⟩ = .ok (.single (.circle ⟨⟨-5, 0⟩, √72⟩)) := by
      unfold mid_circles
      dsimp only
      rw [if_neg (by norm_num), d, if_pos (by unfold sepsilon_; norm_num), hO, p]
      unfold mkCircle
      rw [if_neg (not_le.2 (Real.sqrt_pos.2 (by norm_num)))]
      rfl
    rw [e] at h2
    injection h2 with h2
    injection h2 with h2
    injection h2 with h2
    subst h2
    exact ⟨c', h1, by exact_mod_cast h3.x, by exact_mod_cast h3.radius⟩
  · exfalso
    unfold sqDist at h
    norm_num at h

-- Circles of radii 1 and 2 at distance 2 cross: two mid-circles.
example (k : Fma) : ∃ c' e', mid_circlesF k ⟨⟨0, 0⟩, 1⟩ ⟨⟨2, 0⟩, 2⟩ = .ok (.pair (.circle c') (.circle e')) := by
  have z : IntB 2 0 := ⟨0, by norm_num, by norm_num⟩
  have s : IntB 2 2 := ⟨2, by norm_num, by norm_num⟩
  rcases C144_mid_circles k ⟨⟨0, 0⟩, 1⟩ ⟨⟨2, 0⟩, 2⟩ (B := 2) (by norm_num) ⟨z, z⟩ ⟨s, z⟩ ⟨1, by norm_num, by norm_num⟩ s (by norm_num) (by norm_num)
    (by norm_num) with ⟨h, -⟩ | ⟨-, c', -, e', -, h, -⟩
  · exfalso
    apply h
    unfold sqDist
    norm_num
  · exact ⟨c', e', h⟩

/-- **C144**, equal radii. For integer data up to `2 ^ 11` the result in double precision is the one without rounding: the given circle, the same line, or the same line
with a circle of the same center, and the radius of this circle is the correctly rounded one. The function never raises. -/
theorem C144_equal (k : Fma) (c1 c2 : Circle) (h1 : IntPt (2 ^ 11) c1.center) (h2 : IntPt (2 ^ 11) c2.center) (hr : IntB (2 ^ 11) c1.radius)
    (he : c1.radius = c2.radius) :
    (c1.center = c2.center ∧ mid_circlesF k c1 c2 = .ok (.single (.circle c1)) ∧ mid_circles c1 c2 = .ok (.single (.circle c1))) ∨
    (c1.center ≠ c2.center ∧ (2 * c1.radius) ^ 2 ≤ sqDist c1.center c2.center ∧
      ∃ l, mid_circlesF k c1 c2 = .ok (.single (.line l)) ∧ mid_circles c1 c2 = .ok (.single (.line l))) ∨
    (c1.center ≠ c2.center ∧ sqDist c1.center c2.center < (2 * c1.radius) ^ 2 ∧
      ∃ l c, mid_circlesF k c1 c2 = .ok (.pair (.circle ⟨c.center, fl c.radius⟩) (.line l)) ∧ mid_circles c1 c2 = .ok (.pair (.circle c) (.line l))) := by
  have up : ∀ {x : ℝ}, IntB (2 ^ 11) x → IntB (2 ^ 20) x := fun h => FI.mono h (by norm_num)
  obtain ⟨hI, hP⟩ := FSwap.middle k (c1 := c1) (c2 := c2) ⟨up h1.1, up h1.2⟩ ⟨up h2.1, up h2.2⟩ (he ▸ up hr)
  have er : fl (c1.radius + c2.radius) = c1.radius + c2.radius := FI.fl (FI.add hr (he ▸ hr)) (by norm_num)
  have fS : fl ((c1.radius + c2.radius) * (c1.radius + c2.radius)) = (c1.radius + c2.radius) * (c1.radius + c2.radius) :=
    FI.fl (FI.mul (FI.add hr (he ▸ hr)) (FI.add hr (he ▸ hr))) (by norm_num)
  obtain ⟨e, iN⟩ := FI.sqd k (P := c1.center) (Q := c2.center) h1 h2 (by norm_num)
  have dot : dot1_ (c1.center - c2.center) = sqDist c1.center c2.center := by
    change (c1.center.x - c2.center.x) * (c1.center.x - c2.center.x) + (c1.center.y - c2.center.y) * (c1.center.y - c2.center.y) = _
    unfold sqDist
    ring
  have dx : fl (c2.center.x - c1.center.x) = c2.center.x - c1.center.x := FI.fl (FI.sub h2.1 h1.1) (by norm_num)
  have dy : fl (c2.center.y - c1.center.y) = c2.center.y - c1.center.y := FI.fl (FI.sub h2.2 h1.2) (by norm_num)
  have hs : subF c2.center c1.center = c2.center - c1.center := by
    unfold subF
    rw [dx, dy]
    rfl
  have ends : ∀ {a b c d : ℝ}, IntB (2 ^ 11) a → IntB (2 ^ 11) b → IntB (2 ^ 11) c → IntB (2 ^ 11) d → fl ((a + b) / 2 + (c - d)) = (a + b) / 2 + (c - d) ∧
      fl ((a + b) / 2 - (c - d)) = (a + b) / 2 - (c - d) := by
    rintro _ _ _ _ ⟨a, rfl, ha⟩ ⟨b, rfl, hb⟩ ⟨c, rfl, hc⟩ ⟨d, rfl, hd⟩
    have ha := abs_le.1 ha
    have hb := abs_le.1 hb
    have hc := abs_le.1 hc
    have hd := abs_le.1 hd
    push_cast at ha hb hc hd
    constructor
    · rw [show ((a : ℝ) + b) / 2 + (c - d) = ((a + b + 2 * (c - d) : ℤ) : ℝ) / 2 by push_cast; ring]
      exact FSwap.half _ (abs_le.2 ⟨by omega, by omega⟩)
    · rw [show ((a : ℝ) + b) / 2 - (c - d) = ((a + b - 2 * (c - d) : ℤ) : ℝ) / 2 by push_cast; ring]
      exact FSwap.half _ (abs_le.2 ⟨by omega, by omega⟩)
  have bI : ∀ {a b c d : ℝ}, IntB (2 ^ 11) a → IntB (2 ^ 11) b → IntB (2 ^ 11) c → IntB (2 ^ 11) d → |(a + b) / 2 - (c - d)| ≤ 2 ^ 13 := by
    intro a b c d ha hb hc hd
    have ha := abs_le.1 (FI.abs_le ha)
    have hb := abs_le.1 (FI.abs_le hb)
    have hc := abs_le.1 (FI.abs_le hc)
    have hd := abs_le.1 (FI.abs_le hd)
    push_cast at ha hb hc hd
    exact abs_le.2 ⟨by norm_num at *; linarith, by norm_num at *; linarith⟩
  set A : Pt := (c1.center + c2.center) / (2 : ℝ) + ⟨c2.center.y - c1.center.y, -(c2.center.x - c1.center.x)⟩ with hA
  set B : Pt := (c1.center + c2.center) / (2 : ℝ) - ⟨c2.center.y - c1.center.y, -(c2.center.x - c1.center.x)⟩ with hBdef
  have xA : A.x = (c1.center.x + c2.center.x) / 2 + (c2.center.y - c1.center.y) := rfl
  have yA : A.y = (c1.center.y + c2.center.y) / 2 + -(c2.center.x - c1.center.x) := rfl
  have xB : B.x = (c1.center.x + c2.center.x) / 2 - (c2.center.y - c1.center.y) := rfl
  have yB : B.y = (c1.center.y + c2.center.y) / 2 - -(c2.center.x - c1.center.x) := rfl
  have ex := ends h1.1 h2.1 h2.2 h1.2
  have ey := ends h1.2 h2.2 h1.1 h2.1
  have bx : |B.x| ≤ 2 ^ 13 := bI h1.1 h2.1 h2.2 h1.2
  have hy' : -(c2.center.x - c1.center.x) = c1.center.x - c2.center.x := by ring
  have by' : |B.y| ≤ 2 ^ 13 := by
    rw [yB, hy']
    exact bI h1.2 h2.2 h1.1 h2.1
  have fA : (⟨fl (((c1.center + c2.center) / (2 : ℝ)).x + (c2.center.y - c1.center.y)), fl (((c1.center + c2.center) / (2 : ℝ)).y + -(c2.center.x - c1.center.x))⟩ : Pt) = A := by
    ext
    · exact ex.1
    · change fl ((c1.center.y + c2.center.y) / 2 + -(c2.center.x - c1.center.x)) = _
      rw [yA, hy']
      exact ey.1
  have fB : subF ((c1.center + c2.center) / (2 : ℝ)) ⟨c2.center.y - c1.center.y, -(c2.center.x - c1.center.x)⟩ = B := by
    ext
    · exact ex.2
    · change fl ((c1.center.y + c2.center.y) / 2 - -(c2.center.x - c1.center.x)) = _
      rw [yB, hy']
      exact ey.2
  have dA : IsDouble A.x ∧ IsDouble A.y := by rw [← fA]; exact ⟨fl_isDouble _, fl_isDouble _⟩
  have dB : IsDouble B.x ∧ IsDouble B.y := by rw [← fB]; exact ⟨fl_isDouble _, fl_isDouble _⟩
  by_cases hc : c1.center = c2.center
  · left
    refine ⟨hc, ?_, ?_⟩
    · unfold mid_circlesF
      dsimp only
      rw [if_pos he, if_pos ((FL.allclose64_int h1 h2).2 hc)]
    · unfold mid_circles
      dsimp only
      rw [if_pos he, if_pos ((FL.allclose_int h1 h2).2 hc)]
  right
  have far : 2 ≤ |A.x - B.x| ∨ 2 ≤ |A.y - B.y| := by
    by_cases h : c2.center.y - c1.center.y = 0
    · right
      have h0 : c1.center.x - c2.center.x ≠ 0 := fun h' => hc (Pt.ext (by linarith) (by linarith))
      rw [yA, yB, hy', show (c1.center.y + c2.center.y) / 2 + (c1.center.x - c2.center.x) - ((c1.center.y + c2.center.y) / 2 - (c1.center.x - c2.center.x)) =
        2 * (c1.center.x - c2.center.x) by ring, abs_mul, abs_two]
      linarith [FI.one_le_abs (FI.sub h1.1 h2.1) h0]
    · left
      rw [xA, xB, show (c1.center.x + c2.center.x) / 2 + (c2.center.y - c1.center.y) - ((c1.center.x + c2.center.x) / 2 - (c2.center.y - c1.center.y)) =
        2 * (c2.center.y - c1.center.y) by ring, abs_mul, abs_two]
      linarith [FI.one_le_abs (FI.sub h2.2 h1.2) h]
  have n64 : ¬ allclose64 A B := by
    rintro ⟨n1, n2⟩
    rcases far with h | h
    · exact FX.not_npClose (bx.trans (by norm_num)) dA.1 dB.1 (by linarith) n1
    · exact FX.not_npClose (by'.trans (by norm_num)) dA.2 dB.2 (by linarith) n2
  have nR : ¬ allclose A B := by
    rintro ⟨n1, n2⟩
    unfold npClose at n1 n2
    rcases far with h | h
    · norm_num at n1 bx
      linarith
    · norm_num at n2 by'
      linarith
  have hr2 : c1.radius + c2.radius = 2 * c1.radius := by rw [← he]; ring
  have e4 : dot1_ ((c1.center + c2.center) / (2 : ℝ) - c2.center) = sqDist c1.center c2.center / 4 := by
    change ((c1.center.x + c2.center.x) / 2 - c2.center.x) * ((c1.center.x + c2.center.x) / 2 - c2.center.x) +
      ((c1.center.y + c2.center.y) / 2 - c2.center.y) * ((c1.center.y + c2.center.y) / 2 - c2.center.y) = _
    unfold sqDist
    ring
  have mF : mkLineF A B true true = .ok ⟨A, B, true, true⟩ := by unfold mkLineF; rw [if_neg n64]
  have mR : mkLine A B = .ok ⟨A, B, true, true⟩ := by unfold mkLine; rw [if_neg nR]
  have hF : mid_circlesF k c1 c2 = (do
      let line ← mkLineF A B true true
      if sqDist c1.center c2.center < (2 * c1.radius) * (2 * c1.radius) then
        let c ← mkCircleF ((c1.center + c2.center) / (2 : ℝ)) (fl (√ |sqDist c1.center c2.center / 4 - c2.radius * c2.radius|))
        return .pair (.circle c) (.line line)
      else return .single (.line line)) := by
    unfold mid_circlesF
    dsimp only
    rw [if_pos he, if_neg (fun h => hc ((FL.allclose64_int h1 h2).1 h)), hI, hs, e, er, fS, hr2, hP, e4]
    have ix : fl (fl (c1.center.x + c2.center.x) / 2) = ((c1.center + c2.center) / (2 : ℝ)).x := congrArg Pt.x hI
    have iy : fl (fl (c1.center.y + c2.center.y) / 2) = ((c1.center + c2.center) / (2 : ℝ)).y := congrArg Pt.y hI
    rw [ix, iy]
    change (mkLineF ⟨fl (((c1.center + c2.center) / (2 : ℝ)).x + (c2.center.y - c1.center.y)), fl (((c1.center + c2.center) / (2 : ℝ)).y + -(c2.center.x - c1.center.x))⟩
      (subF ((c1.center + c2.center) / (2 : ℝ)) ⟨c2.center.y - c1.center.y, -(c2.center.x - c1.center.x)⟩) true true >>= _) = _
    rw [fA, fB]
  have hR : mid_circles c1 c2 = (do
      let line ← mkLine A B
      if sqDist c1.center c2.center < (2 * c1.radius) ^ 2 then
        let c ← mkCircle ((c1.center + c2.center) / (2 : ℝ)) (√ |sqDist c1.center c2.center / 4 - c2.radius * c2.radius|)
        return .pair (.circle c) (.line line)
      else return .single (.line line)) := by
    unfold mid_circles
    dsimp only
    rw [if_pos he, if_neg (fun h => hc ((FL.allclose_int h1 h2).1 h)), dot, hr2, e4]
    rfl
  rw [hF, hR, mF, mR, ← sq]
  by_cases hd : sqDist c1.center c2.center < (2 * c1.radius) ^ 2
  · right
    refine ⟨hc, hd, ⟨A, B, true, true⟩, ⟨(c1.center + c2.center) / (2 : ℝ), √ |sqDist c1.center c2.center / 4 - c2.radius * c2.radius|⟩, ?_, ?_⟩
    all_goals
      have h1' : 1 ≤ |sqDist c1.center c2.center - (c1.radius + c2.radius) * (c1.radius + c2.radius)| :=
        FI.one_le_abs (FI.sub iN (FI.mul (FI.add hr (he ▸ hr)) (FI.add hr (he ▸ hr)))) (by rw [hr2]; nlinarith)
      have hq : 1 / 4 ≤ |sqDist c1.center c2.center / 4 - c2.radius * c2.radius| := by
        rw [← he] at h1' ⊢
        rw [show sqDist c1.center c2.center / 4 - c1.radius * c1.radius = (sqDist c1.center c2.center - (c1.radius + c1.radius) * (c1.radius + c1.radius)) / 4 by ring,
          abs_div, abs_of_pos (show (0 : ℝ) < 4 by norm_num)]
        linarith
      have hh : 1 / 2 ≤ √ |sqDist c1.center c2.center / 4 - c2.radius * c2.radius| := Real.le_sqrt_of_sq_le (by norm_num at *; exact hq)
    · have hf : 0 < fl (√ |sqDist c1.center c2.center / 4 - c2.radius * c2.radius|) := by
        have := fl_mono hh
        have e2 := FSwap.half 1 (by norm_num)
        push_cast at e2
        rw [e2] at this
        linarith
      unfold mkCircleF
      rw [if_neg (not_le.2 hf)]
      change (if _ then _ else _) = _
      rw [if_pos hd]
      rfl
    · unfold mkCircle
      rw [if_neg (not_le.2 (by linarith))]
      change (if _ then _ else _) = _
      rw [if_pos hd]
      rfl
  · left
    refine ⟨hc, not_lt.1 hd, ⟨A, B, true, true⟩, ?_, ?_⟩
    all_goals
      change (if _ then _ else _) = _
      rw [if_neg hd]
      rfl

-- Circles of radius 5 around the origin and `(6, 0)`: the line through `(3, -6)` and `(3, 6)` and the circle of center `(3, 0)` and radius 4.
example (k : Fma) : mid_circlesF k ⟨⟨0, 0⟩, 5⟩ ⟨⟨6, 0⟩, 5⟩ = .ok (.pair (.circle ⟨⟨3, 0⟩, 4⟩) (.line ⟨⟨3, -6⟩, ⟨3, 6⟩, true, true⟩)) := by
  have z : IntB (2 ^ 11) 0 := ⟨0, by norm_num, by norm_num⟩
  rcases C144_equal k ⟨⟨0, 0⟩, 5⟩ ⟨⟨6, 0⟩, 5⟩ ⟨z, z⟩ ⟨⟨6, by norm_num, by norm_num⟩, z⟩ ⟨5, by norm_num, by norm_num⟩ rfl with
    ⟨h, -⟩ | ⟨-, h, -⟩ | ⟨-, -, l, c, h1, h2⟩
  · have := congrArg Pt.x h
    norm_num at this
  · unfold sqDist at h
    norm_num at h
  · have hI : ((⟨0, 0⟩ : Pt) + ⟨6, 0⟩) / (2 : ℝ) = ⟨3, 0⟩ := by
      ext
      · change ((0 : ℝ) + 6) / 2 = 3; norm_num
      · change ((0 : ℝ) + 0) / 2 = 0; norm_num
    have n1 : ¬ allclose (⟨0, 0⟩ : Pt) ⟨6, 0⟩ := by
      rintro ⟨n, -⟩
      unfold npClose at n
      norm_num at n
    have a1 : (⟨3, 0⟩ : Pt) + ⟨((⟨6, 0⟩ : Pt) - ⟨0, 0⟩).y, -((⟨6, 0⟩ : Pt) - ⟨0, 0⟩).x⟩ = ⟨3, -6⟩ := by
      ext
      · change (3 : ℝ) + (0 - 0) = 3; norm_num
      · change (0 : ℝ) + -(6 - 0) = -6; norm_num
    have a2 : (⟨3, 0⟩ : Pt) - ⟨((⟨6, 0⟩ : Pt) - ⟨0, 0⟩).y, -((⟨6, 0⟩ : Pt) - ⟨0, 0⟩).x⟩ = ⟨3, 6⟩ := by
      ext
      · change (3 : ℝ) - (0 - 0) = 3; norm_num
      · change (0 : ℝ) - -(6 - 0) = 6; norm_num
    have n2 : ¬ allclose (⟨3, -6⟩ : Pt) ⟨3, 6⟩ := by
      rintro ⟨-, n⟩
      unfold npClose at n
      norm_num at n
    have d : dot1_ ((⟨0, 0⟩ : Pt) - ⟨6, 0⟩) = 36 := by
      change ((0 : ℝ) - 6) * (0 - 6) + (0 - 0) * (0 - 0) = 36
      norm_num
    have p : √ |dot1_ ((⟨3, 0⟩ : Pt) - ⟨6, 0⟩) - 5 * 5| = 4 := by
      rw [show dot1_ ((⟨3, 0⟩ : Pt) - ⟨6, 0⟩) = (3 - 6) * (3 - 6) + (0 - 0) * (0 - 0) from rfl]
      rw [show |((3 : ℝ) - 6) * (3 - 6) + (0 - 0) * (0 - 0) - 5 * 5| = 4 ^ 2 by norm_num, Real.sqrt_sq (by norm_num)]
    have e : mid_circles ⟨⟨0, 0⟩, 5⟩ ⟨⟨6, 0⟩, 5⟩ = .ok (.pair (.circle ⟨⟨3, 0⟩, 4⟩) (.line ⟨⟨3, -6⟩, ⟨3, 6⟩, true, true⟩)) := by
      unfold mid_circles
      dsimp only
      rw [if_pos rfl, if_neg n1, hI, a1, a2, d, p]
      unfold mkLine mkCircle
      rw [if_neg n2, if_neg (by norm_num)]
      change (if _ then _ else _) = _
      rw [if_pos (by norm_num)]
      rfl
    rw [e] at h2
    injection h2 with h2
    injection h2 with h2 h3
    injection h2 with h2
    injection h3 with h3
    subst h2 h3
    have f4 : fl 4 = 4 := FI.fl (⟨4, by norm_num, by norm_num⟩ : IntB 4 4) (by norm_num)
    rw [h1]
    change Except.ok (MidRes.pair (.circle ⟨⟨3, 0⟩, fl 4⟩) _) = _
    rw [f4]
