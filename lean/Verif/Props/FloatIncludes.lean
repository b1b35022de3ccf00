import Verif.Props.FloatFlat

/-!
# C91: `Circle.point_from_angle` and `Circle.includes` in double precision
-/

open Spec Real Classical FG

namespace FG

/-- One coordinate of the point given by an angle. -/
theorem coord_err {o r c k : ℝ} (hr : 0 ≤ r) (hk1 : |k| ≤ 1) (hc : |c - k| ≤ 1 / 2 ^ 52) (ho : |o| ≤ 2 ^ 20 * r)
    (hO : IsDouble o) : |fl (o + fl (r * c)) - (o + r * k)| ≤ r * (33 / 32 / 2 ^ 33) + 2 * tiny := by
  have ht := tiny_pos
  have e1 := fl_err' (r * c)
  have e2 := fl_add_err hO (fl_isDouble (r * c))
  have hrc : |r * c - r * k| ≤ r * (1 / 2 ^ 52) := by
    rw [← mul_sub, abs_mul, abs_of_nonneg hr]; gcongr
  have hrk : |r * k| ≤ r := by
    rw [abs_mul, abs_of_nonneg hr]; nlinarith
  have h1 : |r * c| ≤ |r * c - r * k| + |r * k| := by
    have := abs_sub_abs_le_abs_sub (r * c) (r * k); linarith
  have h2 : |o + fl (r * c)| ≤ |o| + |fl (r * c) - r * c| + |r * c| := by
    have : o + fl (r * c) = o + (fl (r * c) - r * c) + r * c := by ring
    rw [this]
    exact (abs_add_le _ _).trans (by gcongr; exact abs_add_le _ _)
  have h3 : |fl (o + fl (r * c)) - (o + r * k)| ≤ |fl (o + fl (r * c)) - (o + fl (r * c))| + |fl (r * c) - r * c| + |r * c - r * k| := by
    have : fl (o + fl (r * c)) - (o + r * k) = (fl (o + fl (r * c)) - (o + fl (r * c))) + (fl (r * c) - r * c) + (r * c - r * k) := by ring
    rw [this]
    exact (abs_add_le _ _).trans (by gcongr; exact abs_add_le _ _)
  generalize |r * c| = m at *
  norm_num at e1 e2 hrc ho ⊢
  linarith

end FG

/-- C91: a point obtained from an angle passes the test of inclusion in double precision when the centre is at most 2^20 radii away
from the origin in each coordinate; the computed cosine and sine are within 2^-52 of the exact ones. -/
theorem C91_includes (k : Fma) (c : Circle) (α cosa sina : ℝ) (hO : DoublePt c.center) (hr : 0 < c.radius)
    (hc : |cosa - Real.cos α| ≤ 1 / 2 ^ 52) (hs : |sina - Real.sin α| ≤ 1 / 2 ^ 52)
    (hx : |c.center.x| ≤ 2 ^ 20 * c.radius) (hy : |c.center.y| ≤ 2 ^ 20 * c.radius) :
    c.includesF k (c.point_from_angleF cosa sina) := by
  obtain ⟨P, hP⟩ : ∃ P, P = c.point_from_angleF cosa sina := ⟨_, rfl⟩
  have dP : DoublePt P := by rw [hP]; exact ⟨fl_isDouble _, fl_isDouble _⟩
  have ex := coord_err hr.le (Real.abs_cos_le_one α) hc hx hO.1
  have ey := coord_err hr.le (Real.abs_sin_le_one α) hs hy hO.2
  have px : P.x = fl (c.center.x + fl (c.radius * cosa)) := by rw [hP]; rfl
  have py : P.y = fl (c.center.y + fl (c.radius * sina)) := by rw [hP]; rfl
  rw [← px] at ex
  rw [← py] at ey
  rw [← hP]
  obtain ⟨e, he⟩ : ∃ e, e = P.x - (c.center.x + c.radius * Real.cos α) := ⟨_, rfl⟩
  obtain ⟨f, hf⟩ : ∃ f, f = P.y - (c.center.y + c.radius * Real.sin α) := ⟨_, rfl⟩
  rw [← he] at ex
  rw [← hf] at ey
  have hS : sqDist c.center P - c.radius ^ 2 = 2 * c.radius * (e * Real.cos α + f * Real.sin α) + (e ^ 2 + f ^ 2) := by
    have h1 : P.x = c.center.x + c.radius * Real.cos α + e := by rw [he]; ring
    have h2 : P.y = c.center.y + c.radius * Real.sin α + f := by rw [hf]; ring
    unfold sqDist
    rw [h1, h2]
    have := Real.sin_sq_add_cos_sq α
    linear_combination c.radius ^ 2 * this
  have ed := sqDist_err k dP hO
  have eb := sq_err c.radius
  unfold Circle.includesF approx_equalF
  have dA : IsDouble (vdotF k (subF P c.center) (subF P c.center)) := by
    unfold vdotF; cases k <;> exact fl_isDouble _
  have dB := fl_isDouble (c.radius * c.radius)
  have pA : 0 ≤ vdotF k (subF P c.center) (subF P c.center) := by
    have := fun x : ℝ => fl_nonneg (mul_self_nonneg x)
    unfold vdotF
    cases k
    · exact fl_nonneg (add_nonneg (this _) (this _))
    · exact fl_nonneg (add_nonneg (mul_self_nonneg _) (this _))
    · exact fl_nonneg (add_nonneg (this _) (mul_self_nonneg _))
  have pB : 0 ≤ fl (c.radius * c.radius) := fl_nonneg (mul_self_nonneg _)
  have ht := tiny_pos
  generalize vdotF k (subF P c.center) (subF P c.center) = a at *
  generalize fl (c.radius * c.radius) = b at *
  generalize c.radius = r at *
  have hcs : |e * Real.cos α + f * Real.sin α| ≤ |e| + |f| := by
    refine (abs_add_le _ _).trans ?_
    rw [abs_mul, abs_mul]
    have := Real.abs_cos_le_one α
    have := Real.abs_sin_le_one α
    have := abs_nonneg e
    have := abs_nonneg f
    nlinarith
  generalize sqDist c.center P = S at *
  generalize e * Real.cos α + f * Real.sin α = g at *
  have hg := abs_le.1 hcs
  have eb := abs_le.1 eb
  rcases le_or_gt ((2 : ℝ) ^ (-400 : ℤ)) r with hbig | hsmall
  · left
    have t1 : tiny ≤ r / 2 ^ 100 := by
      have := tiny_le_pow 500 (by norm_num)
      rw [le_div_iff₀ (by positivity)]
      refine le_trans ?_ hbig
      calc tiny * 2 ^ 100 ≤ 2 ^ (-((500 : ℕ) : ℤ)) * 2 ^ (100 : ℤ) := by
            rw [show (2 : ℝ) ^ (100 : ℤ) = 2 ^ 100 by norm_cast]; gcongr
        _ = 2 ^ (-400 : ℤ) := by rw [← zpow_add₀ (by norm_num)]; norm_num
    have t2 : tiny ≤ r ^ 2 / 2 ^ 100 := by
      have := tiny_le_pow 900 (by norm_num)
      rw [le_div_iff₀ (by positivity)]
      have hb2 : (2 : ℝ) ^ (-800 : ℤ) ≤ r ^ 2 := by
        have h := mul_le_mul hbig hbig (two_zpow_pos _).le hr.le
        rwa [← zpow_add₀ (by norm_num), ← sq, show (-400 : ℤ) + -400 = -800 by norm_num] at h
      refine le_trans ?_ hb2
      calc tiny * 2 ^ 100 ≤ 2 ^ (-((900 : ℕ) : ℤ)) * 2 ^ (100 : ℤ) := by
            rw [show (2 : ℝ) ^ (100 : ℤ) = 2 ^ 100 by norm_cast]; gcongr
        _ = 2 ^ (-800 : ℤ) := by rw [← zpow_add₀ (by norm_num)]; norm_num
    have ex' : |e| ≤ r * (17 / 16 / 2 ^ 33) := by norm_num at *; linarith
    have ey' : |f| ≤ r * (17 / 16 / 2 ^ 33) := by norm_num at *; linarith
    have e2 : e ^ 2 ≤ (r * (17 / 16 / 2 ^ 33)) ^ 2 := by rw [← sq_abs]; gcongr
    have f2 : f ^ 2 ≤ (r * (17 / 16 / 2 ^ 33)) ^ 2 := by rw [← sq_abs]; gcongr
    rw [mul_pow] at e2 f2
    have g2 : |2 * r * g| ≤ r ^ 2 * (17 / 16 / 2 ^ 31) := by
      rw [abs_mul, abs_of_pos (show 0 < 2 * r by linarith)]
      have : |g| ≤ r * (17 / 8 / 2 ^ 33) := by
        refine hcs.trans ?_
        norm_num at *; linarith
      calc 2 * r * |g| ≤ 2 * r * (r * (17 / 8 / 2 ^ 33)) := by gcongr
        _ = _ := by ring
    have g2 := abs_le.1 g2
    have e0 := sq_nonneg e
    have f0 := sq_nonneg f
    have hr2 : 0 < r ^ 2 := by positivity
    have S1 : S - r ^ 2 ≤ r ^ 2 * (9 / 8 / 2 ^ 31) := by norm_num at *; linarith
    have S2 : -(r ^ 2 * (9 / 8 / 2 ^ 31)) ≤ S - r ^ 2 := by norm_num at *; linarith
    have A1 : a - r ^ 2 ≤ r ^ 2 * (5 / 4 / 2 ^ 31) := by norm_num at *; linarith
    have A2 : -(r ^ 2 * (5 / 4 / 2 ^ 31)) ≤ a - r ^ 2 := by norm_num at *; linarith
    have D : |b - a| ≤ r ^ 2 * (11 / 8 / 2 ^ 31) := by
      rw [abs_le]; constructor <;> (norm_num at *; linarith)
    unfold iscloseF
    right; left
    have d1 := fl_sub_err dB dA
    have d2 : |fl (b - a)| ≤ |fl (b - a) - (b - a)| + |b - a| := by
      have := abs_sub_abs_le_abs_sub (fl (b - a)) (b - a); linarith
    have q1 := (abs_le.1 (fl_err' (1 / 10 ^ 9))).1
    rw [abs_of_nonneg (show (0 : ℝ) ≤ 1 / 10 ^ 9 by norm_num)] at q1
    have htt : tiny ≤ 1 / 2 ^ 60 := by
      have := tiny_le_pow 60 (by norm_num)
      norm_num at this ⊢
      exact this
    have q : 15 / 16 / 2 ^ 30 ≤ fl (1 / 10 ^ 9) := by
      generalize fl (1 / 10 ^ 9) = w at *
      norm_num at *; linarith
    have hb0 : r ^ 2 * (1 - 1 / 2 ^ 52) ≤ b := by norm_num at *; linarith
    have hbp : 0 < b := by norm_num at *; linarith
    have w0 : 0 ≤ fl (1 / 10 ^ 9) * b := mul_nonneg (by linarith) hbp.le
    have q2 := (abs_le.1 (fl_err' (fl (1 / 10 ^ 9) * b))).1
    rw [abs_of_nonneg w0] at q2
    have q3 : 15 / 16 / 2 ^ 30 * (r ^ 2 * (1 - 1 / 2 ^ 52)) ≤ fl (1 / 10 ^ 9) * b := by
      have : 0 ≤ r ^ 2 * (1 - 1 / 2 ^ 52 : ℝ) := by norm_num; positivity
      gcongr
    have q4 := le_abs_self (fl (fl (1 / 10 ^ 9) * b))
    generalize fl (fl (1 / 10 ^ 9) * b) = w' at *
    generalize fl (1 / 10 ^ 9) * b = w at *
    norm_num at *
    linarith
  · right
    have hsm : (2 : ℝ) ^ (-400 : ℤ) ≤ 1 / 2 ^ 60 := by
      have : (2 : ℝ) ^ (-400 : ℤ) ≤ 2 ^ (-60 : ℤ) := zpow_le_zpow_right₀ (by norm_num) (by norm_num)
      norm_num at this ⊢
      exact this
    have hr1 : r ≤ 1 / 2 ^ 60 := hsmall.le.trans hsm
    have htt : tiny ≤ 1 / 2 ^ 62 := by
      have := tiny_le_pow 62 (by norm_num)
      norm_num at this ⊢
      exact this
    have ex' : |e| ≤ 1 / 2 ^ 60 := by norm_num at *; linarith
    have ey' : |f| ≤ 1 / 2 ^ 60 := by norm_num at *; linarith
    have e2 : e ^ 2 ≤ (1 / 2 ^ 60) ^ 2 := by rw [← sq_abs]; gcongr
    have f2 : f ^ 2 ≤ (1 / 2 ^ 60) ^ 2 := by rw [← sq_abs]; gcongr
    have r2 : r ^ 2 ≤ (1 / 2 ^ 60) ^ 2 := by gcongr
    have rg : r * g ≤ 1 / 2 ^ 60 * (2 / 2 ^ 60) := by
      have : g ≤ 2 / 2 ^ 60 := by norm_num at *; linarith
      have h0 : r * g ≤ r * (2 / 2 ^ 60) := by gcongr
      refine h0.trans ?_
      gcongr
    have hS' : S ≤ 1 / 2 ^ 100 := by norm_num at *; linarith
    have ha : a ≤ 1 / 2 ^ 54 := by norm_num at *; linarith
    have hb : b ≤ 1 / 2 ^ 54 := by norm_num at *; linarith
    have one : ∀ y : ℝ, 0 ≤ y → y ≤ 1 / 2 ^ 54 → fl (y + 1) = 1 := fun y h0 h1 => by
      rw [add_comm]; exact fl_absorb isDouble_one one_pos h0 h1
    rw [one a pA ha, one b pB hb]
    exact Or.inl rfl

/-- C91: the point given by an angle is the exact one up to 2^-32 radii in each coordinate. -/
theorem C91_point (c : Circle) (α cosa sina : ℝ) (hO : DoublePt c.center) (hr : 0 < c.radius)
    (hc : |cosa - Real.cos α| ≤ 1 / 2 ^ 52) (hs : |sina - Real.sin α| ≤ 1 / 2 ^ 52)
    (hx : |c.center.x| ≤ 2 ^ 20 * c.radius) (hy : |c.center.y| ≤ 2 ^ 20 * c.radius) :
    |(c.point_from_angleF cosa sina).x - (c.center.x + c.radius * Real.cos α)| ≤ c.radius / 2 ^ 32 + 2 ^ (-1074 : ℤ) ∧
    |(c.point_from_angleF cosa sina).y - (c.center.y + c.radius * Real.sin α)| ≤ c.radius / 2 ^ 32 + 2 ^ (-1074 : ℤ) := by
  have ex := coord_err hr.le (Real.abs_cos_le_one α) hc hx hO.1
  have ey := coord_err hr.le (Real.abs_sin_le_one α) hs hy hO.2
  have et : (2 : ℝ) ^ (-1074 : ℤ) = 2 * tiny := by
    unfold tiny
    rw [show (-1074 : ℤ) = 1 + -1075 by norm_num, zpow_add₀ (by norm_num)]
    norm_num
  rw [et]
  have hw : c.radius * (33 / 32 / 2 ^ 33) ≤ c.radius / 2 ^ 32 := by
    norm_num; linarith
  exact ⟨ex.trans (by linarith), ey.trans (by linarith)⟩

/-- C91 is false without the bound on the centre: a point of a circle which fails the test of inclusion. -/
theorem C91_includes_counterexample (k : Fma) :
    ¬ (⟨⟨2 ^ (60 : ℤ), 0⟩, 1⟩ : Circle).includesF k ((⟨⟨2 ^ (60 : ℤ), 0⟩, 1⟩ : Circle).point_from_angleF (Real.cos 0) (Real.sin 0)) := by
  have d60 : IsDouble ((2 : ℝ) ^ (60 : ℤ)) := isDouble_pow _ (by norm_num)
  have h1 : fl 1 = 1 := fl_double isDouble_one
  have h2 : fl ((2 : ℝ) ^ (60 : ℤ) + 1) = 2 ^ (60 : ℤ) := fl_absorb d60 (by norm_num) (by norm_num) (by norm_num)
  have hP : (⟨⟨2 ^ (60 : ℤ), 0⟩, 1⟩ : Circle).point_from_angleF (Real.cos 0) (Real.sin 0) = ⟨2 ^ (60 : ℤ), 0⟩ := by
    unfold Circle.point_from_angleF
    dsimp only
    rw [Real.cos_zero, Real.sin_zero, mul_one, mul_zero, h1, h2, fl_zero, add_zero, fl_zero]
  have hv : vdotF k (subF ⟨2 ^ (60 : ℤ), 0⟩ ⟨2 ^ (60 : ℤ), 0⟩) (subF ⟨2 ^ (60 : ℤ), 0⟩ ⟨2 ^ (60 : ℤ), 0⟩) = 0 := by
    unfold vdotF subF
    cases k <;> simp [fl_zero]
  have f2 : fl 2 = 2 := fl_double (by simpa using isDouble_int (n := 2) (by norm_num))
  have hs : ∀ m : ℝ, 0 ≤ m → m ≤ 2 → |fl (fl (1 / 10 ^ 9) * m)| < 1 := by
    intro m hm0 hm
    have q : fl (1 / 10 ^ 9) ≤ 1 / 4 := by
      have := fl_mono (show (1 : ℝ) / 10 ^ 9 ≤ 2 ^ (-2 : ℤ) by norm_num)
      rw [fl_double (isDouble_pow (-2) (by norm_num))] at this
      norm_num at this ⊢
      exact this
    have q0 : 0 ≤ fl (1 / 10 ^ 9) := fl_nonneg (by norm_num)
    rw [abs_of_nonneg (fl_nonneg (mul_nonneg q0 hm0))]
    have := fl_mono (show fl (1 / 10 ^ 9) * m ≤ 2 ^ (-1 : ℤ) by norm_num; nlinarith)
    rw [fl_double (isDouble_pow (-1) (by norm_num))] at this
    norm_num at this ⊢
    linarith
  rw [hP]
  unfold Circle.includesF approx_equalF iscloseF
  dsimp only
  rw [hv, mul_one, h1, zero_add, h1, show (1 : ℝ) + 1 = 2 by norm_num, f2, show (1 : ℝ) - 0 = 1 by norm_num,
    show (2 : ℝ) - 1 = 1 by norm_num, h1, abs_one]
  have a0 := hs 0 le_rfl (by norm_num)
  have a1 := hs 1 (by norm_num) (by norm_num)
  have a2 := hs 2 (by norm_num) le_rfl
  rintro ((h | h | h) | (h | h | h)) <;> linarith

/-- A circle and an angle. -/
example : |(1 : ℝ) - Real.cos 0| ≤ 1 / 2 ^ 52 ∧ |(0 : ℝ) - Real.sin 0| ≤ 1 / 2 ^ 52 ∧ |(3 : ℝ)| ≤ 2 ^ 20 * 2 := by
  norm_num

/-- The point of angle 0 of the circle of radius 2 about `(3, 0)` is reported to be on the circle, and is close to `(5, 0)`. -/
example (k : Fma) : (⟨⟨3, 0⟩, 2⟩ : Circle).includesF k ((⟨⟨3, 0⟩, 2⟩ : Circle).point_from_angleF 1 0) ∧
    |((⟨⟨3, 0⟩, 2⟩ : Circle).point_from_angleF 1 0).x - 5| ≤ 1 / 10 ^ 9 := by
  have h3 : DoublePt ⟨3, 0⟩ := by simpa using Ex.dbl 3 0 (by norm_num) (by norm_num)
  have hz : (2 : ℝ) ^ (-1074 : ℤ) ≤ 2 ^ (-60 : ℤ) := zpow_le_zpow_right₀ (by norm_num) (by norm_num)
  refine ⟨C91_includes k ⟨⟨3, 0⟩, 2⟩ 0 1 0 h3 (by norm_num) (by norm_num) (by norm_num) (by norm_num [abs_of_pos]) (by norm_num), ?_⟩
  have := (C91_point ⟨⟨3, 0⟩, 2⟩ 0 1 0 h3 (by norm_num) (by norm_num) (by norm_num) (by norm_num [abs_of_pos]) (by norm_num)).1
  norm_num at this hz ⊢
  linarith
