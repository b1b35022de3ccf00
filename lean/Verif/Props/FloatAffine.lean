import Verif.Model.FloatAffine
import Verif.Props.FloatCircumcircle

/-!
# C131: `Affine.inverse` in double precision
-/

open Spec Real Classical FG FT

namespace FAff

/-- A division, with any quotient. -/
theorem quo_any (k : Lu) {x p : ℝ} (hp : p ≠ 0) (hp' : |p| ≤ 2 ^ 59) :
    |quoF k x p - x / p| ≤ 4 / 2 ^ 53 * |x / p| + 1 / 2 ^ 190 := by
  have ht := FI.tiny_small
  have hp0 : 0 < |p| := abs_pos.2 hp
  unfold quoF
  split
  · have h1 : |fl (1 / p) - 1 / p| ≤ 101 / 100 / 2 ^ 53 * |1 / p| := FM.fl_rel (Or.inr (by
      rw [abs_div, abs_one]
      apply one_div_le_one_div_of_le hp0
      exact hp'.trans (by norm_num)))
    have h2 : |x * fl (1 / p) - x / p| ≤ 101 / 100 / 2 ^ 53 * |x / p| := by
      have e : x * fl (1 / p) - x / p = x * (fl (1 / p) - 1 / p) := by ring
      have e2 : |x| * |1 / p| = |x / p| := by rw [← abs_mul]; congr 1; ring
      rw [e, abs_mul]
      have := mul_le_mul_of_nonneg_left h1 (abs_nonneg x)
      have e3 : |x| * (101 / 100 / 2 ^ 53 * |1 / p|) = 101 / 100 / 2 ^ 53 * |x / p| := by rw [← e2]; ring
      rwa [e3] at this
    have h3 := fl_err' (x * fl (1 / p))
    generalize x * fl (1 / p) = y at *
    generalize x / p = q at *
    have h4 : |y| ≤ |q| + |y - q| := by
      have := abs_add_le q (y - q)
      rwa [add_sub_cancel] at this
    generalize fl y = z at *
    have h5 := abs_sub_le z y q
    have h6 := abs_nonneg q
    generalize |y - q| = d at *
    norm_num at *
    linarith [abs_nonneg q]
  · have h3 := fl_err' (x / p)
    have h6 := abs_nonneg (x / p)
    norm_num at *
    linarith [abs_nonneg (x / p)]

/-- One step, with any data. -/
theorem msub_any (k : Lu) (x l u : ℝ) : |msubF k x l u - (x - l * u)| ≤ 3 / 2 ^ 53 * (|x| + |l * u|) + 1 / 2 ^ 190 := by
  have ht := FI.tiny_small
  have hx := abs_nonneg x
  have hy := abs_nonneg (l * u)
  unfold msubF
  split
  · have h3 := fl_err' (x - l * u)
    have := abs_sub x (l * u)
    generalize l * u = y at *
    norm_num at *
    linarith [abs_nonneg x, abs_nonneg y]
  · have h1 := fl_err' (l * u)
    generalize l * u = y at *
    generalize fl y = w at *
    have h3 := fl_err' (x - w)
    generalize fl (x - w) = z at *
    have h4 := abs_sub x w
    have h5 : |w| ≤ |y| + |w - y| := by
      have := abs_add_le y (w - y)
      rwa [add_sub_cancel] at this
    have h6 : |z - (x - y)| ≤ |z - (x - w)| + |w - y| := by
      have e : z - (x - y) = (z - (x - w)) - (w - y) := by ring
      rw [e]; exact abs_sub _ _
    norm_num at *
    linarith [abs_nonneg x, abs_nonneg y]

/-- The last step, with any data. -/
theorem last_any (k : Lu) (x l u l' u' : ℝ) :
    |lastF k x l u l' u' - (x - l * u - l' * u')| ≤ 8 / 2 ^ 53 * (|x| + |l * u| + |l' * u'|) + 1 / 2 ^ 180 := by
  have ht := FI.tiny_small
  have hx := abs_nonneg x
  unfold lastF
  split
  · have h1 := vdot_err k.dot ⟨l, l'⟩ ⟨u, u'⟩
    dsimp only at h1
    have hy := abs_nonneg (l * u)
    have hy' := abs_nonneg (l' * u')
    generalize l * u = y at *
    generalize l' * u' = y' at *
    generalize vdotF k.dot ⟨l, l'⟩ ⟨u, u'⟩ = w at *
    have h2 := fl_err' (x - w)
    generalize fl (x - w) = z at *
    have h4 := abs_sub x w
    have h5 : |w| ≤ |y| + |y'| + |w - (y + y')| := by
      have := abs_add_le (y + y') (w - (y + y'))
      rw [add_sub_cancel] at this
      have := abs_add_le y y'
      linarith
    have h6 : |z - (x - y - y')| ≤ |z - (x - w)| + |w - (y + y')| := by
      have e : z - (x - y - y') = (z - (x - w)) - (w - (y + y')) := by ring
      rw [e]; exact abs_sub _ _
    norm_num at *
    linarith [abs_nonneg x, abs_nonneg y, abs_nonneg y']
  · have h1 := msub_any k x l u
    generalize msubF k x l u = w at *
    have h2 := msub_any k w l' u'
    generalize msubF k w l' u' = z at *
    have hy := abs_nonneg (l * u)
    have hy' := abs_nonneg (l' * u')
    generalize l * u = y at *
    generalize l' * u' = y' at *
    have h5 : |w| ≤ |x| + |y| + |w - (x - y)| := by
      have := abs_add_le (x - y) (w - (x - y))
      rw [add_sub_cancel] at this
      have := abs_sub x y
      linarith
    have h6 : |z - (x - y - y')| ≤ |z - (w - y')| + |w - (x - y)| := by
      have e : z - (x - y - y') = (z - (w - y')) + (w - (x - y)) := by ring
      rw [e]; exact abs_add_le _ _
    norm_num at *
    linarith [abs_nonneg x, abs_nonneg y, abs_nonneg y']

/-- The error of the second unknown. -/
theorem second_err {B E m U u G g x2 : ℝ} (hB : 1 ≤ B) (hE : 1 ≤ E) (hU : U ≠ 0) (hm : m = 1 / |U|) (hBm : 1 ≤ 2 * (B * m)) (hm41 : 1 / 2 ^ 41 ≤ m)
    (hsmall : 7 / 2 ^ 53 * (B * m) ≤ 1 / 1000) (hu : |u - U| ≤ 7 / 2 ^ 53 * B) (hG : |G| ≤ 2 * E) (hg : |g - G| ≤ 7 / 2 ^ 53 * E)
    (hx : |x2 - g / u| ≤ 4 / 2 ^ 53 * |g / u| + 1 / 2 ^ 190) :
    u ≠ 0 ∧ |x2 - G / U| ≤ 50 / 2 ^ 53 * (E * (B * m) * m) := by
  have hU0 : 0 < |U| := abs_pos.2 hU
  have hm0 : 0 < m := by rw [hm]; positivity
  have hmU : m * |U| = 1 := by rw [hm]; field_simp
  have h1 : 999 / 1000 * |U| ≤ |u| := by
    have h2 := abs_sub_abs_le_abs_sub U u
    rw [abs_sub_comm] at h2
    have h3 : 7 / 2 ^ 53 * B ≤ 1 / 1000 * |U| := by
      have := mul_le_mul_of_nonneg_right hsmall hU0.le
      have e : 7 / 2 ^ 53 * (B * m) * |U| = 7 / 2 ^ 53 * B * (m * |U|) := by ring
      rw [e, hmU, mul_one] at this
      exact this
    linarith
  have hu0 : u ≠ 0 := by
    rintro rfl
    rw [abs_zero] at h1
    linarith
  refine ⟨hu0, ?_⟩
  have hup : 0 < |u| := abs_pos.2 hu0
  have h2 : 1 / |u| ≤ 1002 / 1000 * m := by
    rw [div_le_iff₀ hup]
    have := mul_le_mul_of_nonneg_left h1 hm0.le
    have e : m * (999 / 1000 * |U|) = 999 / 1000 * (m * |U|) := by ring
    rw [e, hmU] at this
    linarith
  -- the quotient
  have h3 : |g / u - G / U| ≤ 7 / 2 ^ 53 * E * (1002 / 1000 * m) + 2 * E * (7 / 2 ^ 53 * B) * (1002 / 1000 * m) * m := by
    have e : g / u - G / U = (g - G) * (1 / u) + G * (U - u) * (1 / u) * (1 / U) := by field_simp; ring
    rw [e]
    refine (abs_add_le _ _).trans (add_le_add ?_ ?_)
    · rw [abs_mul, abs_div, abs_one]
      exact mul_le_mul hg h2 (by positivity) (by positivity)
    · rw [abs_mul, abs_mul, abs_mul, abs_div 1 u, abs_div 1 U, abs_one, ← hm, abs_sub_comm U u]
      gcongr
  have hEm : 0 < E * m := by positivity
  have h4 : E * m ≤ 2 * (E * (B * m) * m) := by
    have := mul_le_mul_of_nonneg_right hBm hEm.le
    calc E * m = 1 * (E * m) := by ring
      _ ≤ _ := this
      _ = _ := by ring
  have h5 : |G / U| ≤ 2 * (E * m) := by
    rw [abs_div, div_eq_mul_one_div, ← hm]
    have := mul_le_mul_of_nonneg_right hG hm0.le
    linarith
  have h6 : E * (B * m) * m ≤ 1000 * (E * m) / 7 * 2 ^ 53 / 10 ^ 6 := by
    have := mul_le_mul_of_nonneg_right hsmall hEm.le
    norm_num at this ⊢
    nlinarith
  have h7 : |g / u| ≤ |G / U| + |g / u - G / U| := by
    have := abs_add_le (G / U) (g / u - G / U)
    rwa [add_sub_cancel] at this
  have h8 := abs_sub_le x2 (g / u) (G / U)
  have h9 : 1 / 2 ^ 41 ≤ E * m := by
    have := mul_le_mul hE hm41 (by positivity) (by linarith)
    linarith
  have e1 : 7 / 2 ^ 53 * E * (1002 / 1000 * m) + 2 * E * (7 / 2 ^ 53 * B) * (1002 / 1000 * m) * m
      = 7014 / 1000 / 2 ^ 53 * (E * m) + 14028 / 1000 / 2 ^ 53 * (E * (B * m) * m) := by ring
  rw [e1] at h3
  generalize |x2 - g / u| = a1 at *
  generalize |g / u - G / U| = a2 at *
  generalize |G / U| = a3 at *
  generalize |g / u| = a4 at *
  generalize |x2 - G / U| = a5 at *
  generalize E * (B * m) * m = w at *
  generalize E * m = z at *
  clear hu hG hg hsmall hmU h1 h2
  norm_num at *
  linarith

/-- The error of the first unknown. -/
theorem first_err {B E m p q Y V x2 t x1 : ℝ} (hB : 1 ≤ B) (hE : 1 ≤ E) (hp : 1 ≤ |p|) (hp' : |p| ≤ 2 ^ 59) (hm0 : 0 < m) (hBm : 1 ≤ 2 * (B * m)) (hm41 : 1 / 2 ^ 41 ≤ m)
    (hsmall : 7 / 2 ^ 53 * (B * m) ≤ 1 / 1000) (hq : |q| ≤ B) (hY : |Y| ≤ E) (hV : |V| ≤ 2 * (E * m))
    (h2 : |x2 - V| ≤ 50 / 2 ^ 53 * (E * (B * m) * m))
    (ht : |t - (Y - q * x2)| ≤ 8 / 2 ^ 53 * (|Y| + |q * x2|) + 1 / 2 ^ 180)
    (hx : |x1 - t / p| ≤ 4 / 2 ^ 53 * |t / p| + 1 / 2 ^ 190) :
    |x1 - (Y - q * V) / p| ≤ 150 / 2 ^ 53 * (E * (B * m) * (B * m)) / |p| := by
  have hp0 : 0 < |p| := by linarith
  have hz0 : 0 < B * m := by positivity
  obtain ⟨z, hz⟩ : ∃ z, z = B * m := ⟨_, rfl⟩
  rw [← hz] at hBm hsmall h2 hz0 ⊢
  have hEz : 0 < E * z := by positivity
  -- the product
  have a1 : |q * V| ≤ 2 * (E * z) := by
    rw [abs_mul]
    have := mul_le_mul hq hV (abs_nonneg _) (by linarith)
    calc _ ≤ _ := this
      _ = _ := by rw [hz]; ring
  have a2 : |q * x2 - q * V| ≤ 50 / 2 ^ 53 * (E * z * z) := by
    rw [← mul_sub, abs_mul]
    have := mul_le_mul hq h2 (abs_nonneg _) (by linarith)
    calc _ ≤ _ := this
      _ = _ := by rw [hz]; ring
  have a3 : E * z * z ≤ E * z * (2 ^ 53 / 7000) := by
    apply mul_le_mul_of_nonneg_left _ hEz.le
    norm_num at hsmall ⊢
    linarith
  have a4 : E ≤ 2 * (E * z) := by nlinarith
  have a5 : E * z ≤ 2 * (E * z * z) := by nlinarith
  have a6 : 1 / 2 ≤ E * z := by nlinarith
  have a7 : |q * x2| ≤ |q * V| + |q * x2 - q * V| := by
    have := abs_add_le (q * V) (q * x2 - q * V)
    rwa [add_sub_cancel] at this
  have a8 : |t - (Y - q * V)| ≤ |t - (Y - q * x2)| + |q * x2 - q * V| := by
    have e : t - (Y - q * V) = (t - (Y - q * x2)) - (q * x2 - q * V) := by ring
    rw [e]; exact abs_sub _ _
  have a9 : |t| ≤ |Y| + |q * V| + |t - (Y - q * V)| := by
    have h1 := abs_add_le (Y - q * V) (t - (Y - q * V))
    rw [add_sub_cancel] at h1
    have h2 := abs_sub Y (q * V)
    linarith
  have b1 : |t - (Y - q * V)| ≤ 116 / 2 ^ 53 * (E * z * z) := by
    generalize |t - (Y - q * V)| = c1 at *
    generalize |t - (Y - q * x2)| = c2 at *
    generalize |q * x2 - q * V| = c3 at *
    generalize |q * x2| = c4 at *
    generalize |q * V| = c5 at *
    generalize |Y| = c6 at *
    generalize E * z * z = w at *
    generalize E * z = w' at *
    clear hsmall h2 hx hV hm41 hp' hz
    norm_num at *
    linarith
  have b2 : |t| ≤ 402 / 100 * (E * z) := by
    generalize |t - (Y - q * V)| = c1 at *
    generalize |q * V| = c5 at *
    generalize |Y| = c6 at *
    generalize E * z * z = w at *
    generalize E * z = w' at *
    clear hsmall h2 hx hV hm41 hp' hz ht a8 a7 a2
    norm_num at *
    linarith
  rw [le_div_iff₀ hp0]
  have b3 : |x1 - (Y - q * V) / p| ≤ |x1 - t / p| + |t - (Y - q * V)| / |p| := by
    have e : x1 - (Y - q * V) / p = (x1 - t / p) + (t - (Y - q * V)) / p := by ring
    rw [e, ← abs_div]; exact abs_add_le _ _
  have b4 := mul_le_mul_of_nonneg_right (b3.trans (add_le_add_left hx _)) hp0.le
  have e1 : (4 / 2 ^ 53 * |t / p| + 1 / 2 ^ 190 + |t - (Y - q * V)| / |p|) * |p| = 4 / 2 ^ 53 * |t| + 1 / 2 ^ 190 * |p| + |t - (Y - q * V)| := by
    rw [abs_div]; field_simp
  rw [e1] at b4
  generalize |x1 - (Y - q * V) / p| * |p| = c0 at *
  generalize |t - (Y - q * V)| = c1 at *
  generalize |t| = c2 at *
  generalize E * z * z = w at *
  generalize E * z = w' at *
  generalize |p| = c3 at *
  clear hsmall h2 hx hV hm41 hz ht a8 a7 a2 e1 b3 a9
  norm_num at *
  linarith

theorem isDouble_quo (k : Lu) (x p : ℝ) : IsDouble (quoF k x p) := by unfold quoF; split <;> exact fl_isDouble _

theorem msub_zero (k : Lu) {x : ℝ} (hx : IsDouble x) (l : ℝ) : msubF k x l 0 = x := by
  unfold msubF
  rw [mul_zero, fl_zero, sub_zero, fl_double hx, ite_self]

theorem msub_one (k : Lu) {l : ℝ} (hl : IsDouble l) : msubF k 0 l 1 = -l := by
  unfold msubF
  rw [mul_one, fl_double hl, zero_sub, fl_double (isDouble_neg hl), ite_self]

theorem isDouble_zero : IsDouble 0 := by simpa using isDouble_int (n := 0) (by norm_num)

/-- The data of the elimination, with the pivot `p`. -/
structure Piv (B p q r s : ℝ) : Prop where
  B1 : 1 ≤ B
  B20 : B ≤ 2 ^ 20
  p1 : 1 ≤ |p|
  pB : |p| ≤ B
  qB : |q| ≤ B
  rp : |r| ≤ |p|
  sB : |s| ≤ B
  D1 : 1 ≤ |p * s - q * r|

theorem Piv.ne {B p q r s : ℝ} (h : Piv B p q r s) : p ≠ 0 := by
  rintro rfl
  have := h.p1
  rw [abs_zero] at this
  linarith

/-- The multiplier. -/
theorem Piv.mult {B p q r s : ℝ} (h : Piv B p q r s) (k : Lu) : |quoF k r p - r / p| ≤ 3 / 2 ^ 53 ∧ |quoF k r p| ≤ 101 / 100 ∧ |r / p| ≤ 1 := by
  have hB := h.B20
  have h0 := FCirc.quo_err k h.ne (h.pB.trans (by norm_num at *; linarith)) h.rp
  have h1 : |r / p| ≤ 1 := by
    rw [abs_div, div_le_one (by linarith [h.p1])]; exact h.rp
  refine ⟨h0, ?_, h1⟩
  have := abs_add_le (r / p) (quoF k r p - r / p)
  rw [add_sub_cancel] at this
  norm_num at *
  linarith

/-- An entry below the pivot's row. -/
theorem Piv.row {B p q r s : ℝ} (h : Piv B p q r s) (k : Lu) {E e f : ℝ} (hE : 1 ≤ E) (he : |e| ≤ E) (hf : |f| ≤ E) :
    |msubF k f (quoF k r p) e - (f - r / p * e)| ≤ 7 / 2 ^ 53 * E := by
  obtain ⟨h1, h2, h3⟩ := h.mult k
  have h4 := FCirc.abs_mul_le h2 he
  have h5 := FCirc.msub_err k hE hf (l := quoF k r p) (u := e) (by linarith)
  have h6 := FCirc.abs_mul_le h1 he
  have e1 : msubF k f (quoF k r p) e - (f - r / p * e) = (msubF k f (quoF k r p) e - (f - quoF k r p * e)) - (quoF k r p - r / p) * e := by ring
  rw [e1]
  have := abs_sub (msubF k f (quoF k r p) e - (f - quoF k r p * e)) ((quoF k r p - r / p) * e)
  norm_num at *
  linarith

/-- The two substitutions. -/
theorem Piv.solve {B p q r s : ℝ} (h : Piv B p q r s) (k : Lu) {E e f y1 y2 y3 Y G g : ℝ} (hE : 1 ≤ E)
    (hg : msubF k (msubF k y2 (quoF k r p) y1) (msubF k f (quoF k r p) e) y3 = g) (hgG : |g - G| ≤ 7 / 2 ^ 53 * E) (hG : |G| ≤ 2 * E)
    (hY : y1 - e * y3 = Y) (hY' : |y1| + |e * y3| = |Y|) (hYE : |Y| ≤ E) :
    msubF k s (quoF k r p) q ≠ 0 ∧
    |(solveF k p q e r s f y1 y2 y3).y - G / ((p * s - q * r) / p)| ≤ E * B ^ 3 / (p * s - q * r) ^ 2 / 2 ^ 45 ∧
    |(solveF k p q e r s f y1 y2 y3).x - (Y - q * (G / ((p * s - q * r) / p))) / p| ≤ E * B ^ 3 / (p * s - q * r) ^ 2 / 2 ^ 45 := by
  have hp0 := h.ne
  have hpp : 0 < |p| := by linarith [h.p1]
  obtain ⟨D, hD⟩ : ∃ D, D = p * s - q * r := ⟨_, rfl⟩
  have hD1 := h.D1
  rw [← hD] at hD1 ⊢
  have hDp : 0 < |D| := by linarith
  have hD0 : D ≠ 0 := abs_pos.1 hDp
  have hB0 : 0 ≤ B := by linarith [h.B1]
  have hB20 := h.B20
  have hB2 : B * B ≤ 2 ^ 40 := by
    have := mul_le_mul hB20 hB20 hB0 (by norm_num)
    norm_num at this ⊢
    exact this
  have hDle : |D| ≤ 2 * (B * |p|) := by
    rw [hD]
    have h1 := FCirc.abs_mul_le (le_refl |p|) h.sB
    have h2 := FCirc.abs_mul_le h.qB h.rp
    have := abs_sub (p * s) (q * r)
    linarith
  have hU0 : D / p ≠ 0 := div_ne_zero hD0 hp0
  have hm : |p| / |D| = 1 / |D / p| := by rw [abs_div, one_div_div]
  obtain ⟨m, hme⟩ : ∃ m, m = |p| / |D| := ⟨_, rfl⟩
  have hm0 : 0 < m := by rw [hme]; positivity
  have hmD : m * |D| = |p| := by rw [hme]; field_simp
  have hBm : 1 ≤ 2 * (B * m) := by
    have : 1 * |D| ≤ 2 * (B * m) * |D| := by
      calc 1 * |D| ≤ 2 * (B * |p|) := by linarith
        _ = 2 * (B * m) * |D| := by rw [← hmD]; ring
    exact le_of_mul_le_mul_right this hDp
  have hm41 : 1 / 2 ^ 41 ≤ m := by
    have : 1 / 2 ^ 41 * |D| ≤ m * |D| := by
      rw [hmD]
      have h1 : B * |p| ≤ B * B := mul_le_mul_of_nonneg_left h.pB hB0
      have := h.p1
      norm_num at *
      linarith
    exact le_of_mul_le_mul_right this hDp
  have hmp : m ≤ |p| := by rw [← hmD]; exact le_mul_of_one_le_right hm0.le hD1
  have hsmall : 7 / 2 ^ 53 * (B * m) ≤ 1 / 1000 := by
    have : B * m ≤ B * B := mul_le_mul_of_nonneg_left (hmp.trans h.pB) hB0
    norm_num at *
    linarith
  -- the second pivot
  have hu : |msubF k s (quoF k r p) q - D / p| ≤ 7 / 2 ^ 53 * B := by
    have := h.row k h.B1 h.qB h.sB
    have e1 : s - r / p * q = D / p := by rw [hD]; field_simp
    rwa [e1] at this
  have hu59 : |msubF k s (quoF k r p) q| ≤ 2 ^ 59 := by
    have h1 := abs_add_le (D / p) (msubF k s (quoF k r p) q - D / p)
    rw [add_sub_cancel] at h1
    have h2 : |D / p| ≤ 2 * B := by
      rw [abs_div, div_le_iff₀ hpp]; linarith
    norm_num at *
    linarith
  have hune : msubF k s (quoF k r p) q ≠ 0 :=
    (FAff.second_err (x2 := g / msubF k s (quoF k r p) q) h.B1 hE hU0 (hme.trans hm) hBm hm41 hsmall hu hG hgG
      (by rw [sub_self, abs_zero]; positivity)).1
  refine ⟨hune, ?_⟩
  have hsol : solveF k p q e r s f y1 y2 y3 = ⟨quoF k (lastF k y1 e y3 q (quoF k g (msubF k s (quoF k r p) q))) p, quoF k g (msubF k s (quoF k r p) q)⟩ := by
    unfold solveF
    dsimp only
    rw [hg]
  rw [hsol]
  dsimp only
  obtain ⟨x2, hx2⟩ : ∃ x2, x2 = quoF k g (msubF k s (quoF k r p) q) := ⟨_, rfl⟩
  rw [← hx2]
  have ex2 := quo_any k (x := g) hune hu59
  rw [← hx2] at ex2
  have r2 := (FAff.second_err h.B1 hE hU0 (hme.trans hm) hBm hm41 hsmall hu hG hgG ex2).2
  have hV : |G / (D / p)| ≤ 2 * (E * m) := by
    rw [abs_div, div_eq_mul_one_div, ← hm, ← hme]
    have := mul_le_mul_of_nonneg_right hG hm0.le
    linarith
  have et := last_any k y1 e y3 q x2
  have et' : |lastF k y1 e y3 q x2 - (Y - q * x2)| ≤ 8 / 2 ^ 53 * (|Y| + |q * x2|) + 1 / 2 ^ 180 := by
    rw [← hY'] 
    rw [← hY]
    exact et
  have r1 := FAff.first_err (x1 := quoF k (lastF k y1 e y3 q x2) p) h.B1 hE h.p1 (h.pB.trans (by norm_num at *; linarith)) hm0 hBm hm41 hsmall h.qB hYE hV r2 et'
    (quo_any k hp0 (h.pB.trans (by norm_num at *; linarith)))
  have hD2 : D ^ 2 = |D| ^ 2 := (sq_abs D).symm
  have hD2p : 0 < |D| ^ 2 := by positivity
  have hE0 : 0 ≤ E := by linarith
  constructor
  · refine r2.trans ?_
    have e1 : 50 / 2 ^ 53 * (E * (B * m) * m) = 50 / 2 ^ 53 * (E * (B * (|p| * |p|)) / |D| ^ 2) := by rw [hme]; field_simp
    have e2 : E * (B * (|p| * |p|)) / |D| ^ 2 ≤ E * B ^ 3 / |D| ^ 2 := by
      have : |p| * |p| ≤ B * B := mul_le_mul h.pB h.pB hpp.le hB0
      have : E * (B * (|p| * |p|)) ≤ E * (B * (B * B)) := by gcongr
      rw [show B ^ 3 = B * (B * B) by ring]
      gcongr
    have e3 : 0 ≤ E * B ^ 3 / |D| ^ 2 := by positivity
    rw [e1, hD2]
    generalize E * (B * (|p| * |p|)) / |D| ^ 2 = w at *
    generalize E * B ^ 3 / |D| ^ 2 = w' at *
    clear * - e2 e3
    norm_num
    linarith
  · refine r1.trans ?_
    have e1 : 150 / 2 ^ 53 * (E * (B * m) * (B * m)) / |p| = 150 / 2 ^ 53 * (E * (B * (B * |p|)) / |D| ^ 2) := by rw [hme]; field_simp
    have e2 : E * (B * (B * |p|)) / |D| ^ 2 ≤ E * B ^ 3 / |D| ^ 2 := by
      have : E * (B * (B * |p|)) ≤ E * (B * (B * B)) := by
        have := h.pB
        gcongr
      rw [show B ^ 3 = B * (B * B) by ring]
      gcongr
    have e3 : 0 ≤ E * B ^ 3 / |D| ^ 2 := by positivity
    rw [e1, hD2]
    generalize E * (B * (B * |p|)) / |D| ^ 2 = w at *
    generalize E * B ^ 3 / |D| ^ 2 = w' at *
    clear * - e2 e3
    norm_num
    linarith

/-- The three columns. -/
theorem Piv.inv {B p q r s : ℝ} (h : Piv B p q r s) (k : Lu) {E e f : ℝ} (hE : 1 ≤ E) (he : |e| ≤ E) (hf : |f| ≤ E) :
    msubF k s (quoF k r p) q ≠ 0 ∧
    (|(solveF k p q e r s f 1 0 0).x - s / (p * s - q * r)| ≤ B ^ 3 / (p * s - q * r) ^ 2 / 2 ^ 45 ∧
      |(solveF k p q e r s f 1 0 0).y - -r / (p * s - q * r)| ≤ B ^ 3 / (p * s - q * r) ^ 2 / 2 ^ 45) ∧
    (|(solveF k p q e r s f 0 1 0).x - -q / (p * s - q * r)| ≤ B ^ 3 / (p * s - q * r) ^ 2 / 2 ^ 45 ∧
      |(solveF k p q e r s f 0 1 0).y - p / (p * s - q * r)| ≤ B ^ 3 / (p * s - q * r) ^ 2 / 2 ^ 45) ∧
    (|(solveF k p q e r s f 0 0 1).x - (q * f - e * s) / (p * s - q * r)| ≤ E * B ^ 3 / (p * s - q * r) ^ 2 / 2 ^ 45 ∧
      |(solveF k p q e r s f 0 0 1).y - (r * e - p * f) / (p * s - q * r)| ≤ E * B ^ 3 / (p * s - q * r) ^ 2 / 2 ^ 45) := by
  have hp0 := h.ne
  have hD0 : p * s - q * r ≠ 0 := abs_pos.1 (by linarith [h.D1])
  obtain ⟨l1, l2, l3⟩ := h.mult k
  have A := h.solve k (E := 1) (e := e) (f := f) (y1 := 1) (y2 := 0) (y3 := 0) (Y := 1) (G := -(r / p)) (g := -quoF k r p) le_rfl
    (by rw [msub_one k (isDouble_quo _ _ _), msub_zero k (isDouble_neg (isDouble_quo _ _ _))])
    (by rw [show -quoF k r p - -(r / p) = -(quoF k r p - r / p) by ring, abs_neg]; norm_num at *; linarith) (by rw [abs_neg]; linarith)
    (by ring) (by simp) (by norm_num)
  have B' := h.solve k (E := 1) (e := e) (f := f) (y1 := 0) (y2 := 1) (y3 := 0) (Y := 0) (G := 1) (g := 1) le_rfl
    (by rw [msub_zero k isDouble_one, msub_zero k isDouble_one])
    (by norm_num) (by norm_num)
    (by ring) (by simp) (by norm_num)
  have hgg := h.row k hE he hf
  have hG : |f - r / p * e| ≤ 2 * E := by
    have h1 := FCirc.abs_mul_le l3 he
    have := abs_sub f (r / p * e)
    linarith
  have C := h.solve k (E := E) (e := e) (f := f) (y1 := 0) (y2 := 0) (y3 := 1) (Y := -e) (G := -(f - r / p * e)) (g := -msubF k f (quoF k r p) e) hE
    (by rw [msub_zero k isDouble_zero, msub_one k (FCirc.isDouble_msub _ _ _ _)])
    (by rw [show -msubF k f (quoF k r p) e - -(f - r / p * e) = -(msubF k f (quoF k r p) e - (f - r / p * e)) by ring, abs_neg]; exact hgg)
    (by rw [abs_neg]; exact hG) (by ring) (by simp) (by rw [abs_neg]; exact he)
  rw [one_mul] at A B'
  refine ⟨A.1, ⟨?_, ?_⟩, ⟨?_, ?_⟩, ?_, ?_⟩
  · have e1 : (1 - q * (-(r / p) / ((p * s - q * r) / p))) / p = s / (p * s - q * r) := by field_simp; ring
    rw [← e1]; exact A.2.2
  · have e1 : -(r / p) / ((p * s - q * r) / p) = -r / (p * s - q * r) := by field_simp
    rw [← e1]; exact A.2.1
  · have e1 : (0 - q * (1 / ((p * s - q * r) / p))) / p = -q / (p * s - q * r) := by field_simp; ring
    rw [← e1]; exact B'.2.2
  · have e1 : 1 / ((p * s - q * r) / p) = p / (p * s - q * r) := by field_simp
    rw [← e1]; exact B'.2.1
  · have e1 : (-e - q * (-(f - r / p * e) / ((p * s - q * r) / p))) / p = (q * f - e * s) / (p * s - q * r) := by field_simp; ring
    rw [← e1]; exact C.2.2
  · have e1 : -(f - r / p * e) / ((p * s - q * r) / p) = (r * e - p * f) / (p * s - q * r) := by field_simp; ring
    rw [← e1]; exact C.2.1

/-- The determinant from its logarithm. -/
theorem expDet22_eq {lg ex : ℝ → ℝ} (hle : IsLogExp lg ex) (sg x y : ℝ) : expDet22 lg ex sg x y = expDet lg ex sg x y 1 := by
  have h1 : lg 1 = 0 := by
    have := hle.log 1 isDouble_one one_pos
    rw [Real.log_one] at this
    simpa using this
  unfold expDet22 expDet
  rw [abs_one, h1, add_zero, fl_double (fl_isDouble _)]
  norm_num

/-- The determinant, for the pivot `p`. -/
theorem luDet22_err (k : Lu) {lg ex : ℝ → ℝ} (hle : IsLogExp lg ex) {sg p q r s B : ℝ} (hs : |sg| = 1) (hp : IsDouble p) (hB : 1 ≤ B) (hB' : B ≤ 2 ^ 50)
    (pB : |p| ≤ B) (qB : |q| ≤ B) (rp : |r| ≤ |p|) (sB : |s| ≤ B) :
    |luDet22 k lg ex sg p q r s - sg * (p * s - q * r)| ≤ B * B / 2 ^ 44 + |p * s - q * r| / 2 ^ 38 := by
  have hBB : 1 ≤ B * B := one_le_mul_of_one_le_of_one_le hB hB
  unfold luDet22
  split
  · next h0 =>
    subst h0
    rw [abs_zero] at rp
    have : r = 0 := abs_nonpos_iff.1 rp
    subst this
    simp only [mul_zero, zero_mul, sub_zero, abs_zero, zero_div, add_zero]
    positivity
  · next h0 =>
    dsimp only
    have hp59 : |p| ≤ 2 ^ 59 := pB.trans (hB'.trans (by norm_num))
    have h1 := FCirc.quo_err k h0 hp59 rp
    have hpp : 0 < |p| := abs_pos.2 h0
    have h3 : |r / p| ≤ 1 := by rw [abs_div, div_le_one hpp]; exact rp
    have h2 : |quoF k r p| ≤ 101 / 100 := by
      have := abs_add_le (r / p) (quoF k r p - r / p)
      rw [add_sub_cancel] at this
      norm_num at *
      linarith
    have h4 := FCirc.abs_mul_le h2 qB
    have h5 := FCirc.msub_err k hB sB (l := quoF k r p) (u := q) (by linarith)
    have h6 := FCirc.abs_mul_le h1 qB
    obtain ⟨u, hu⟩ : ∃ u, u = msubF k s (quoF k r p) q := ⟨_, rfl⟩
    rw [← hu] at h5 ⊢
    have h7 : |u - (s - r / p * q)| ≤ 7 / 2 ^ 53 * B := by
      have e1 : u - (s - r / p * q) = (u - (s - quoF k r p * q)) - (quoF k r p - r / p) * q := by ring
      rw [e1]
      have := abs_sub (u - (s - quoF k r p * q)) ((quoF k r p - r / p) * q)
      norm_num at *
      linarith
    have h8 : |p * u * 1 - (p * s - q * r)| ≤ 240 / 2 ^ 53 * (B * B) := by
      have e1 : p * u * 1 - (p * s - q * r) = p * (u - (s - r / p * q)) := by field_simp
      rw [e1]
      have := FCirc.abs_mul_le pB h7
      clear * - this hBB
      norm_num at *
      linarith
    have hF : FCirc.Factored lg ex sg (if u = 0 then 0 else expDet22 lg ex sg p u) (p * s - q * r) (240 / 2 ^ 53 * (B * B)) := by
      refine ⟨p * u * 1, h8, ?_⟩
      split
      · next h => left; exact ⟨rfl, by rw [h]; ring⟩
      · next h =>
        right
        refine ⟨p, u, 1, hp, ?_, isDouble_one, h0, h, one_ne_zero, hp59, ?_, by norm_num, rfl, expDet22_eq hle _ _ _⟩
        · rw [hu]; exact FCirc.isDouble_msub _ _ _ _
        · have a1 := abs_add_le (s - r / p * q) (u - (s - r / p * q))
          rw [add_sub_cancel] at a1
          have a2 := abs_sub s (r / p * q)
          have a3 := FCirc.abs_mul_le h3 qB
          norm_num at *
          linarith
    exact FCirc.factored_err hle hs hBB le_rfl hF

/-- `np.linalg.det` of a 2 × 2 array. -/
theorem det22_err (k : Lu) {lg ex : ℝ → ℝ} (hle : IsLogExp lg ex) {A : Matrix (Fin 2) (Fin 2) ℝ} {B : ℝ} (hd : ∀ i j, IsDouble (A i j)) (hB : 1 ≤ B) (hB' : B ≤ 2 ^ 50)
    (hA : ∀ i j, |A i j| ≤ B) : |det22F k lg ex A - A.det| ≤ B * B / 2 ^ 44 + |A.det| / 2 ^ 38 := by
  rw [Matrix.det_fin_two]
  unfold det22F
  split
  · next h =>
    have := luDet22_err k hle (sg := 1) (by norm_num) (hd 0 0) hB hB' (hA 0 0) (hA 0 1) h (hA 1 1)
    rwa [one_mul] at this
  · next h =>
    have := luDet22_err k hle (sg := -1) (by norm_num) (hd 1 0) hB hB' (hA 1 0) (hA 1 1) (not_le.1 h).le (hA 0 1)
    have e : A 1 0 * A 0 1 - A 1 1 * A 0 0 = -(A 0 0 * A 1 1 - A 0 1 * A 1 0) := by ring
    rwa [e, neg_one_mul, neg_neg, abs_neg] at this

end FAff

/-- C131: on integer matrices with entries up to `B ≤ 2²⁰` the determinant computed by `np.linalg.det` has a small error, so that its sign is right and no
invertible map is taken for a singular one. -/
theorem C131_guard (k : Lu) {lg ex : ℝ → ℝ} (hle : IsLogExp lg ex) (A : Matrix (Fin 2) (Fin 2) ℝ) {B : ℕ} (hB : B ≤ 2 ^ 20) (hA : ∀ i j, IntB B (A i j)) :
    |det22F k lg ex A - A.det| ≤ B ^ 2 / 2 ^ 44 + |A.det| / 2 ^ 38 ∧ (0 < A.det → 0 < det22F k lg ex A) ∧ (A.det < 0 → det22F k lg ex A < 0) := by
  have hBr' : (B : ℝ) ≤ 2 ^ 20 := by exact_mod_cast hB
  have key : |det22F k lg ex A - A.det| ≤ B ^ 2 / 2 ^ 44 + |A.det| / 2 ^ 38 := by
    rcases Nat.eq_zero_or_pos B with rfl | h0
    · have hz : ∀ i j, A i j = 0 := fun i j => by
        have := FI.abs_le (hA i j)
        push_cast at this
        exact abs_nonpos_iff.1 this
      have e : det22F k lg ex A = 0 := by
        unfold det22F luDet22
        simp [hz]
      rw [e, Matrix.det_fin_two]
      simp [hz]
    · have := FAff.det22_err k hle (B := B) (fun i j => FI.isDouble (hA i j) (by omega)) (by exact_mod_cast h0) (hBr'.trans (by norm_num)) (fun i j => FI.abs_le (hA i j))
      rwa [← pow_two] at this
  refine ⟨key, fun h => ?_, fun h => ?_⟩ <;>
  · have hi : IntB (B * B + B * B) A.det := by
      rw [Matrix.det_fin_two]
      exact FI.sub (FI.mul (hA 0 0) (hA 1 1)) (FI.mul (hA 0 1) (hA 1 0))
    have h1 := FI.one_le_abs hi (ne_of_apply_ne id (by first | exact h.ne | exact h.ne'))
    have hB2 : (B : ℝ) ^ 2 ≤ (2 ^ 20) ^ 2 := pow_le_pow_left₀ (by positivity) hBr' 2
    rw [abs_le] at key
    first
      | rw [abs_of_pos h] at key h1
      | rw [abs_of_neg h] at key h1
    obtain ⟨k1, k2⟩ := key
    norm_num at *
    linarith

/-- The determinant `5` of a matrix, in double precision. -/
example (k : Lu) {lg ex : ℝ → ℝ} (hle : IsLogExp lg ex) :
    |det22F k lg ex !![2, 1; 1, 3] - 5| ≤ 1 / 10 ^ 10 ∧ 0 < det22F k lg ex !![2, 1; 1, 3] := by
  have hA : ∀ i j, IntB 3 ((!![2, 1; 1, 3] : Matrix (Fin 2) (Fin 2) ℝ) i j) := by
    intro i j
    fin_cases i <;> fin_cases j
    · exact ⟨2, by simp, by norm_num⟩
    · exact ⟨1, by simp, by norm_num⟩
    · exact ⟨1, by simp, by norm_num⟩
    · exact ⟨3, by simp, by norm_num⟩
  have hd : (!![2, 1; 1, 3] : Matrix (Fin 2) (Fin 2) ℝ).det = 5 := by rw [Matrix.det_fin_two]; norm_num
  obtain ⟨h1, h2, -⟩ := C131_guard k hle _ (by norm_num) hA
  rw [hd] at h1 h2
  exact ⟨h1.trans (by norm_num), h2 (by norm_num)⟩

/-- C131: `Affine.inverse` on a map with an invertible integer matrix, entries up to `B ≤ 2²⁰`, and any intercept: the inverse is returned, with errors of at most
`B³ / (2⁴⁵ det²)` in the matrix, and `E` times this in the intercept. -/
theorem C131_inverse (k k' : Lu) {lg ex : ℝ → ℝ} (hle : IsLogExp lg ex) (f : Affine) {B : ℕ} (hB : B ≤ 2 ^ 20) (hA : ∀ i j, IntB B (f.A i j)) {E : ℝ} (hE : 1 ≤ E)
    (hx : |f.b.x| ≤ E) (hy : |f.b.y| ≤ E) (hdet : f.A.det ≠ 0) :
    ∃ h : Affine, (∀ P, h.transform (f.transform P) = P) ∧ (∀ P, f.transform (h.transform P) = P) ∧
      ∃ g, f.inverseF k k' lg ex = .ok (some g) ∧ (∀ i j, |g.A i j - h.A i j| ≤ B ^ 3 / f.A.det ^ 2 / 2 ^ 45) ∧
        |g.b.x - h.b.x| ≤ E * B ^ 3 / f.A.det ^ 2 / 2 ^ 45 ∧ |g.b.y - h.b.y| ≤ E * B ^ 3 / f.A.det ^ 2 / 2 ^ 45 := by
  have hg := C131_guard k hle f.A hB hA
  have hne : det22F k lg ex f.A ≠ 0 := by
    rcases lt_or_gt_of_ne hdet with h | h
    · exact (hg.2.2 h).ne
    · exact (hg.2.1 h).ne'
  have hi : IntB (B * B + B * B) f.A.det := by
    rw [Matrix.det_fin_two]
    exact FI.sub (FI.mul (hA 0 0) (hA 1 1)) (FI.mul (hA 0 1) (hA 1 0))
  have hD1 := FI.one_le_abs hi hdet
  have hBr' : (B : ℝ) ≤ 2 ^ 20 := by exact_mod_cast hB
  have habs : ∀ i j, |f.A i j| ≤ B := fun i j => FI.abs_le (hA i j)
  rw [Matrix.det_fin_two] at hdet hD1
  rw [Matrix.det_fin_two]
  obtain ⟨D, hD⟩ : ∃ D, D = f.A 0 0 * f.A 1 1 - f.A 0 1 * f.A 1 0 := ⟨_, rfl⟩
  rw [← hD] at hdet hD1 ⊢
  refine ⟨⟨!![f.A 1 1 / D, -f.A 0 1 / D; -f.A 1 0 / D, f.A 0 0 / D],
    ⟨(f.A 0 1 * f.b.y - f.b.x * f.A 1 1) / D, (f.A 1 0 * f.b.x - f.A 0 0 * f.b.y) / D⟩⟩, ?_, ?_, ?_⟩
  · intro P
    unfold Affine.transform
    apply Pt.ext <;> simp <;> field_simp <;> rw [hD] <;> ring
  · intro P
    unfold Affine.transform
    apply Pt.ext <;> simp <;> field_simp <;> rw [hD] <;> ring
  · have first1 : ∀ i, f.A i 0 ≠ 0 → 1 ≤ |f.A i 0| := fun i h => FI.one_le_abs (hA i 0) h
    have hB1 : (1 : ℝ) ≤ B := by
      by_contra hb
      have : B = 0 := by
        by_contra h0
        exact hb (by exact_mod_cast Nat.one_le_iff_ne_zero.2 h0)
      subst this
      have hz : ∀ i j, f.A i j = 0 := fun i j => by
        have := habs i j
        push_cast at this
        exact abs_nonpos_iff.1 this
      apply hdet
      rw [hD]; simp [hz]
    unfold Affine.inverseF
    rw [if_neg hne]
    by_cases hle' : |f.A 1 0| ≤ |f.A 0 0|
    · have hp : f.A 0 0 ≠ 0 := by
        intro h0
        rw [h0, abs_zero] at hle'
        have := abs_nonpos_iff.1 hle'
        apply hdet
        rw [hD, h0, this]; ring
      have piv : FAff.Piv B (f.A 0 0) (f.A 0 1) (f.A 1 0) (f.A 1 1) :=
        ⟨hB1, hBr', first1 0 hp, habs 0 0, habs 0 1, hle', habs 1 1, by rw [← hD]; exact hD1⟩
      obtain ⟨hu, ⟨a1, a2⟩, ⟨b1, b2⟩, c1, c2⟩ := piv.inv k' hE hx hy
      rw [if_pos hle']
      unfold invF
      rw [if_neg (by push Not; exact ⟨hp, hu⟩), ← hD] at *
      refine ⟨_, rfl, ?_, ?_, ?_⟩
      · intro i j
        fin_cases i <;> fin_cases j
        · exact a1
        · exact b1
        · exact a2
        · exact b2
      · exact c1
      · exact c2
    · have hp : f.A 1 0 ≠ 0 := by
        intro h0
        apply hle'
        rw [h0, abs_zero]; exact abs_nonneg _
      have hDs : f.A 1 0 * f.A 0 1 - f.A 1 1 * f.A 0 0 = -D := by rw [hD]; ring
      have piv : FAff.Piv B (f.A 1 0) (f.A 1 1) (f.A 0 0) (f.A 0 1) :=
        ⟨hB1, hBr', first1 1 hp, habs 1 0, habs 1 1, (not_le.1 hle').le, habs 0 1, by rw [hDs, abs_neg]; exact hD1⟩
      obtain ⟨hu, ⟨a1, a2⟩, ⟨b1, b2⟩, c1, c2⟩ := piv.inv k' hE hy hx
      rw [if_neg hle']
      unfold invF
      rw [if_neg (by push Not; exact ⟨hp, hu⟩)]
      rw [hDs, neg_sq] at a1 a2 b1 b2 c1 c2
      refine ⟨_, rfl, ?_, ?_, ?_⟩
      · intro i j
        fin_cases i <;> fin_cases j
        · rw [neg_div_neg_eq] at b1; exact b1
        · rw [div_neg, ← neg_div] at a1; exact a1
        · rw [div_neg, ← neg_div] at b2; exact b2
        · rw [neg_div_neg_eq] at a2; exact a2
      · rw [div_neg, ← neg_div, neg_sub] at c1
        have e1 : f.A 0 1 * f.b.y - f.b.x * f.A 1 1 = f.b.y * f.A 0 1 - f.A 1 1 * f.b.x := by ring
        rw [← e1] at c1
        exact c1
      · rw [div_neg, ← neg_div, neg_sub] at c2
        exact c2

/-- The map with matrix [[2, 1], [1, 3]] and intercept (5, -4): the inverse is [[3/5, -1/5], [-1/5, 2/5]] and (-19/5, 13/5), up to 10⁻¹¹. -/
example (k k' : Lu) {lg ex : ℝ → ℝ} (hle : IsLogExp lg ex) :
    ∃ g, (⟨!![2, 1; 1, 3], ⟨5, -4⟩⟩ : Affine).inverseF k k' lg ex = .ok (some g) ∧ |g.A 0 0 - 3 / 5| ≤ 1 / 10 ^ 11 ∧ |g.A 1 0 - -1 / 5| ≤ 1 / 10 ^ 11 ∧
      |g.b.x - -19 / 5| ≤ 1 / 10 ^ 11 ∧ |g.b.y - 13 / 5| ≤ 1 / 10 ^ 11 := by
  have hA : ∀ i j, IntB 3 ((!![2, 1; 1, 3] : Matrix (Fin 2) (Fin 2) ℝ) i j) := by
    intro i j
    fin_cases i <;> fin_cases j
    · exact ⟨2, by simp, by norm_num⟩
    · exact ⟨1, by simp, by norm_num⟩
    · exact ⟨1, by simp, by norm_num⟩
    · exact ⟨3, by simp, by norm_num⟩
  have hd : (!![2, 1; 1, 3] : Matrix (Fin 2) (Fin 2) ℝ).det = 5 := by rw [Matrix.det_fin_two]; simp; norm_num
  obtain ⟨h, h1, -, g, hg, hA', hx, hy⟩ := C131_inverse k k' hle ⟨!![2, 1; 1, 3], ⟨5, -4⟩⟩ (B := 3) (by norm_num) hA (E := 5) (by norm_num)
    (by norm_num) (by norm_num) (by dsimp only; rw [hd]; norm_num)
  dsimp only at hA' hx hy
  rw [hd] at hA' hx hy
  have p0 := h1 ⟨0, 0⟩
  have p1 := h1 ⟨1, 0⟩
  have p2 := h1 ⟨0, 1⟩
  simp only [Affine.transform, Pt.mk.injEq] at p0 p1 p2
  simp at p0 p1 p2
  have e1 : h.A 0 0 = 3 / 5 := by linarith
  have e2 : h.A 1 0 = -1 / 5 := by linarith
  have e3 : h.b.x = -19 / 5 := by linarith
  have e4 : h.b.y = 13 / 5 := by linarith
  have q1 := hA' 0 0
  have q2 := hA' 1 0
  rw [e1] at q1
  rw [e2] at q2
  rw [e3] at hx
  rw [e4] at hy
  refine ⟨g, hg, q1.trans ?_, q2.trans ?_, hx.trans ?_, hy.trans ?_⟩ <;> norm_num

/-- C131: singular integer matrices are recognised when the largest entry of the first column is a power of two (in particular when it is ±1, ±2 or ±4). -/
theorem C131_singular (k k' : Lu) (lg ex : ℝ → ℝ) (f : Affine) {B : ℕ} (hB : B ≤ 2 ^ 20) (hA : ∀ i j, IntB B (f.A i j)) (hdet : f.A.det = 0)
    (j : ℕ) (hj : j ≤ 20) (hmax : max |f.A 0 0| |f.A 1 0| = 2 ^ j ∨ (f.A 0 0 = 0 ∧ f.A 1 0 = 0)) :
    det22F k lg ex f.A = 0 ∧ f.inverseF k k' lg ex = .ok none ∧ ∀ kx ky P Q, f.lineImageF k kx ky lg ex P Q = none := by
  have hz : ∀ {p q r s : ℝ} (sg : ℝ), IntB B p → IntB B q → IntB B r → IntB B s → p * s = q * r → |p| = 2 ^ j → luDet22 k lg ex sg p q r s = 0 := by
    intro p q r s sg hp hq hr hs hps hpj
    have hp0 : p ≠ 0 := by
      rintro rfl
      rw [abs_zero] at hpj
      have : (0 : ℝ) < 2 ^ j := by positivity
      linarith
    have hs' : fl s = s := fl_double (FI.isDouble hs (by omega))
    have dq : ∀ {x : ℝ}, IntB B x → ∀ sg : ℝ, sg = 1 ∨ sg = -1 → IsDouble (x * (sg * 2 ^ (-(j : ℤ)))) := by
      rintro x ⟨n, rfl, hn⟩ sg hsg
      have hn' : |n| ≤ 2 ^ 53 := hn.trans (by exact_mod_cast hB.trans (by norm_num))
      have h1 : IsDouble ((n : ℝ) * 2 ^ (-(j : ℤ))) := ⟨n, -(j : ℤ), by omega, hn', rfl⟩
      rcases hsg with rfl | rfl
      · rwa [one_mul]
      · have := isDouble_neg h1
        rwa [show (n : ℝ) * (-1 * 2 ^ (-(j : ℤ))) = -(n * 2 ^ (-(j : ℤ))) by ring]
    obtain ⟨σ, hσ, hpσ⟩ : ∃ σ : ℝ, (σ = 1 ∨ σ = -1) ∧ 1 / p = σ * 2 ^ (-(j : ℤ)) := by
      rcases abs_choice p with h | h
      · refine ⟨1, Or.inl rfl, ?_⟩
        rw [h] at hpj
        rw [hpj, one_mul, zpow_neg, zpow_natCast, one_div]
      · refine ⟨-1, Or.inr rfl, ?_⟩
        have : p = -2 ^ j := by linarith
        rw [this, zpow_neg, zpow_natCast, one_div, inv_neg]; ring
    have hquo : quoF k r p = r / p := by
      unfold quoF
      have d1 : IsDouble (1 / p) := by
        rw [hpσ]
        rcases hσ with rfl | rfl
        · rw [one_mul]; exact isDouble_pow _ (by omega)
        · rw [neg_one_mul]; exact isDouble_neg (isDouble_pow _ (by omega))
      have d2 : IsDouble (r * (1 / p)) := by rw [hpσ]; exact dq hr σ hσ
      rw [fl_double d1, fl_double d2, ← div_eq_mul_one_div]
      rw [← div_eq_mul_one_div] at d2
      rw [fl_double d2, ite_self]
    have hlq : r / p * q = s := by
      field_simp
      linarith
    have hu : msubF k s (quoF k r p) q = 0 := by
      unfold msubF
      rw [hquo, hlq, hs', sub_self, fl_zero, ite_self]
    unfold luDet22
    dsimp only
    rw [if_neg hp0, if_pos hu]
  have h0 : det22F k lg ex f.A = 0 := by
    rw [Matrix.det_fin_two] at hdet
    unfold det22F
    split
    · next h =>
      rcases hmax with hm | hm
      · rw [max_eq_left h] at hm
        exact hz 1 (hA 0 0) (hA 0 1) (hA 1 0) (hA 1 1) (by linarith) hm
      · unfold luDet22; rw [if_pos hm.1]
    · next h =>
      rcases hmax with hm | hm
      · rw [max_eq_right (not_le.1 h).le] at hm
        exact hz (-1) (hA 1 0) (hA 1 1) (hA 0 0) (hA 0 1) (by linarith) hm
      · unfold luDet22; rw [if_pos hm.2]
  refine ⟨h0, ?_, fun kx ky P Q => ?_⟩
  · unfold Affine.inverseF; rw [if_pos h0]
  · unfold Affine.lineImageF; rw [if_pos h0]

/-- The projection on the first axis. -/
example (k k' : Lu) (lg ex : ℝ → ℝ) : (⟨!![1, 0; 0, 0], ⟨0, 0⟩⟩ : Affine).inverseF k k' lg ex = .ok none := by
  refine (C131_singular k k' lg ex _ (B := 1) (by norm_num) ?_ ?_ 0 (by norm_num) (Or.inl ?_)).2.1
  · intro i j
    fin_cases i <;> fin_cases j
    · exact ⟨1, by simp, by norm_num⟩
    · exact ⟨0, by simp, by norm_num⟩
    · exact ⟨0, by simp, by norm_num⟩
    · exact ⟨0, by simp, by norm_num⟩
  · rw [Matrix.det_fin_two]; simp
  · simp

/-- C131: the other singular matrices may pass the guard: the map with the matrix [[49, 49], [1, 1]] is singular, but with every build of LAPACK a map is
returned as its inverse, and `transform_line` returns a line. -/
theorem C131_singular_counterexample (k k' : Lu) {lg ex : ℝ → ℝ} (hle : IsLogExp lg ex) (kx ky : Fma) :
    ∃ f : Affine, (∀ i j, IntB 49 (f.A i j)) ∧ f.A.det = 0 ∧ (∃ g, f.inverseF k k' lg ex = .ok (some g)) ∧ ∀ P Q, ∃ L, f.lineImageF k kx ky lg ex P Q = some L := by
  have hl : fl ((1 : ℝ) / 49) = (5882252574524729 : ℤ) * 2 ^ (-58 : ℤ) := by
    apply fl_eval <;> norm_num [abs_of_pos, abs_lt]
  have hq : ∀ k : Lu, quoF k 1 49 = (5882252574524729 : ℤ) * 2 ^ (-58 : ℤ) := by
    intro k
    unfold quoF
    rw [one_mul, fl_double (fl_isDouble _), ite_self, hl]
  have h49 : fl ((5882252574524729 : ℤ) * 2 ^ (-58 : ℤ) * 49) = (9007199254740991 : ℤ) * 2 ^ (-53 : ℤ) := by
    apply fl_eval <;> norm_num [abs_of_pos, abs_lt]
  have hu : ∀ k : Lu, (1 : ℝ) / 2 ^ 54 ≤ msubF k 1 (quoF k 1 49) 49 ∧ msubF k 1 (quoF k 1 49) 49 ≤ 1 := by
    intro k
    rw [hq k]
    unfold msubF
    split
    · have e : (1 : ℝ) - (5882252574524729 : ℤ) * 2 ^ (-58 : ℤ) * 49 = (23 : ℤ) * 2 ^ (-58 : ℤ) := by norm_num
      rw [e, fl_double ⟨23, -58, by norm_num, by norm_num, rfl⟩]
      norm_num
    · have e : (1 : ℝ) - (9007199254740991 : ℤ) * 2 ^ (-53 : ℤ) = (1 : ℤ) * 2 ^ (-53 : ℤ) := by norm_num
      rw [h49, e, fl_double ⟨1, -53, by norm_num, by norm_num, rfl⟩]
      norm_num
  have h0 : ∀ k : Lu, 0 < msubF k 1 (quoF k 1 49) 49 := fun k => lt_of_lt_of_le (by positivity) (hu k).1
  have hd : det22F k lg ex !![49, 49; 1, 1] ≠ 0 := by
    unfold det22F luDet22
    simp only [Matrix.of_apply, Matrix.cons_val', Matrix.cons_val_zero, Matrix.cons_val_one, Matrix.cons_val_fin_one]
    rw [if_pos (by norm_num), if_neg (by norm_num), if_neg (h0 k).ne', FAff.expDet22_eq hle]
    have d49 : IsDouble 49 := by simpa using isDouble_int (n := 49) (by norm_num)
    have := FCirc.expDet_err hle (sg := 1) (x := 49) (y := msubF k 1 (quoF k 1 49) 49) (z := 1) (by norm_num) d49 (FCirc.isDouble_msub _ _ _ _) isDouble_one (by norm_num)
      (h0 k).ne' one_ne_zero (by norm_num) (by rw [abs_of_pos (h0 k)]; exact (hu k).2.trans (by norm_num)) (by norm_num)
    intro e
    rw [e] at this
    have h2 := (hu k).1
    have h3 := FCirc.pow_small
    have h4 := h0 k
    generalize msubF k 1 (quoF k 1 49) 49 = u at *
    rw [zero_sub, abs_neg, one_mul, mul_one, abs_of_pos (by positivity)] at this
    generalize (1 : ℝ) / 2 ^ 1000 = t at *
    norm_num at *
    linarith
  refine ⟨⟨!![49, 49; 1, 1], ⟨0, 0⟩⟩, ?_, ?_, ?_, fun P Q => ?_⟩
  · intro i j
    fin_cases i <;> fin_cases j
    · exact ⟨49, by simp, by norm_num⟩
    · exact ⟨49, by simp, by norm_num⟩
    · exact ⟨1, by simp, by norm_num⟩
    · exact ⟨1, by simp, by norm_num⟩
  · rw [Matrix.det_fin_two]; simp
  · unfold Affine.inverseF invF
    dsimp only
    rw [if_neg hd]
    simp only [Matrix.of_apply, Matrix.cons_val', Matrix.cons_val_zero, Matrix.cons_val_one, Matrix.cons_val_fin_one]
    rw [if_pos (by norm_num), if_neg (by
      rintro (h | h)
      · norm_num at h
      · exact (h0 k').ne' h)]
    exact ⟨_, rfl⟩
  · unfold Affine.lineImageF
    dsimp only
    rw [if_neg hd]
    exact ⟨_, rfl⟩
