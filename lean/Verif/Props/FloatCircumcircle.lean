import Verif.Model.FloatCircumcircle
import Verif.Props.FloatFlat
import Verif.Props.FloatIncircle
import Verif.Lemmas.Gasket
import Mathlib.Analysis.Complex.ExponentialBounds

/-!
# C130: `Triangle.circumcircle` in double precision
-/

open Spec Real Classical FG FT

namespace FCirc

theorem abs_mul_le {x y a b : ℝ} (hx : |x| ≤ a) (hy : |y| ≤ b) : |x * y| ≤ a * b := by
  rw [abs_mul]
  exact mul_le_mul hx hy (abs_nonneg _) ((abs_nonneg _).trans hx)

theorem abs_sub_le' {x y a b : ℝ} (hx : |x| ≤ a) (hy : |y| ≤ b) : |x - y| ≤ a + b :=
  (abs_sub x y).trans (add_le_add hx hy)

/-- The error of the elimination. -/
theorem lu_err {ε P Y p a2 a3 B1 B2 B3 l2 l3 b2 b3 c2 l u : ℝ} (hε : 0 ≤ ε) (hε' : ε ≤ 1 / 1000) (hp : |p| ≤ P)
    (hB1 : |B1| ≤ Y) (hB2 : |B2| ≤ Y) (hB3 : |B3| ≤ Y)
    (hl2 : |l2| ≤ 1 + ε) (hl3 : |l3| ≤ 1 + ε)
    (e2 : |l2 * p - a2| ≤ ε * P) (e3 : |l3 * p - a3| ≤ ε * P)
    (eb2 : |b2 - (B2 - l2 * B1)| ≤ ε * Y) (eb3 : |b3 - (B3 - l3 * B1)| ≤ ε * Y) (ec : |c2 - (1 - l2 * 1)| ≤ ε)
    (el : |l * b2 - b3| ≤ ε * Y) (eu : |u - (1 - l3 * 1 - l * c2)| ≤ ε) :
    |p * b2 * u - (p * (B2 - B3) - a2 * (B1 - B3) + a3 * (B1 - B2))| ≤ 15 * ε * (P * Y) := by
  have hP : 0 ≤ P := (abs_nonneg p).trans hp
  have hY : 0 ≤ Y := (abs_nonneg B1).trans hB1
  have hPY : 0 ≤ ε * (P * Y) := by positivity
  have k1 : |1 - l3| ≤ 2001 / 1000 := by
    have := abs_sub_le' (x := 1) (y := l3) (a := 1) (by norm_num) hl3
    linarith
  have k2 : |1 - l2 * 1| ≤ 2001 / 1000 := by
    have := abs_sub_le' (x := 1) (y := l2) (a := 1) (by norm_num) hl2
    rw [mul_one]
    linarith
  have kc : |c2| ≤ 201 / 100 := by
    have := abs_add_le (c2 - (1 - l2 * 1)) (1 - l2 * 1)
    rw [sub_add_cancel] at this
    linarith
  have kl : ∀ {l B : ℝ}, |l| ≤ 1 + ε → |B| ≤ Y → |B - l * B1| ≤ 2001 / 1000 * Y := by
    intro l B hl hB
    have h1 := abs_sub_le' hB (abs_mul_le hl hB1)
    nlinarith
  have kb2 : |b2| ≤ 201 / 100 * Y := by
    have := abs_add_le (b2 - (B2 - l2 * B1)) (B2 - l2 * B1)
    rw [sub_add_cancel] at this
    have := kl hl2 hB2
    nlinarith
  have e : p * b2 * u - (p * (B2 - B3) - a2 * (B1 - B3) + a3 * (B1 - B2)) =
      -((l2 * p - a2) * (B1 - B3)) + (l3 * p - a3) * (B1 - B2) + p * (b2 - (B2 - l2 * B1)) * (1 - l3) - p * (b3 - (B3 - l3 * B1)) * c2
      - p * (B3 - l3 * B1) * (c2 - (1 - l2 * 1)) - p * (l * b2 - b3) * c2 + p * b2 * (u - (1 - l3 * 1 - l * c2)) := by ring
  have t1 := abs_mul_le e2 (abs_sub_le' hB1 hB3)
  have t2 := abs_mul_le e3 (abs_sub_le' hB1 hB2)
  have t3 := abs_mul_le (abs_mul_le hp eb2) k1
  have t4 := abs_mul_le (abs_mul_le hp eb3) kc
  have t5 := abs_mul_le (abs_mul_le hp (kl hl3 hB3)) ec
  have t6 := abs_mul_le (abs_mul_le hp el) kc
  have t7 := abs_mul_le (abs_mul_le hp kb2) eu
  rw [e]
  generalize (l2 * p - a2) * (B1 - B3) = x1 at *
  generalize (l3 * p - a3) * (B1 - B2) = x2 at *
  generalize p * (b2 - (B2 - l2 * B1)) * (1 - l3) = x3 at *
  generalize p * (b3 - (B3 - l3 * B1)) * c2 = x4 at *
  generalize p * (B3 - l3 * B1) * (c2 - (1 - l2 * 1)) = x5 at *
  generalize p * (l * b2 - b3) * c2 = x6 at *
  generalize p * b2 * (u - (1 - l3 * 1 - l * c2)) = x7 at *
  rw [abs_le] at *
  obtain ⟨t1, t1'⟩ := t1
  obtain ⟨t2, t2'⟩ := t2
  obtain ⟨t3, t3'⟩ := t3
  obtain ⟨t4, t4'⟩ := t4
  obtain ⟨t5, t5'⟩ := t5
  obtain ⟨t6, t6'⟩ := t6
  obtain ⟨t7, t7'⟩ := t7
  constructor <;> nlinarith

/-- An entry of `L`. -/
theorem quo_err (k : Lu) {x p : ℝ} (hp : p ≠ 0) (hp' : |p| ≤ 2 ^ 59) (hx : |x| ≤ |p|) :
    |quoF k x p - x / p| ≤ 3 / 2 ^ 53 := by
  have ht := FI.tiny_small
  have hp0 : 0 < |p| := abs_pos.2 hp
  have hq : |x / p| ≤ 1 := by rw [abs_div, div_le_one hp0]; exact hx
  unfold quoF
  split
  · have h1 : |fl (1 / p) - 1 / p| ≤ 101 / 100 / 2 ^ 53 * |1 / p| := FM.fl_rel (Or.inr (by
      rw [abs_div, abs_one]
      apply one_div_le_one_div_of_le hp0
      exact hp'.trans (by norm_num)))
    have h2 : |x * fl (1 / p) - x / p| ≤ 101 / 100 / 2 ^ 53 := by
      have e : x * fl (1 / p) - x / p = x * (fl (1 / p) - 1 / p) := by ring
      have e2 : |x| * |1 / p| = |x / p| := by rw [← abs_mul]; congr 1; ring
      rw [e, abs_mul]
      have := mul_le_mul_of_nonneg_left h1 (abs_nonneg x)
      have e3 : |x| * (101 / 100 / 2 ^ 53 * |1 / p|) = 101 / 100 / 2 ^ 53 * |x / p| := by rw [← e2]; ring
      rw [e3] at this
      norm_num at this ⊢
      linarith
    have h3 := fl_err' (x * fl (1 / p))
    generalize x * fl (1 / p) = y at *
    generalize x / p = q at *
    have h4 : |y| ≤ 3 / 2 := by
      rw [abs_le] at *
      norm_num at *
      constructor <;> linarith
    generalize fl y = z at *
    have h5 := abs_sub_le z y q
    norm_num at *
    linarith
  · have h3 := fl_err' (x / p)
    norm_num at *
    linarith

/-- One step of the elimination. -/
theorem msub_err (k : Lu) {x l u X : ℝ} (hX : 1 ≤ X) (hx : |x| ≤ X) (hlu : |l * u| ≤ 102 / 100 * X) :
    |msubF k x l u - (x - l * u)| ≤ 4 / 2 ^ 53 * X := by
  have ht := FI.tiny_small
  unfold msubF
  split
  · have h3 := fl_err' (x - l * u)
    have := abs_sub x (l * u)
    generalize l * u = y at *
    norm_num at *
    linarith
  · have h1 := fl_err' (l * u)
    generalize l * u = y at *
    generalize fl y = w at *
    have h3 := fl_err' (x - w)
    generalize fl (x - w) = z at *
    have h4 := abs_sub x w
    have h5 : |w| ≤ |y| + |w - y| := by
      have := abs_add_le y (w - y)
      rwa [add_sub_cancel] at this
    have h6 : |z - (x - y)| ≤ |z - (x - w)| + |w - y| := by
      have e : z - (x - y) = (z - (x - w)) - (w - y) := by ring
      rw [e]; exact abs_sub _ _
    norm_num at *
    linarith

/-- The last entry of `U`. -/
theorem last_err (k : Lu) {l3 l c2 : ℝ} (hl3 : |l3| ≤ 101 / 100) (hl : |l| ≤ 101 / 100) (hc : |c2| ≤ 202 / 100) :
    |lastF k 1 l3 1 l c2 - (1 - l3 * 1 - l * c2)| ≤ 16 / 2 ^ 53 := by
  have ht := FI.tiny_small
  have hlc := abs_mul_le hl hc
  unfold lastF
  split
  · have h1 := vdot_err k.dot ⟨l3, l⟩ ⟨1, c2⟩
    dsimp only at h1
    rw [mul_one] at h1 ⊢
    generalize l * c2 = y at *
    generalize vdotF k.dot ⟨l3, l⟩ ⟨1, c2⟩ = w at *
    have h2 := fl_err' (1 - w)
    generalize fl (1 - w) = z at *
    have h3 : |w - (l3 + y)| ≤ 7 / 2 ^ 53 := by
      norm_num at *
      linarith
    have h4 : |1 - w| ≤ 5 := by
      rw [abs_le] at *
      norm_num at *
      constructor <;> linarith
    have h6 : |z - (1 - l3 - y)| ≤ |z - (1 - w)| + |w - (l3 + y)| := by
      have e : z - (1 - l3 - y) = (z - (1 - w)) - (w - (l3 + y)) := by ring
      rw [e]; exact abs_sub _ _
    norm_num at *
    linarith
  · have h1 := msub_err k (x := 1) (l := l3) (u := 1) (X := 1) le_rfl (by norm_num) (by rw [mul_one]; linarith)
    generalize msubF k 1 l3 1 = w at *
    have hw : |w| ≤ 202 / 100 := by
      rw [abs_le] at *
      norm_num at *
      constructor <;> linarith
    have h2 := msub_err k (x := w) (l := l) (u := c2) (X := 202 / 100) (by norm_num) hw (by linarith)
    generalize msubF k w l c2 = z at *
    generalize l * c2 = y at *
    have h6 : |z - (1 - l3 * 1 - y)| ≤ |z - (w - y)| + |w - (1 - l3 * 1)| := by
      have e : z - (1 - l3 * 1 - y) = (z - (w - y)) + (w - (1 - l3 * 1)) := by ring
      rw [e]; exact abs_add_le _ _
    norm_num at *
    linarith

/-- The determinant of three rows that end with one. -/
def det1 (r1 r2 r3 : Row) : ℝ := r1.a * (r2.b - r3.b) - r2.a * (r1.b - r3.b) + r3.a * (r1.b - r2.b)

/-- What the factorisation gives: the product of a diagonal, close to the determinant, or zero. -/
def Factored (lg ex : ℝ → ℝ) (sg d D : ℝ) (δ : ℝ) : Prop :=
  ∃ D', |D' - D| ≤ δ ∧ ((d = 0 ∧ D' = 0) ∨ ∃ x y z, IsDouble x ∧ IsDouble y ∧ IsDouble z ∧ x ≠ 0 ∧ y ≠ 0 ∧ z ≠ 0 ∧
    |x| ≤ 2 ^ 59 ∧ |y| ≤ 2 ^ 59 ∧ |z| ≤ 2 ^ 59 ∧ D' = x * y * z ∧ d = expDet lg ex sg x y z)

theorem isDouble_msub (k : Lu) (x l u : ℝ) : IsDouble (msubF k x l u) := by unfold msubF; split <;> exact fl_isDouble _

theorem isDouble_last (k : Lu) (x l u l' u' : ℝ) : IsDouble (lastF k x l u l' u') := by
  unfold lastF; split
  · exact fl_isDouble _
  · exact isDouble_msub _ _ _ _

/-- The second part of the factorisation. -/
theorem luDet2_err (k : Lu) (lg ex : ℝ → ℝ) (sg : ℝ) {p r s : Row} {l2 l3 b2 b3 Y : ℝ} (hpc : p.c = 1) (hrc : r.c = 1) (hsc : s.c = 1)
    (hp : IsDouble p.a) (hp0 : p.a ≠ 0) (hp' : |p.a| ≤ 2 ^ 59) (hY : 1 ≤ Y) (hY' : Y ≤ 2 ^ 50)
    (hB1 : |p.b| ≤ Y) (hB2 : |r.b| ≤ Y) (hB3 : |s.b| ≤ Y)
    (hb : IsDouble b2)
    (hl2 : |l2| ≤ 1 + 16 / 2 ^ 53) (hl3 : |l3| ≤ 1 + 16 / 2 ^ 53)
    (e2 : |l2 * p.a - r.a| ≤ 16 / 2 ^ 53 * |p.a|) (e3 : |l3 * p.a - s.a| ≤ 16 / 2 ^ 53 * |p.a|)
    (eb2 : |b2 - (r.b - l2 * p.b)| ≤ 16 / 2 ^ 53 * Y) (eb3 : |b3 - (s.b - l3 * p.b)| ≤ 16 / 2 ^ 53 * Y)
    (h32 : |b3| ≤ |b2|) :
    Factored lg ex sg (luDet2 k lg ex sg p l2 l3 b2 b3 r.c s.c) (det1 p r s) (15 * (16 / 2 ^ 53) * (|p.a| * Y)) := by
  unfold luDet2
  rw [hpc, hrc, hsc]
  split
  · next h0 =>
    have h3 : b3 = 0 := by rw [h0, abs_zero] at h32; exact abs_nonpos_iff.1 h32
    refine ⟨0, ?_, Or.inl ⟨rfl, rfl⟩⟩
    have := lu_err (ε := 16 / 2 ^ 53) (c2 := 1 - l2 * 1) (l := 0) (u := 1 - l3 * 1 - 0 * (1 - l2 * 1)) (by norm_num) (by norm_num) (le_refl |p.a|) hB1 hB2 hB3 hl2 hl3
      e2 e3 eb2 eb3 (by norm_num) (by rw [h3]; simp; linarith) (by norm_num)
    rw [h0, mul_zero, zero_mul] at this
    exact this
  · next h0 =>
    have kb2 : |b2| ≤ 202 / 100 * Y := by
      have h1 := abs_add_le (b2 - (r.b - l2 * p.b)) (r.b - l2 * p.b)
      rw [sub_add_cancel] at h1
      have h2 := abs_sub_le' hB2 (abs_mul_le hl2 hB1)
      norm_num at *
      linarith
    have hb59 : |b2| ≤ 2 ^ 59 := by norm_num at *; linarith
    have hq := quo_err k h0 hb59 h32
    have hq1 : |b3 / b2| ≤ 1 := by rw [abs_div, div_le_one (abs_pos.2 h0)]; exact h32
    have el : |quoF k b3 b2 * b2 - b3| ≤ 16 / 2 ^ 53 * Y := by
      have e : quoF k b3 b2 * b2 - b3 = (quoF k b3 b2 - b3 / b2) * b2 := by field_simp
      rw [e]
      have := abs_mul_le hq kb2
      norm_num at *
      linarith
    have hl : |quoF k b3 b2| ≤ 101 / 100 := by
      generalize quoF k b3 b2 = q at *
      generalize b3 / b2 = q' at *
      rw [abs_le] at *
      norm_num at *
      constructor <;> linarith
    have hl2' : |l2| ≤ 101 / 100 := by norm_num at *; linarith
    have hl3' : |l3| ≤ 101 / 100 := by norm_num at *; linarith
    have ec := msub_err k (x := 1) (l := l2) (u := 1) (X := 1) le_rfl (by norm_num) (by rw [mul_one]; linarith)
    have hc : |msubF k 1 l2 1| ≤ 202 / 100 := by
      generalize msubF k 1 l2 1 = w at *
      rw [abs_le] at *
      norm_num at *
      constructor <;> linarith
    have eu := last_err k hl3' hl hc
    have hdl := isDouble_last k 1 l3 1 (quoF k b3 b2) (msubF k 1 l2 1)
    have key := lu_err (ε := 16 / 2 ^ 53) (by norm_num) (by norm_num) (le_refl |p.a|) hB1 hB2 hB3 hl2 hl3
      e2 e3 eb2 eb3 (ec.trans (by norm_num)) el eu
    generalize lastF k 1 l3 1 (quoF k b3 b2) (msubF k 1 l2 1) = u at *
    refine ⟨p.a * b2 * u, key, ?_⟩
    dsimp only
    split
    · next hu => exact Or.inl ⟨rfl, by rw [hu, mul_zero]⟩
    · next hu =>
      refine Or.inr ⟨_, _, _, hp, hb, hdl, hp0, h0, hu, hp', hb59, ?_, rfl, rfl⟩
      have hlc := abs_mul_le hl hc
      generalize quoF k b3 b2 * msubF k 1 l2 1 = w at *
      rw [abs_le] at *
      norm_num at *
      constructor <;> linarith

theorem double_ge {x : ℝ} (hx : IsDouble x) (h0 : x ≠ 0) : (2 : ℝ) ^ (-1074 : ℤ) ≤ |x| := by
  obtain ⟨m, e, he, -, rfl⟩ := hx
  have hm : m ≠ 0 := by rintro rfl; simp at h0
  have hm' : (1 : ℝ) ≤ |(m : ℝ)| := by
    have : 1 ≤ |m| := Int.one_le_abs hm
    exact_mod_cast this
  rw [abs_mul, abs_of_pos (two_zpow_pos e)]
  calc (2 : ℝ) ^ (-1074 : ℤ) ≤ 2 ^ e := zpow_le_zpow_right₀ (by norm_num) he
    _ = 1 * 2 ^ e := (one_mul _).symm
    _ ≤ _ := mul_le_mul_of_nonneg_right hm' (two_zpow_pos e).le

theorem log_bound {x : ℝ} (hx : IsDouble x) (h0 : x ≠ 0) (h : |x| ≤ 2 ^ 59) : -745 ≤ log |x| ∧ log |x| ≤ 41 := by
  have hx0 := abs_pos.2 h0
  have h2 := log_two_lt_d9
  have h3 := log_two_gt_d9
  constructor
  · have h1 := log_le_log (two_zpow_pos _) (double_ge hx h0)
    rw [log_zpow] at h1
    push_cast at h1
    linarith
  · have h1 := log_le_log hx0 h
    rw [log_pow] at h1
    push_cast at h1
    linarith

theorem sum_logs {lx ly lz Lx Ly Lz : ℝ} (hx : |lx - Lx| ≤ |Lx| / 2 ^ 52) (hy : |ly - Ly| ≤ |Ly| / 2 ^ 52) (hz : |lz - Lz| ≤ |Lz| / 2 ^ 52)
    (bx : |Lx| ≤ 745) (by' : |Ly| ≤ 745) (bz : |Lz| ≤ 745) :
    |fl (fl (fl (0 + lx) + ly) + lz) - (Lx + Ly + Lz)| ≤ 9100 / 2 ^ 53 := by
  have ht := FI.tiny_small
  have h1 := fl_err' (0 + lx)
  rw [zero_add] at h1 ⊢
  generalize fl lx = s1 at *
  have h2 := fl_err' (s1 + ly)
  generalize fl (s1 + ly) = s2 at *
  have h3 := fl_err' (s2 + lz)
  generalize fl (s2 + lz) = s3 at *
  have tri : ∀ {x y a b : ℝ}, |x - y| ≤ a → |y| ≤ b → |x| ≤ a + b := fun {x y a b} h h' => by
    have := abs_add_le (x - y) y
    rw [sub_add_cancel] at this
    linarith
  have n1 : |lx - Lx| ≤ 1490 / 2 ^ 53 := by norm_num at *; linarith
  have n2 : |ly - Ly| ≤ 1490 / 2 ^ 53 := by norm_num at *; linarith
  have n3 : |lz - Lz| ≤ 1490 / 2 ^ 53 := by norm_num at *; linarith
  have k1 := tri n1 bx
  have k2 := tri n2 by'
  have k3 := tri n3 bz
  clear hx hy hz bx by' bz
  have m1 : |s1 - lx| ≤ 747 / 2 ^ 53 := by norm_num at *; linarith
  have j1 := tri m1 k1
  have i1 := abs_add_le s1 ly
  have m2 : |s2 - (s1 + ly)| ≤ 1494 / 2 ^ 53 := by norm_num at *; linarith
  have j2 := tri m2 i1
  have i2 := abs_add_le s2 lz
  have m3 : |s3 - (s2 + lz)| ≤ 2241 / 2 ^ 53 := by norm_num at *; linarith
  clear h1 h2 h3 k1 k2 k3 j1 j2 i1 i2
  rw [abs_le] at *
  norm_num at *
  constructor <;> linarith

theorem sign_abs (x : ℝ) : (if x < 0 then -1 else 1) * |x| = x := by
  split
  · next h => rw [abs_of_neg h]; ring
  · next h => rw [abs_of_nonneg (not_lt.1 h)]; ring

/-- The determinant from its logarithm. -/
theorem expDet_err {lg ex : ℝ → ℝ} (hle : IsLogExp lg ex) {sg x y z : ℝ} (hs : |sg| = 1) (hx : IsDouble x) (hy : IsDouble y) (hz : IsDouble z)
    (hx0 : x ≠ 0) (hy0 : y ≠ 0) (hz0 : z ≠ 0) (hx1 : |x| ≤ 2 ^ 59) (hy1 : |y| ≤ 2 ^ 59) (hz1 : |z| ≤ 2 ^ 59) :
    |expDet lg ex sg x y z - sg * (x * y * z)| ≤ |x * y * z| / 2 ^ 38 + 1 / 2 ^ 1000 := by
  have hab : ∀ {x : ℝ}, IsDouble x → IsDouble |x| := fun {x} h => by
    rcases abs_choice x with e | e <;> rw [e]
    · exact h
    · exact isDouble_neg h
  obtain ⟨a1, a2⟩ := log_bound hx hx0 hx1
  obtain ⟨b1, b2⟩ := log_bound hy hy0 hy1
  obtain ⟨c1, c2⟩ := log_bound hz hz0 hz1
  have hsum := sum_logs (hle.log _ (hab hx) (abs_pos.2 hx0)) (hle.log _ (hab hy) (abs_pos.2 hy0)) (hle.log _ (hab hz) (abs_pos.2 hz0))
    (abs_le.2 ⟨a1, by linarith⟩) (abs_le.2 ⟨b1, by linarith⟩) (abs_le.2 ⟨c1, by linarith⟩)
  have e1 : exp (log |x| + log |y| + log |z|) = |x * y * z| := by
    rw [exp_add, exp_add, exp_log (abs_pos.2 hx0), exp_log (abs_pos.2 hy0), exp_log (abs_pos.2 hz0), abs_mul, abs_mul]
  unfold expDet
  generalize fl (fl (fl (0 + lg |x|) + lg |y|) + lg |z|) = s at *
  have hs7 : s ≤ 700 := by
    have := (abs_le.1 hsum).2
    have h53 : (9100 : ℝ) / 2 ^ 53 ≤ 1 := by norm_num
    linarith
  have h1 := hle.exp s hs7
  generalize (1 : ℝ) / 2 ^ 1000 = η at *
  have e2 : exp s = |x * y * z| * exp (s - (log |x| + log |y| + log |z|)) := by rw [← e1, ← exp_add]; congr 1; ring
  have h2 : |exp (s - (log |x| + log |y| + log |z|)) - 1| ≤ 2 * |s - (log |x| + log |y| + log |z|)| :=
    abs_exp_sub_one_le (hsum.trans (by norm_num))
  generalize exp (s - (log |x| + log |y| + log |z|)) = q at *
  generalize |s - (log |x| + log |y| + log |z|)| = d at *
  have e3 : (if z < 0 then -1 else 1) * ((if y < 0 then -1 else 1) * ((if x < 0 then -1 else 1) * sg)) * ex s - sg * (x * y * z) =
      ((if z < 0 then -1 else 1) * (if y < 0 then -1 else 1) * (if x < 0 then -1 else 1) * sg) * (ex s - |x * y * z|) := by
    have hh : sg * (x * y * z) = sg * (((if x < 0 then -1 else 1) * |x|) * ((if y < 0 then -1 else 1) * |y|) * ((if z < 0 then -1 else 1) * |z|)) := by
      rw [sign_abs, sign_abs, sign_abs]
    rw [hh, abs_mul, abs_mul]
    ring
  have hsgn : ∀ t : ℝ, |(if t < 0 then (-1 : ℝ) else 1)| = 1 := fun t => by split <;> simp
  rw [e3, abs_mul, abs_mul, abs_mul, abs_mul, hsgn, hsgn, hsgn, hs]
  simp only [one_mul]
  have hN : 0 ≤ |x * y * z| := abs_nonneg _
  generalize |x * y * z| = N at *
  have h3 : |exp s - N| ≤ N * (18200 / 2 ^ 53) := by
    have e : exp s - N = N * (q - 1) := by rw [e2]; ring
    rw [e, abs_mul, abs_of_nonneg hN]
    apply mul_le_mul_of_nonneg_left _ hN
    norm_num at *
    linarith
  generalize exp s = w at *
  have h4 : w ≤ 2 * N := by
    have := (abs_le.1 h3).2
    norm_num at this
    linarith
  have h5 := abs_sub_le (ex s) w N
  norm_num at *
  linarith

theorem pow_small : (1 : ℝ) / 2 ^ 1000 ≤ 1 / 2 ^ 200 := by
  apply one_div_le_one_div_of_le (by positivity)
  exact pow_le_pow_right₀ (by norm_num) (by norm_num)

theorem factored_err {lg ex : ℝ → ℝ} (hle : IsLogExp lg ex) {sg d D δ N : ℝ} (hs : |sg| = 1) (hN : 1 ≤ N) (hδ : δ ≤ 240 / 2 ^ 53 * N)
    (h : Factored lg ex sg d D δ) : |d - sg * D| ≤ N / 2 ^ 44 + |D| / 2 ^ 38 := by
  obtain ⟨D', h1, h⟩ := h
  have e0 : |sg * D' - sg * D| ≤ δ := by rw [← mul_sub, abs_mul, hs, one_mul]; exact h1
  have hD := abs_nonneg D
  have hD' : |D'| ≤ |D| + δ := by
    have := abs_add_le (D' - D) D
    rw [sub_add_cancel] at this
    linarith
  have key : |d - sg * D'| ≤ |D'| / 2 ^ 38 + 1 / 2 ^ 200 := by
    rcases h with ⟨h2, h3⟩ | ⟨x, y, z, hx, hy, hz, hx0, hy0, hz0, hx1, hy1, hz1, h2, h3⟩
    · rw [h2, h3]
      norm_num
    · rw [h2, h3]
      have := expDet_err hle hs hx hy hz hx0 hy0 hz0 hx1 hy1 hz1
      exact this.trans (by linarith [pow_small])
  have tri := abs_sub_le d (sg * D') (sg * D)
  generalize |d - sg * D'| = a1 at *
  generalize |sg * D' - sg * D| = a2 at *
  generalize |d - sg * D| = a3 at *
  generalize |D'| = a4 at *
  generalize |D| = a5 at *
  norm_num at *
  linarith

/-- The factorisation with the pivot in the first row. -/
theorem luDet_err (k : Lu) {lg ex : ℝ → ℝ} (hle : IsLogExp lg ex) {sg : ℝ} (hs : |sg| = 1) {p r s : Row} {Q Y : ℝ} (hpc : p.c = 1) (hrc : r.c = 1) (hsc : s.c = 1)
    (hp : IsDouble p.a) (hQ : 1 ≤ Q) (hQ' : Q ≤ 2 ^ 59) (hpQ : |p.a| ≤ Q) (hY : 1 ≤ Y) (hY' : Y ≤ 2 ^ 50)
    (hB1 : |p.b| ≤ Y) (hB2 : |r.b| ≤ Y) (hB3 : |s.b| ≤ Y) (hr : |r.a| ≤ |p.a|) (hs' : |s.a| ≤ |p.a|) :
    |luDet k lg ex sg p r s - sg * det1 p r s| ≤ Q * Y / 2 ^ 44 + |det1 p r s| / 2 ^ 38 := by
  have hQY : 1 ≤ Q * Y := one_le_mul_of_one_le_of_one_le hQ hY
  unfold luDet
  split
  · next h0 =>
    have h1 : r.a = 0 := by rw [h0, abs_zero] at hr; exact abs_nonpos_iff.1 hr
    have h2 : s.a = 0 := by rw [h0, abs_zero] at hs'; exact abs_nonpos_iff.1 hs'
    have : det1 p r s = 0 := by unfold det1; rw [h0, h1, h2]; ring
    rw [this]
    simp
    positivity
  · next h0 =>
    dsimp only
    have hp' : |p.a| ≤ 2 ^ 59 := hpQ.trans hQ'
    have hδ : 15 * (16 / 2 ^ 53) * (|p.a| * Y) ≤ 240 / 2 ^ 53 * (Q * Y) := by
      have := mul_le_mul_of_nonneg_right hpQ (by linarith : 0 ≤ Y)
      norm_num
      linarith
    have step : ∀ {r : Row}, |r.a| ≤ |p.a| → |r.b| ≤ Y → |quoF k r.a p.a| ≤ 1 + 16 / 2 ^ 53 ∧
        |quoF k r.a p.a * p.a - r.a| ≤ 16 / 2 ^ 53 * |p.a| ∧
        |msubF k r.b (quoF k r.a p.a) p.b - (r.b - quoF k r.a p.a * p.b)| ≤ 16 / 2 ^ 53 * Y := by
      intro r hr hb
      have hq := quo_err k h0 hp' hr
      have hq1 : |r.a / p.a| ≤ 1 := by rw [abs_div, div_le_one (abs_pos.2 h0)]; exact hr
      have e : quoF k r.a p.a * p.a - r.a = (quoF k r.a p.a - r.a / p.a) * p.a := by field_simp
      have hl : |quoF k r.a p.a| ≤ 1 + 3 / 2 ^ 53 := by
        have := abs_add_le (quoF k r.a p.a - r.a / p.a) (r.a / p.a)
        rw [sub_add_cancel] at this
        linarith
      refine ⟨hl.trans (by norm_num), ?_, ?_⟩
      · rw [e, abs_mul]
        apply mul_le_mul_of_nonneg_right _ (abs_nonneg _)
        exact hq.trans (by norm_num)
      · have h2 := abs_mul_le hl hB1
        refine (msub_err k hY hb (h2.trans ?_)).trans ?_
        · norm_num; linarith
        · norm_num; linarith
    obtain ⟨l2, e2, b2⟩ := step hr hB2
    obtain ⟨l3, e3, b3⟩ := step hs' hB3
    split
    · next h =>
      exact factored_err hle hs hQY hδ (luDet2_err k lg ex sg hpc hrc hsc hp h0 hp' hY hY' hB1 hB2 hB3 (isDouble_msub _ _ _ _) l2 l3 e2 e3 b2 b3 h)
    · next h =>
      have := factored_err hle (sg := -sg) (by rw [abs_neg]; exact hs) hQY hδ
        (luDet2_err k lg ex (-sg) hpc hsc hrc hp h0 hp' hY hY' hB1 hB3 hB2 (isDouble_msub _ _ _ _) l3 l2 e3 e2 b3 b2 (not_le.1 h).le)
      have e : det1 p s r = -det1 p r s := by unfold det1; ring
      rw [e, abs_neg, neg_mul_neg] at this
      exact this

/-- The error of `np.linalg.det`. -/
theorem det_err (k : Lu) {lg ex : ℝ → ℝ} (hle : IsLogExp lg ex) {r1 r2 r3 : Row} {Q Y : ℝ} (h1c : r1.c = 1) (h2c : r2.c = 1) (h3c : r3.c = 1)
    (h1 : IsDouble r1.a) (h2 : IsDouble r2.a) (h3 : IsDouble r3.a) (hQ : 1 ≤ Q) (hQ' : Q ≤ 2 ^ 59) (hY : 1 ≤ Y) (hY' : Y ≤ 2 ^ 50)
    (q1 : |r1.a| ≤ Q) (q2 : |r2.a| ≤ Q) (q3 : |r3.a| ≤ Q) (y1 : |r1.b| ≤ Y) (y2 : |r2.b| ≤ Y) (y3 : |r3.b| ≤ Y) :
    |detF k lg ex r1 r2 r3 - det1 r1 r2 r3| ≤ Q * Y / 2 ^ 44 + |det1 r1 r2 r3| / 2 ^ 38 := by
  unfold detF
  split
  · next h =>
    have := luDet_err k hle (sg := 1) (by norm_num) h1c h2c h3c h1 hQ hQ' q1 hY hY' y1 y2 y3 h.1 h.2
    rwa [one_mul] at this
  · next h =>
    split
    · next h' =>
      have h12 : |r1.a| ≤ |r2.a| := by
        by_contra hh
        push Not at hh
        exact h ⟨hh.le, h'.trans hh.le⟩
      have := luDet_err k hle (sg := -1) (by norm_num) h2c h1c h3c h2 hQ hQ' q2 hY hY' y2 y1 y3 h12 h'
      have e : det1 r2 r1 r3 = -det1 r1 r2 r3 := by unfold det1; ring
      rwa [e, abs_neg, neg_mul_neg, one_mul] at this
    · next h' =>
      push Not at h'
      have h13 : |r1.a| ≤ |r3.a| := by
        by_contra hh
        push Not at hh
        exact h ⟨(h'.trans hh).le, hh.le⟩
      have := luDet_err k hle (sg := -1) (by norm_num) h3c h2c h1c h3 hQ hQ' q3 hY hY' y3 y2 y1 h'.le h13
      have e : det1 r3 r2 r1 = -det1 r1 r2 r3 := by unfold det1; ring
      rwa [e, abs_neg, neg_mul_neg, one_mul] at this

/-- A coordinate of the center. -/
theorem half_quot {N' N D' D α β : ℝ} (hD : 1 ≤ |D|) (hα : 1 / 2 ^ 60 ≤ α / |D|) (hβ : 0 ≤ β) (hβ' : β ≤ 1 / 1000)
    (hN : |N' - N| ≤ α + |N| / 2 ^ 38) (hDD : |D' - D| ≤ β + |D| / 2 ^ 38) :
    D' ≠ 0 ∧ |fl (fl (N' / D') / 2) - N / D / 2| ≤ α / |D| + 2 * |N / D / 2| * β / |D| + |N / D / 2| / 2 ^ 36 := by
  have ht := FI.tiny_small
  have hD0 : D ≠ 0 := by rintro rfl; rw [abs_zero] at hD; linarith
  have hDp : 0 < |D| := by linarith
  have hD' : 99 / 100 * |D| ≤ |D'| := by
    have := abs_sub_abs_le_abs_sub D D'
    rw [abs_sub_comm] at this
    generalize |D' - D| = t at *
    generalize |D| = d at *
    norm_num at *
    linarith
  have hD'0 : D' ≠ 0 := by rintro rfl; rw [abs_zero] at hD'; linarith
  refine ⟨hD'0, ?_⟩
  obtain ⟨c, hc⟩ : ∃ c, c = N / D / 2 := ⟨_, rfl⟩
  have eN : N = 2 * c * D := by rw [hc]; field_simp
  have hc0 := abs_nonneg c
  rw [← hc]
  -- the quotient
  have hq : |N' / D' - 2 * c| ≤ 102 / 100 * (α / |D| + 4 * |c| / 2 ^ 38 + 2 * |c| * β / |D|) := by
    have e : N' / D' - 2 * c = ((N' - N) - 2 * c * (D' - D)) / D' := by rw [eN]; field_simp; ring
    rw [e, abs_div, div_le_iff₀ (abs_pos.2 hD'0)]
    have h1 : |(N' - N) - 2 * c * (D' - D)| ≤ (α + |N| / 2 ^ 38) + 2 * |c| * (β + |D| / 2 ^ 38) := by
      refine abs_sub_le' hN ?_
      refine abs_mul_le ?_ hDD
      rw [abs_mul]; norm_num
    have h2 : |N| = 2 * |c| * |D| := by rw [eN, abs_mul, abs_mul]; norm_num
    rw [h2] at h1
    have h3 : (α + 2 * |c| * |D| / 2 ^ 38) + 2 * |c| * (β + |D| / 2 ^ 38) = (α / |D| + 4 * |c| / 2 ^ 38 + 2 * |c| * β / |D|) * |D| := by
      field_simp; ring
    rw [h3] at h1
    have hpos : 0 ≤ α / |D| + 4 * |c| / 2 ^ 38 + 2 * |c| * β / |D| := by
      have : 0 ≤ α / |D| := le_trans (by positivity) hα
      positivity
    refine h1.trans ?_
    generalize α / |D| + 4 * |c| / 2 ^ 38 + 2 * |c| * β / |D| = w at *
    have := mul_le_mul_of_nonneg_left hD' hpos
    have h5 := mul_nonneg hpos hDp.le
    nlinarith
  have h1 := fl_err' (N' / D')
  generalize N' / D' = q at *
  generalize fl q = q1 at *
  have h2 := fl_err' (q1 / 2)
  generalize fl (q1 / 2) = q2 at *
  have hb : 0 ≤ 2 * |c| * β / |D| := by positivity
  generalize α / |D| = a at *
  generalize 2 * |c| * β / |D| = b at *
  have t1 : |q| ≤ |q - 2 * c| + 2 * |c| := by
    have := abs_add_le (q - 2 * c) (2 * c)
    rw [sub_add_cancel, abs_mul, abs_two] at this
    exact this
  have t2 : |q1 / 2| ≤ (|q| + |q1 - q|) / 2 := by
    rw [abs_div, abs_two]
    have := abs_add_le (q1 - q) q
    rw [sub_add_cancel] at this
    linarith
  have t3 : |q2 - c| ≤ |q2 - q1 / 2| + |q1 - q| / 2 + |q - 2 * c| / 2 := by
    have e : q2 - c = (q2 - q1 / 2) + (q1 - q) / 2 + (q - 2 * c) / 2 := by ring
    rw [e]
    refine (abs_add_le _ _).trans (add_le_add ((abs_add_le _ _).trans (add_le_add le_rfl ?_)) ?_) <;> rw [abs_div, abs_two]
  generalize |q2 - c| = x1 at *
  generalize |q2 - q1 / 2| = x2 at *
  generalize |q1 - q| = x3 at *
  generalize |q - 2 * c| = x4 at *
  generalize |q1 / 2| = x5 at *
  generalize |q| = x6 at *
  generalize |c| = x7 at *
  norm_num at *
  linarith

theorem abs_le_dist (P Q : Pt) : |P.x - Q.x| ≤ Spec.dist P Q ∧ |P.y - Q.y| ≤ Spec.dist P Q ∧ Spec.dist P Q ≤ |P.x - Q.x| + |P.y - Q.y| := by
  have h : Spec.dist P Q ^ 2 = sqDist P Q := ((dist_eq_iff (dist_nonneg P Q)).1 rfl).symm
  have h0 := dist_nonneg P Q
  unfold sqDist at h
  refine ⟨?_, ?_, ?_⟩
  · exact abs_le_of_sq_le_sq (by nlinarith [sq_nonneg (P.y - Q.y)]) h0
  · exact abs_le_of_sq_le_sq (by nlinarith [sq_nonneg (P.x - Q.x)]) h0
  · apply le_of_sq_le_sq _ (by positivity)
    have e : (|P.x - Q.x| + |P.y - Q.y|) ^ 2 = (P.x - Q.x) ^ 2 + (P.y - Q.y) ^ 2 + 2 * (|P.x - Q.x| * |P.y - Q.y|) := by
      rw [add_sq, sq_abs, sq_abs]; ring
    rw [e, h]
    have : 0 ≤ |P.x - Q.x| * |P.y - Q.y| := by positivity
    nlinarith

theorem grid_of_int {B : ℕ} (hB : B ≤ 2 ^ 11) {P : Pt} (h : IntPt B P) : Grid (2 ^ 11) P := by
  obtain ⟨⟨m, hm, hm'⟩, n, hn, hn'⟩ := h
  have : (B : ℤ) ≤ 2 ^ 11 := by exact_mod_cast hB
  exact ⟨m, n, by linarith, by linarith, Pt.ext hm hn⟩

end FCirc

/-- C130: flat triangles are recognised, for integer coordinates of absolute value at most 2048. -/
theorem C130_flat (v : Fma) (k : Lu) (lg ex : ℝ → ℝ) (T : Triangle) (hA : IntPt (2 ^ 11) T.A) (hB : IntPt (2 ^ 11) T.B) (hC : IntPt (2 ^ 11) T.C)
    (hAB : T.A ≠ T.B) (hAC : T.A ≠ T.C) (h : Collinear T.A T.B T.C) : T.circumcircleF v k lg ex = .ok none := by
  have := (C90_grid T.A T.B T.C (FCirc.grid_of_int le_rfl hA) (FCirc.grid_of_int le_rfl hB) (FCirc.grid_of_int le_rfl hC) hAB hAC).2 h
  unfold Triangle.circumcircleF
  rw [this]
  simp

set_option maxHeartbeats 1000000 in
/-- C130: the circumscribed circle of a triangle with integer coordinates of absolute value at most `B ≤ 1024` is returned whenever the triangle is not flat,
with an explicit bound on the errors, `S` being twice the area of the triangle.  The bound holds for every build of LAPACK (`k`), with and without fused
operations (`v`), and for every logarithm and exponential with errors of at most one unit in the last place. -/
theorem C130_circumcircle (v : Fma) (k : Lu) {lg ex : ℝ → ℝ} (hle : IsLogExp lg ex) (T : Triangle) {B : ℕ} (hB : B ≤ 1024)
    (hA : IntPt B T.A) (hB' : IntPt B T.B) (hC : IntPt B T.C) (h : ¬ Collinear T.A T.B T.C) :
    ∃ (O : Pt) (R S : ℝ), 0 < R ∧ OnCircle O R T.A ∧ OnCircle O R T.B ∧ OnCircle O R T.C ∧ S = |cross (T.B - T.A) (T.C - T.A)| ∧
      ∃ c, T.circumcircleF v k lg ex = .ok (some c) ∧
        |c.center.x - O.x| ≤ (B ^ 3 + B ^ 2 * |O.x|) / 2 ^ 43 / S + |O.x| / 2 ^ 36 ∧
        |c.center.y - O.y| ≤ (B ^ 3 + B ^ 2 * |O.y|) / 2 ^ 43 / S + |O.y| / 2 ^ 36 ∧
        |c.radius - R| ≤ (2 * B ^ 3 + B ^ 2 * (|O.x| + |O.y|)) / 2 ^ 43 / S + (|O.x| + |O.y|) / 2 ^ 36 + R / 2 ^ 50 := by
  have hAB : T.A ≠ T.B := by
    intro e; apply h; unfold Spec.Collinear cross; rw [e]; simp
  have hAC : T.A ≠ T.C := by
    intro e; apply h; unfold Spec.Collinear cross; rw [e]; simp
  have hB0 : 1 ≤ B := by
    by_contra hb
    have hb : B = 0 := by omega
    subst hb
    apply hAB
    have z : ∀ {P : Pt}, IntPt 0 P → P = ⟨0, 0⟩ := fun {P} hP => by
      have h1 := FI.abs_le hP.1
      have h2 := FI.abs_le hP.2
      push_cast at h1 h2
      exact Pt.ext (abs_nonpos_iff.1 h1) (abs_nonpos_iff.1 h2)
    rw [z hA, z hB']
  have hBr : (1 : ℝ) ≤ B := by exact_mod_cast hB0
  have hBr' : (B : ℝ) ≤ 1024 := by exact_mod_cast hB
  have hB2 : (B : ℝ) ^ 2 ≤ 1024 ^ 2 := pow_le_pow_left₀ (by linarith) hBr' 2
  have hB2' : (1 : ℝ) ≤ B ^ 2 := one_le_pow₀ hBr
  -- the squares
  have sq : ∀ {P : Pt}, IntPt B P → vdotF v P P = P.x ^ 2 + P.y ^ 2 ∧ IsDouble (P.x ^ 2 + P.y ^ 2) ∧ |P.x ^ 2 + P.y ^ 2| ≤ 2 * B ^ 2 := by
    intro P hP
    have hs : B * B + B * B ≤ 2 ^ 53 := by nlinarith
    have e : P.x ^ 2 + P.y ^ 2 = P.x * P.x + P.y * P.y := by ring
    have hi := FI.add (FI.mul hP.1 hP.1) (FI.mul hP.2 hP.2)
    rw [e]
    refine ⟨FI.vdot v hP hP hs, FI.isDouble hi hs, ?_⟩
    have := FI.abs_le hi
    push_cast at this
    linarith
  have dbl : ∀ {x : ℝ}, IntB B x → IsDouble x := fun hx => FI.isDouble hx (by omega)
  obtain ⟨a1, a2, a3⟩ := sq hA
  obtain ⟨b1, b2, b3⟩ := sq hB'
  obtain ⟨c1, c2, c3⟩ := sq hC
  have hQ2 : (1 : ℝ) ≤ 2 * B ^ 2 := by linarith
  have hQ2' : (2 : ℝ) * B ^ 2 ≤ 2 ^ 59 := by norm_num at hB2 ⊢; linarith
  have hB59 : (B : ℝ) ≤ 2 ^ 59 := by norm_num; linarith
  have hB50 : (B : ℝ) ≤ 2 ^ 50 := by norm_num; linarith
  have ex' := FCirc.det_err k hle (r1 := ⟨T.A.x ^ 2 + T.A.y ^ 2, T.A.y, 1⟩) (r2 := ⟨T.B.x ^ 2 + T.B.y ^ 2, T.B.y, 1⟩) (r3 := ⟨T.C.x ^ 2 + T.C.y ^ 2, T.C.y, 1⟩)
    rfl rfl rfl a2 b2 c2 hQ2 hQ2' hBr hB50 a3 b3 c3 (FI.abs_le hA.2) (FI.abs_le hB'.2) (FI.abs_le hC.2)
  have ey := FCirc.det_err k hle (r1 := ⟨T.A.x ^ 2 + T.A.y ^ 2, T.A.x, 1⟩) (r2 := ⟨T.B.x ^ 2 + T.B.y ^ 2, T.B.x, 1⟩) (r3 := ⟨T.C.x ^ 2 + T.C.y ^ 2, T.C.x, 1⟩)
    rfl rfl rfl a2 b2 c2 hQ2 hQ2' hBr hB50 a3 b3 c3 (FI.abs_le hA.1) (FI.abs_le hB'.1) (FI.abs_le hC.1)
  have ez := FCirc.det_err k hle (r1 := ⟨T.A.x, T.A.y, 1⟩) (r2 := ⟨T.B.x, T.B.y, 1⟩) (r3 := ⟨T.C.x, T.C.y, 1⟩)
    rfl rfl rfl (dbl hA.1) (dbl hB'.1) (dbl hC.1) hBr hB59 hBr hB50 (FI.abs_le hA.1) (FI.abs_le hB'.1) (FI.abs_le hC.1)
    (FI.abs_le hA.2) (FI.abs_le hB'.2) (FI.abs_le hC.2)
  -- the determinants
  have hD : FCirc.det1 ⟨T.A.x, T.A.y, 1⟩ ⟨T.B.x, T.B.y, 1⟩ ⟨T.C.x, T.C.y, 1⟩ = cross (T.B - T.A) (T.C - T.A) := by
    unfold FCirc.det1 cross; simp only [Pt.sub_x, Pt.sub_y]; ring
  have hS0 : cross (T.B - T.A) (T.C - T.A) ≠ 0 := h
  have hint : IntB ((B + B) * (B + B) + (B + B) * (B + B)) (cross (T.B - T.A) (T.C - T.A)) :=
    FI.sub (FI.mul (FI.sub hB'.1 hA.1) (FI.sub hC.2 hA.2)) (FI.mul (FI.sub hB'.2 hA.2) (FI.sub hC.1 hA.1))
  have hS1 : 1 ≤ |cross (T.B - T.A) (T.C - T.A)| := FI.one_le_abs hint hS0
  have hS8 : |cross (T.B - T.A) (T.C - T.A)| ≤ 8 * B ^ 2 := by
    have := FI.abs_le hint
    push_cast at this
    linarith
  obtain ⟨D, hDe⟩ : ∃ D, D = cross (T.B - T.A) (T.C - T.A) := ⟨_, rfl⟩
  obtain ⟨Nx, hNx⟩ : ∃ N, N = FCirc.det1 ⟨T.A.x ^ 2 + T.A.y ^ 2, T.A.y, 1⟩ ⟨T.B.x ^ 2 + T.B.y ^ 2, T.B.y, 1⟩ ⟨T.C.x ^ 2 + T.C.y ^ 2, T.C.y, 1⟩ := ⟨_, rfl⟩
  obtain ⟨Ny, hNy⟩ : ∃ N, N = FCirc.det1 ⟨T.A.x ^ 2 + T.A.y ^ 2, T.A.x, 1⟩ ⟨T.B.x ^ 2 + T.B.y ^ 2, T.B.x, 1⟩ ⟨T.C.x ^ 2 + T.C.y ^ 2, T.C.x, 1⟩ := ⟨_, rfl⟩
  rw [hD] at ez
  rw [← hDe] at ez hS0 hS1 hS8 ⊢
  rw [← hNx] at ex'
  rw [← hNy] at ey
  -- the exact circle
  obtain ⟨O, hO⟩ : ∃ O : Pt, O = ⟨Nx / D / 2, -Ny / D / 2⟩ := ⟨_, rfl⟩
  have heq : sqDist T.B O = sqDist T.A O ∧ sqDist T.C O = sqDist T.A O := by
    have hc : D = (T.B.x - T.A.x) * (T.C.y - T.A.y) - (T.B.y - T.A.y) * (T.C.x - T.A.x) := by rw [hDe]; rfl
    rw [hO]
    unfold sqDist
    dsimp only
    have k1 : Nx / D / 2 * (2 * D) = Nx := by field_simp
    have k2 : -Ny / D / 2 * (2 * D) = -Ny := by field_simp
    generalize Nx / D / 2 = u at *
    generalize -Ny / D / 2 = w at *
    unfold FCirc.det1 at hNx hNy
    dsimp only at hNx hNy
    constructor <;> apply mul_left_cancel₀ hS0
    · rw [hNx] at k1
      rw [hNy] at k2
      rw [hc] at k1 k2 ⊢
      linear_combination (T.A.x - T.B.x) * k1 + (T.A.y - T.B.y) * k2
    · rw [hNx] at k1
      rw [hNy] at k2
      rw [hc] at k1 k2 ⊢
      linear_combination (T.A.x - T.C.x) * k1 + (T.A.y - T.C.y) * k2
  obtain ⟨R, hR⟩ : ∃ R, R = Spec.dist O T.A := ⟨_, rfl⟩
  have hRn : 0 ≤ R := by rw [hR]; exact dist_nonneg _ _
  have hRA : sqDist T.A O = R ^ 2 := by rw [hR, sqDist_comm]; exact (dist_eq_iff (dist_nonneg _ _)).1 rfl
  have hRh : 1 / 2 ≤ R := by
    have hne : 1 ≤ sqDist T.A T.B := by
      have hi : IntB ((B + B) * (B + B) + (B + B) * (B + B)) (sqDist T.A T.B) := by
        have := FI.add (FI.mul (FI.sub hB'.1 hA.1) (FI.sub hB'.1 hA.1)) (FI.mul (FI.sub hB'.2 hA.2) (FI.sub hB'.2 hA.2))
        have e : sqDist T.A T.B = (T.B.x - T.A.x) * (T.B.x - T.A.x) + (T.B.y - T.A.y) * (T.B.y - T.A.y) := by unfold sqDist; ring
        rwa [e]
      refine FI.one_le hi ((sqDist_nonneg _ _).lt_of_ne fun e => hAB ?_)
      unfold sqDist at e
      exact Pt.ext (by nlinarith [sq_nonneg (T.B.x - T.A.x), sq_nonneg (T.B.y - T.A.y)]) (by nlinarith [sq_nonneg (T.B.x - T.A.x), sq_nonneg (T.B.y - T.A.y)])
    have h1 : 1 ≤ Spec.dist T.A T.B := by
      unfold Spec.dist; exact Real.one_le_sqrt.2 hne
    have h2 := specDist_triangle T.A O T.B
    have h3 : Spec.dist T.A O = R := (dist_eq_iff hRn).2 hRA
    have h4 : Spec.dist O T.B = R := (dist_eq_iff hRn).2 (by rw [sqDist_comm, heq.1, hRA])
    linarith
  -- the errors
  have hα : (1 : ℝ) / 2 ^ 60 ≤ 2 * B ^ 2 * B / 2 ^ 44 / |D| := by
    rw [le_div_iff₀ (by linarith)]
    have : (B : ℝ) ^ 2 ≤ B ^ 2 * B := by nlinarith
    norm_num at *
    linarith
  have hβ : (0 : ℝ) ≤ B * B / 2 ^ 44 := by positivity
  have hβ' : (B : ℝ) * B / 2 ^ 44 ≤ 1 / 1000 := by norm_num; nlinarith
  obtain ⟨hz, fx⟩ := FCirc.half_quot hS1 hα hβ hβ' ex' ez
  have ey' : ∀ d, |d - Ny| ≤ 2 * B ^ 2 * B / 2 ^ 44 + |Ny| / 2 ^ 38 → |-d - -Ny| ≤ 2 * B ^ 2 * B / 2 ^ 44 + |-Ny| / 2 ^ 38 := fun d hd => by
    rw [abs_neg, show -d - -Ny = -(d - Ny) by ring, abs_neg]; exact hd
  obtain ⟨-, fy⟩ := FCirc.half_quot hS1 hα hβ hβ' (ey' _ ey) ez
  have gx : |fl (fl (detF k lg ex ⟨T.A.x ^ 2 + T.A.y ^ 2, T.A.y, 1⟩ ⟨T.B.x ^ 2 + T.B.y ^ 2, T.B.y, 1⟩ ⟨T.C.x ^ 2 + T.C.y ^ 2, T.C.y, 1⟩ /
      detF k lg ex ⟨T.A.x, T.A.y, 1⟩ ⟨T.B.x, T.B.y, 1⟩ ⟨T.C.x, T.C.y, 1⟩) / 2) - O.x| ≤ (B ^ 3 + B ^ 2 * |O.x|) / 2 ^ 43 / |D| + |O.x| / 2 ^ 36 := by
    rw [hO]
    refine fx.trans (le_of_eq ?_)
    ring
  have gy : |fl (fl (-detF k lg ex ⟨T.A.x ^ 2 + T.A.y ^ 2, T.A.x, 1⟩ ⟨T.B.x ^ 2 + T.B.y ^ 2, T.B.x, 1⟩ ⟨T.C.x ^ 2 + T.C.y ^ 2, T.C.x, 1⟩ /
      detF k lg ex ⟨T.A.x, T.A.y, 1⟩ ⟨T.B.x, T.B.y, 1⟩ ⟨T.C.x, T.C.y, 1⟩) / 2) - O.y| ≤ (B ^ 3 + B ^ 2 * |O.y|) / 2 ^ 43 / |D| + |O.y| / 2 ^ 36 := by
    rw [hO]
    refine fy.trans (le_of_eq ?_)
    ring
  -- the flatness
  have g11 : ∀ {P : Pt}, IntPt B P → Grid (2 ^ 11) P := fun hP => FCirc.grid_of_int (by omega) hP
  have hnf : flatF T.A T.B T.C ≠ some 1 := fun e => h ((C90_grid T.A T.B T.C (g11 hA) (g11 hB') (g11 hC) hAB hAC).1 e)
  have hsome : ∃ f, flatF T.A T.B T.C = some f := by
    obtain ⟨u1, u2⟩ := FI.subPt hB' hA (by omega)
    obtain ⟨w1, w2⟩ := FI.subPt hC hA (by omega)
    have hb : (B + B) * (B + B) + (B + B) * (B + B) ≤ 2 ^ 53 := by nlinarith
    have him : imF (T.B - T.A) (T.C - T.A) = D := by
      unfold imF
      rw [FI.fl (FI.mul u2.1 w2.2) (by omega), FI.fl (FI.mul (FI.neg u2.2) w2.1) (by omega),
        FI.fl (FI.add (FI.mul u2.1 w2.2) (FI.mul (FI.neg u2.2) w2.1)) hb, hDe]
      unfold cross
      ring
    have h1 : (1 : ℝ) ≤ fl (D * D) := by
      have : (1 : ℝ) ≤ D * D := by rw [← abs_mul_abs_self]; nlinarith
      have := fl_mono this
      rwa [fl_double isDouble_one] at this
    have h2 : 0 ≤ fl (reF (T.B - T.A) (T.C - T.A) * reF (T.B - T.A) (T.C - T.A)) := fl_nonneg (mul_self_nonneg _)
    have h3 := fl_mono (show (1 : ℝ) ≤ fl (reF (T.B - T.A) (T.C - T.A) * reF (T.B - T.A) (T.C - T.A)) + fl (D * D) by linarith)
    rw [fl_double isDouble_one] at h3
    unfold flatF
    dsimp only
    rw [u1, w1, him, if_neg (by linarith)]
    exact ⟨_, rfl⟩
  obtain ⟨f, hf⟩ := hsome
  have hf1 : f ≠ 1 := by rintro rfl; exact hnf hf
  obtain ⟨x', hx'⟩ : ∃ x', x' = fl (fl (detF k lg ex ⟨T.A.x ^ 2 + T.A.y ^ 2, T.A.y, 1⟩ ⟨T.B.x ^ 2 + T.B.y ^ 2, T.B.y, 1⟩ ⟨T.C.x ^ 2 + T.C.y ^ 2, T.C.y, 1⟩ /
      detF k lg ex ⟨T.A.x, T.A.y, 1⟩ ⟨T.B.x, T.B.y, 1⟩ ⟨T.C.x, T.C.y, 1⟩) / 2) := ⟨_, rfl⟩
  obtain ⟨y', hy'⟩ : ∃ y', y' = fl (fl (-detF k lg ex ⟨T.A.x ^ 2 + T.A.y ^ 2, T.A.x, 1⟩ ⟨T.B.x ^ 2 + T.B.y ^ 2, T.B.x, 1⟩ ⟨T.C.x ^ 2 + T.C.y ^ 2, T.C.x, 1⟩ /
      detF k lg ex ⟨T.A.x, T.A.y, 1⟩ ⟨T.B.x, T.B.y, 1⟩ ⟨T.C.x, T.C.y, 1⟩) / 2) := ⟨_, rfl⟩
  have dx : IsDouble x' := by rw [hx']; exact fl_isDouble _
  have dy : IsDouble y' := by rw [hy']; exact fl_isDouble _
  rw [← hx'] at gx
  rw [← hy'] at gy
  -- the radius
  have hr := C88_distance_error v ⟨x', y'⟩ T.A ⟨dx, dy⟩ ⟨dbl hA.1, dbl hA.2⟩
  have hdd : |Spec.dist ⟨x', y'⟩ T.A - R| ≤ |x' - O.x| + |y' - O.y| := by
    have t1 := specDist_triangle ⟨x', y'⟩ O T.A
    have t2 := specDist_triangle O ⟨x', y'⟩ T.A
    have t3 := (FCirc.abs_le_dist ⟨x', y'⟩ O).2.2
    dsimp only at t3
    rw [specDist_comm O ⟨x', y'⟩] at t2
    rw [abs_le, hR]
    constructor <;> linarith
  have hE : |x' - O.x| + |y' - O.y| ≤ (2 * B ^ 3 + B ^ 2 * (|O.x| + |O.y|)) / 2 ^ 43 / |D| + (|O.x| + |O.y|) / 2 ^ 36 := by
    refine (add_le_add gx gy).trans (le_of_eq ?_)
    ring
  have hEs : (2 * B ^ 3 + B ^ 2 * (|O.x| + |O.y|)) / 2 ^ 43 / |D| + (|O.x| + |O.y|) / 2 ^ 36 ≤ R / 4 := by
    have p1 : |O.x| + |O.y| ≤ 2048 + 2 * R := by
      have q := FCirc.abs_le_dist O T.A
      rw [← hR] at q
      have q1 := abs_sub_abs_le_abs_sub O.x T.A.x
      have q2 := abs_sub_abs_le_abs_sub O.y T.A.y
      have q3 := FI.abs_le hA.1
      have q4 := FI.abs_le hA.2
      linarith [q.1, q.2.1]
    have p0 : 0 ≤ |O.x| + |O.y| := by positivity
    generalize |O.x| + |O.y| = o at *
    have p2 : (B : ℝ) ^ 2 * o ≤ 1024 ^ 2 * (2048 + 2 * R) := mul_le_mul hB2 p1 p0 (by norm_num)
    have p3 : (B : ℝ) ^ 3 ≤ 1024 ^ 3 := pow_le_pow_left₀ (by linarith) hBr' 3
    have p4 : (2 * B ^ 3 + B ^ 2 * o) / 2 ^ 43 / |D| ≤ (2 * B ^ 3 + B ^ 2 * o) / 2 ^ 43 := div_le_self (by positivity) hS1
    have p5 : (2 * B ^ 3 + B ^ 2 * o) / 2 ^ 43 ≤ (2 * 1024 ^ 3 + 1024 ^ 2 * (2048 + 2 * R)) / 2 ^ 43 := by gcongr; 
    have p6 : (2 * 1024 ^ 3 + 1024 ^ 2 * (2048 + 2 * R)) / 2 ^ 43 + (2048 + 2 * R) / 2 ^ 36 ≤ R / 4 := by
      norm_num
      linarith
    have p7 : o / 2 ^ 36 ≤ (2048 + 2 * R) / 2 ^ 36 := by gcongr
    linarith
  have hsm : (2 : ℝ) ^ (-535 : ℤ) ≤ 1 / 2 ^ 100 := by
    calc (2 : ℝ) ^ (-535 : ℤ) ≤ 2 ^ (-100 : ℤ) := zpow_le_zpow_right₀ (by norm_num) (by norm_num)
      _ = 1 / 2 ^ 100 := by norm_num
  have hrad : |distanceF v ⟨x', y'⟩ T.A - R| ≤ (2 * B ^ 3 + B ^ 2 * (|O.x| + |O.y|)) / 2 ^ 43 / |D| + (|O.x| + |O.y|) / 2 ^ 36 + R / 2 ^ 50 := by
    generalize (2 * B ^ 3 + B ^ 2 * (|O.x| + |O.y|)) / 2 ^ 43 / |D| + (|O.x| + |O.y|) / 2 ^ 36 = E at *
    generalize |x' - O.x| + |y' - O.y| = E' at *
    generalize distanceF v ⟨x', y'⟩ T.A = r at *
    have tri := abs_sub_le r (Spec.dist ⟨x', y'⟩ T.A) R
    have hd2 := (abs_le.1 hdd).2
    generalize Spec.dist ⟨x', y'⟩ T.A = d at *
    generalize (2 : ℝ) ^ (-535 : ℤ) = t at *
    norm_num at *
    linarith
  have hpos : 0 < distanceF v ⟨x', y'⟩ T.A := by
    have := (abs_le.1 hrad).1
    norm_num at this hEs
    linarith
  refine ⟨O, R, |D|, by linarith, hRA, heq.1.trans hRA, heq.2.trans hRA, rfl, ⟨⟨x', y'⟩, distanceF v ⟨x', y'⟩ T.A⟩, ?_, gx, gy, hrad⟩
  unfold Triangle.circumcircleF
  rw [hf]
  dsimp only
  rw [if_neg hf1, a1, b1, c1, if_neg hz, ← hx', ← hy']
  unfold mkCircleF
  rw [if_neg (not_le.2 hpos)]
  rfl

/-- The exact logarithm and exponential are allowed. -/
example : IsLogExp Real.log Real.exp :=
  ⟨fun x _ _ => by simp only [sub_self, abs_zero]; positivity, fun x _ => by simp only [sub_self, abs_zero]; positivity⟩

/-- The triangle (0,0), (4,0), (0,3): center (2, 3/2) and radius 5/2 up to 10⁻⁹, whatever the build of LAPACK and the logarithm. -/
example (v : Fma) (k : Lu) {lg ex : ℝ → ℝ} (hle : IsLogExp lg ex) :
    ∃ c, (⟨⟨0, 0⟩, ⟨4, 0⟩, ⟨0, 3⟩⟩ : Triangle).circumcircleF v k lg ex = .ok (some c) ∧
      |c.center.x - 2| ≤ 1 / 10 ^ 9 ∧ |c.center.y - 3 / 2| ≤ 1 / 10 ^ 9 ∧ |c.radius - 5 / 2| ≤ 1 / 10 ^ 9 := by
  have ip : ∀ m n : ℤ, |m| ≤ 4 → |n| ≤ 4 → IntPt 4 (⟨m, n⟩ : Pt) := fun m n hm hn => ⟨⟨m, rfl, by exact_mod_cast hm⟩, ⟨n, rfl, by exact_mod_cast hn⟩⟩
  obtain ⟨O, R, S, hR, h1, h2, h3, hS, c, hc, hx, hy, hr⟩ := C130_circumcircle v k hle ⟨⟨0, 0⟩, ⟨4, 0⟩, ⟨0, 3⟩⟩ (B := 4) (by norm_num)
    (by simpa using ip 0 0 (by norm_num) (by norm_num)) (by simpa using ip 4 0 (by norm_num) (by norm_num))
    (by simpa using ip 0 3 (by norm_num) (by norm_num)) (by unfold Spec.Collinear cross; norm_num)
  unfold OnCircle sqDist at h1 h2 h3
  dsimp only at h1 h2 h3
  have ox : O.x = 2 := by nlinarith
  have oy : O.y = 3 / 2 := by nlinarith
  have hR' : R = 5 / 2 := by
    rw [ox, oy] at h1
    nlinarith
  have hS' : S = 12 := by
    rw [hS]; unfold cross; simp only [Pt.sub_x, Pt.sub_y]; norm_num
  rw [ox, hS'] at hx
  rw [oy, hS'] at hy
  rw [ox, oy, hS', hR'] at hr
  refine ⟨c, hc, hx.trans ?_, hy.trans ?_, hr.trans ?_⟩ <;> norm_num [abs_of_pos]

/-- The flat triangle (0,0), (1,2), (3,6) has no circle. -/
example (v : Fma) (k : Lu) (lg ex : ℝ → ℝ) : (⟨⟨0, 0⟩, ⟨1, 2⟩, ⟨3, 6⟩⟩ : Triangle).circumcircleF v k lg ex = .ok none := by
  have ip : ∀ m n : ℤ, |m| ≤ 2 ^ 11 → |n| ≤ 2 ^ 11 → IntPt (2 ^ 11) (⟨m, n⟩ : Pt) := fun m n hm hn => ⟨⟨m, rfl, by exact_mod_cast hm⟩, ⟨n, rfl, by exact_mod_cast hn⟩⟩
  refine C130_flat v k lg ex _ (by simpa using ip 0 0 (by norm_num) (by norm_num)) (by simpa using ip 1 2 (by norm_num) (by norm_num))
    (by simpa using ip 3 6 (by norm_num) (by norm_num)) ?_ ?_ ?_
  · intro e; simpa using congrArg Pt.x e
  · intro e; simpa using congrArg Pt.x e
  · unfold Spec.Collinear cross; norm_num

/-- C130: the integers are necessary: the triangle (0,0), (1,0), (1, 2⁻³⁰) is not flat, but no circle is returned for it. -/
theorem C130_flat_counterexample (v : Fma) (k : Lu) (lg ex : ℝ → ℝ) :
    ∃ T : Triangle, DoublePt T.A ∧ DoublePt T.B ∧ DoublePt T.C ∧ ¬ Collinear T.A T.B T.C ∧ T.circumcircleF v k lg ex = .ok none := by
  have d0 : IsDouble 0 := by simpa using isDouble_int (n := 0) (by norm_num)
  refine ⟨⟨⟨0, 0⟩, ⟨1, 0⟩, ⟨1, 2 ^ (-30 : ℤ)⟩⟩, ⟨d0, d0⟩, ⟨isDouble_one, d0⟩, ⟨isDouble_one, isDouble_pow _ (by norm_num)⟩,
    C90_flatness_counterexample.2, ?_⟩
  unfold Triangle.circumcircleF
  dsimp only
  rw [C90_flatness_counterexample.1]
  simp
