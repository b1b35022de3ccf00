import Verif.Model.FloatCircleAngle
import Verif.Props.FloatAngles
import Verif.Props.FloatOrthic
import Verif.Props.Circle

/-!
# C136: the angle of two circles in double precision
-/

open Spec Real Classical

/-- `x'` approximates `x`: the error is at most `e` units of `m / 2^53`, where `m` bounds `x`. -/
def Apx (e m x' x : ℝ) : Prop := |x' - x| ≤ e / 2 ^ 53 * m ∧ |x| ≤ m

namespace Apx

theorem nonneg {e m x' x : ℝ} (h : Apx e m x' x) : 0 ≤ m := (abs_nonneg _).trans h.2

theorem exact {m x : ℝ} (h : |x| ≤ m) : Apx 0 m x x := ⟨by simp, h⟩

theorem mono {e e' m m' x' x : ℝ} (h : Apx e m x' x) (he : e ≤ e') (he0 : 0 ≤ e') (hm : m ≤ m') : Apx e' m' x' x := by
  refine ⟨h.1.trans ?_, h.2.trans hm⟩
  have := h.nonneg
  calc e / 2 ^ 53 * m ≤ e' / 2 ^ 53 * m := by gcongr
    _ ≤ e' / 2 ^ 53 * m' := by gcongr

theorem neg {e m x' x : ℝ} (h : Apx e m x' x) : Apx e m (-x') (-x) := by
  refine ⟨?_, by rw [abs_neg]; exact h.2⟩
  rw [show -x' - -x = -(x' - x) by ring, abs_neg]; exact h.1

theorem add {e m1 m2 x' x y' y : ℝ} (h1 : Apx e m1 x' x) (h2 : Apx e m2 y' y) : Apx e (m1 + m2) (x' + y') (x + y) := by
  refine ⟨?_, (abs_add_le _ _).trans (add_le_add h1.2 h2.2)⟩
  rw [show x' + y' - (x + y) = (x' - x) + (y' - y) by ring, mul_add]
  exact (abs_add_le _ _).trans (add_le_add h1.1 h2.1)

theorem sub {e m1 m2 x' x y' y : ℝ} (h1 : Apx e m1 x' x) (h2 : Apx e m2 y' y) : Apx e (m1 + m2) (x' - y') (x - y) := by
  rw [sub_eq_add_neg, sub_eq_add_neg]; exact h1.add h2.neg

theorem mul {e1 e2 e3 m1 m2 x' x y' y : ℝ} (h1 : Apx e1 m1 x' x) (h2 : Apx e2 m2 y' y) (he1 : 0 ≤ e1) (he1' : e1 ≤ 1000)
    (he2' : e2 ≤ 1000) (he2 : 0 ≤ e2) (he : e1 + e2 + 1 / 1000 ≤ e3) : Apx e3 (m1 * m2) (x' * y') (x * y) := by
  refine ⟨?_, FCirc.abs_mul_le h1.2 h2.2⟩
  have n1 := h1.nonneg
  have n2 := h2.nonneg
  have k1 := FCirc.abs_mul_le h1.1 h2.1
  have k2 := FCirc.abs_mul_le h1.1 h2.2
  have k3 := FCirc.abs_mul_le h1.2 h2.1
  rw [show x' * y' - x * y = (x' - x) * (y' - y) + (x' - x) * y + x * (y' - y) by ring]
  refine (abs_add_le _ _).trans ((add_le_add (abs_add_le _ _) le_rfl).trans ?_)
  have hm : 0 ≤ m1 * m2 := mul_nonneg n1 n2
  have p : e1 * e2 / 2 ^ 53 ≤ 1 / 1000 := by
    have : e1 * e2 ≤ 1000 * 1000 := mul_le_mul he1' he2' he2 (by norm_num)
    norm_num
    linarith
  have k4 : e1 / 2 ^ 53 * m1 * (e2 / 2 ^ 53 * m2) ≤ 1 / 1000 / 2 ^ 53 * (m1 * m2) := by
    calc e1 / 2 ^ 53 * m1 * (e2 / 2 ^ 53 * m2) = e1 * e2 / 2 ^ 53 * (1 / 2 ^ 53 * (m1 * m2)) := by ring
      _ ≤ 1 / 1000 * (1 / 2 ^ 53 * (m1 * m2)) := mul_le_mul_of_nonneg_right p (by positivity)
      _ = _ := by ring
  have k5 : (e1 + e2 + 1 / 1000) / 2 ^ 53 * (m1 * m2) ≤ e3 / 2 ^ 53 * (m1 * m2) := by gcongr
  have k6 : e1 / 2 ^ 53 * m1 * m2 + m1 * (e2 / 2 ^ 53 * m2) + 1 / 1000 / 2 ^ 53 * (m1 * m2) = (e1 + e2 + 1 / 1000) / 2 ^ 53 * (m1 * m2) := by ring
  linarith

/-- A rounding. -/
theorem round {e m x' x : ℝ} (h : Apx e m x' x) (he : 0 ≤ e) (he' : e ≤ 1000) (hm : 1 / 2 ^ 60 ≤ m) : Apx (e + 101 / 100) m (fl x') x := by
  refine ⟨?_, h.2⟩
  have h1 := FG.fl_err' x'
  have h2 := FI.tiny_small
  have h3 : |x'| ≤ |x' - x| + |x| := by
    calc |x'| = |(x' - x) + x| := by ring_nf
      _ ≤ _ := abs_add_le _ _
  have h4 := abs_sub_le (fl x') x' x
  have h5 : e / 2 ^ 53 * m ≤ 1000 / 2 ^ 53 * m := by
    have := h.nonneg
    gcongr
  have e1 : (e + 101 / 100) / 2 ^ 53 * m = e / 2 ^ 53 * m + 101 / 100 / 2 ^ 53 * m := by ring
  rw [e1]
  have h6 := h.1
  have h7 := h.2
  unfold FG.tiny at *
  generalize (2 : ℝ) ^ (-1075 : ℤ) = t at *
  generalize e / 2 ^ 53 * m = w at *
  generalize |fl x' - x| = v at *
  generalize |fl x' - x'| = v1 at *
  generalize |x' - x| = v2 at *
  generalize |x'| = v3 at *
  generalize |x| = v4 at *
  norm_num at *
  linarith

theorem half {e m x' x : ℝ} (h : Apx e m x' x) : Apx e (m / 2) (x' / 2) (x / 2) := by
  refine ⟨?_, by rw [abs_div, abs_of_pos (by norm_num : (0 : ℝ) < 2)]; linarith [h.2]⟩
  rw [← sub_div, abs_div, abs_of_pos (by norm_num : (0 : ℝ) < 2), ← mul_div_assoc]
  linarith [h.1]

/-- `np.vdot`. -/
theorem vdot {e mx my X Y : ℝ} (k : Fma) {p q : Pt} (hx : Apx e mx (p.x * q.x) X) (hy : Apx e my (p.y * q.y) Y) (he : 0 ≤ e) (he' : e ≤ 900)
    (m1 : 1 / 2 ^ 60 ≤ mx) (m2 : 1 / 2 ^ 60 ≤ my) : Apx (e + 202 / 100) (mx + my) (vdotF k p q) (X + Y) := by
  have rx := hx.round he (by linarith) m1
  have ry := hy.round he (by linarith) m2
  have hx' := hx.mono (e' := e + 101 / 100) (by linarith) (by linarith) le_rfl
  have hy' := hy.mono (e' := e + 101 / 100) (by linarith) (by linarith) le_rfl
  have fin : ∀ {s : ℝ}, Apx (e + 101 / 100) (mx + my) s (X + Y) → Apx (e + 202 / 100) (mx + my) (fl s) (X + Y) := by
    intro s h
    have := h.round (by linarith) (by linarith) (by linarith [show (0 : ℝ) < 1 / 2 ^ 60 by norm_num])
    exact this.mono (by linarith) (by linarith) le_rfl
  cases k
  · exact fin (rx.add ry)
  · exact fin (hx'.add ry)
  · exact fin (rx.add hy')

end Apx

namespace FCA

/-- The data of a circle: integers up to `B`. -/
def IntCircle (B : ℕ) (c : Circle) : Prop := IntPt B c.center ∧ IntB B c.radius ∧ 0 < c.radius

/-- One scaled coordinate. -/
theorem scaled {r x : ℝ} {B : ℕ} (hr : 1 ≤ r) (hB : r ≤ B) (hB' : (B : ℝ) ≤ 2 ^ 11) (hx : |x| ≤ B) :
    Apx (101 / 100) (1 / r) (fl (1 / r)) (1 / r) ∧ Apx (203 / 100) (1 / r * B) (fl (fl (1 / r) * x)) (1 / r * x) := by
  have r0 : 0 < r := by linarith
  have h1 : Apx 0 (1 / r) (1 / r) (1 / r) := Apx.exact (abs_of_pos (by positivity)).le
  have m1 : 1 / 2 ^ 60 ≤ 1 / r := one_div_le_one_div_of_le r0 (by linarith [show (2 : ℝ) ^ 11 ≤ 2 ^ 60 by norm_num])
  have h2 := (h1.round le_rfl (by norm_num) m1).mono (e' := 101 / 100) (by norm_num) (by norm_num) le_rfl
  refine ⟨h2, ?_⟩
  have h3 := h2.mul (e3 := 1012 / 1000) (Apx.exact hx) (by norm_num) (by norm_num) (by norm_num) (by norm_num) (by norm_num)
  refine (h3.round (by norm_num) (by norm_num) ?_).mono (by norm_num) (by norm_num) le_rfl
  exact m1.trans (le_mul_of_one_le_right (by positivity) (by linarith))

/-- `bprime`. -/
theorem bprime (k : Fma) {r : ℝ} {P : Pt} {B : ℕ} (hr : 1 ≤ r) (hB : r ≤ B) (hB' : (B : ℝ) ≤ 2 ^ 11) (hx : |P.x| ≤ B) (hy : |P.y| ≤ B) :
    Apx (812 / 100) (r * (1 / r * B * (1 / r * B) + 1 / r * B * (1 / r * B) + 1)) (bprimeF k r ⟨fl (fl (1 / r) * P.x), fl (fl (1 / r) * P.y)⟩)
      (r * (1 / r * P.x * (1 / r * P.x) + 1 / r * P.y * (1 / r * P.y) - 1)) := by
  have r0 : 0 < r := by linarith
  have sx := (scaled hr hB hB' hx).2
  have sy := (scaled hr hB hB' hy).2
  have m0 : 1 ≤ 1 / r * B := by rw [one_div, inv_mul_eq_div, le_div_iff₀ r0]; linarith
  have m1 : 1 ≤ 1 / r * B * (1 / r * B) := by nlinarith
  have px := sx.mul (e3 := 407 / 100) sx (by norm_num) (by norm_num) (by norm_num) (by norm_num) (by norm_num)
  have py := sy.mul (e3 := 407 / 100) sy (by norm_num) (by norm_num) (by norm_num) (by norm_num) (by norm_num)
  have d := Apx.vdot k (p := ⟨fl (fl (1 / r) * P.x), fl (fl (1 / r) * P.y)⟩) (q := ⟨fl (fl (1 / r) * P.x), fl (fl (1 / r) * P.y)⟩) px py
    (by norm_num) (by norm_num) (le_trans (by norm_num) m1) (le_trans (by norm_num) m1)
  have one : Apx 0 1 (1 : ℝ) 1 := Apx.exact (by simp)
  have s := (d.sub (one.mono (by norm_num) (by norm_num) le_rfl)).round (by norm_num) (by norm_num)
    (by linarith [show (1 : ℝ) / 2 ^ 60 ≤ 1 by norm_num])
  have f := (Apx.exact (abs_of_pos r0).le).mul (e3 := 71 / 10 + 1 / 1000) s (by norm_num) (by norm_num) (by norm_num) (by norm_num) (by norm_num)
  refine (f.round (by norm_num) (by norm_num) ?_).mono (by norm_num) (by norm_num) le_rfl
  refine le_trans (by norm_num : (1 : ℝ) / 2 ^ 60 ≤ 1 * 1) (mul_le_mul hr (by linarith) zero_le_one r0.le)

/-- Half of a product `b * bprime`. -/
theorem halfTerm (k : Fma) {r s : ℝ} {P : Pt} {B : ℕ} (hr : 1 ≤ r) (hB : r ≤ B) (hs : 1 ≤ s) (hs' : s ≤ B) (hB' : (B : ℝ) ≤ 2 ^ 11)
    (hx : |P.x| ≤ B) (hy : |P.y| ≤ B) :
    Apx (1116 / 100) (3 / 2 * (B : ℝ) ^ 2) (fl (fl (fl (1 / s) * bprimeF k r ⟨fl (fl (1 / r) * P.x), fl (fl (1 / r) * P.y)⟩) / 2))
      (1 / s * (r * (1 / r * P.x * (1 / r * P.x) + 1 / r * P.y * (1 / r * P.y) - 1)) / 2) := by
  have r0 : 0 < r := by linarith
  have s0 : 0 < s := by linarith
  have b := (scaled hs hs' hB' hx).1
  have f := b.mul (e3 := 9131 / 1000) (bprime k hr hB hB' hx hy) (by norm_num) (by norm_num) (by norm_num) (by norm_num) (by norm_num)
  have hm : 1 / s * (r * (1 / r * B * (1 / r * B) + 1 / r * B * (1 / r * B) + 1)) ≤ 3 * (B : ℝ) ^ 2 := by
    have e : r * (1 / r * B * (1 / r * B) + 1 / r * B * (1 / r * B) + 1) = 2 * B ^ 2 / r + r := by field_simp; ring
    rw [e, one_div, inv_mul_eq_div, div_le_iff₀ s0]
    have h1 : 2 * (B : ℝ) ^ 2 / r ≤ 2 * B ^ 2 := div_le_self (by positivity) hr
    have h2 : r ≤ (B : ℝ) ^ 2 := by nlinarith
    have h3 : 3 * (B : ℝ) ^ 2 ≤ 3 * (B : ℝ) ^ 2 * s := le_mul_of_one_le_right (by positivity) hs
    linarith
  have hB1 : (1 : ℝ) ≤ B := by linarith
  have hB2 : (1 : ℝ) ≤ (B : ℝ) ^ 2 := one_le_pow₀ hB1
  have g := (f.mono (e' := 9131 / 1000) le_rfl (by norm_num) hm).round (by norm_num) (by norm_num)
    (by linarith [show (1 : ℝ) / 2 ^ 60 ≤ 1 by norm_num])
  refine (g.half.round (by norm_num) (by norm_num) (by linarith [show (1 : ℝ) / 2 ^ 60 ≤ 1 by norm_num])).mono (by norm_num) (by norm_num) ?_
  linarith

theorem int_bounds {B : ℕ} {c : Circle} (h : IntCircle B c) : 1 ≤ c.radius ∧ c.radius ≤ B := by
  refine ⟨FI.one_le h.2.1 h.2.2, ?_⟩
  have := FI.abs_le h.2.1
  rwa [abs_of_pos h.2.2] at this

/-- The rounded cosine. -/
theorem cosine (k : Fma) {c1 c2 : Circle} {B : ℕ} (hB : B ≤ 2 ^ 11) (h1 : IntCircle B c1) (h2 : IntCircle B c2) :
    |cosThetaF k c1 c2 - (sqDist c1.center c2.center - c1.radius ^ 2 - c2.radius ^ 2) / (2 * c1.radius * c2.radius)| ≤ 66 / 2 ^ 53 * (B : ℝ) ^ 2 := by
  obtain ⟨r1, r1'⟩ := int_bounds h1
  obtain ⟨r2, r2'⟩ := int_bounds h2
  have hB' : (B : ℝ) ≤ 2 ^ 11 := by exact_mod_cast hB
  have x1 := FI.abs_le h1.1.1
  have y1 := FI.abs_le h1.1.2
  have x2 := FI.abs_le h2.1.1
  have y2 := FI.abs_le h2.1.2
  have t1 := halfTerm k (P := c2.center) r2 r2' r1 r1' hB' x2 y2
  have t2 := halfTerm k (P := c1.center) r1 r1' r2 r2' hB' x1 y1
  have hB1 : (1 : ℝ) ≤ B := by linarith
  have hB2 : (1 : ℝ) ≤ (B : ℝ) ^ 2 := one_le_pow₀ hB1
  have sm : (1 : ℝ) / 2 ^ 60 ≤ 1 := by norm_num
  have s := (t1.add t2).round (by norm_num) (by norm_num) (by linarith)
  have px := (scaled r1 r1' hB' x1).2.mul (e3 := 407 / 100) (scaled r2 r2' hB' x2).2 (by norm_num) (by norm_num) (by norm_num) (by norm_num)
    (by norm_num)
  have py := (scaled r1 r1' hB' y1).2.mul (e3 := 407 / 100) (scaled r2 r2' hB' y2).2 (by norm_num) (by norm_num) (by norm_num) (by norm_num)
    (by norm_num)
  have m0 : ∀ {r : ℝ}, 1 ≤ r → 1 / r * B ≤ B := by
    intro r hr
    rw [one_div, inv_mul_eq_div]; exact div_le_self (by linarith) hr
  have mm : 1 / c1.radius * B * (1 / c2.radius * B) ≤ (B : ℝ) ^ 2 := by
    rw [sq]; exact mul_le_mul (m0 r1) (m0 r2) (by positivity) (by linarith)
  have d := Apx.vdot k (p := ⟨fl (fl (1 / c1.radius) * c1.center.x), fl (fl (1 / c1.radius) * c1.center.y)⟩)
    (q := ⟨fl (fl (1 / c2.radius) * c2.center.x), fl (fl (1 / c2.radius) * c2.center.y)⟩)
    (px.mono le_rfl (by norm_num) mm) (py.mono le_rfl (by norm_num) mm) (by norm_num) (by norm_num) (by linarith) (by linarith)
  have f := (s.sub (d.mono (by norm_num) (by norm_num) le_rfl)).round (by norm_num) (by norm_num) (by linarith)
  have e := f.1
  unfold cosThetaF
  dsimp only
  have ex : 1 / c1.radius * (c2.radius * (1 / c2.radius * c2.center.x * (1 / c2.radius * c2.center.x) +
      1 / c2.radius * c2.center.y * (1 / c2.radius * c2.center.y) - 1)) / 2 +
      1 / c2.radius * (c1.radius * (1 / c1.radius * c1.center.x * (1 / c1.radius * c1.center.x) +
      1 / c1.radius * c1.center.y * (1 / c1.radius * c1.center.y) - 1)) / 2 -
      (1 / c1.radius * c1.center.x * (1 / c2.radius * c2.center.x) + 1 / c1.radius * c1.center.y * (1 / c2.radius * c2.center.y)) =
      (sqDist c1.center c2.center - c1.radius ^ 2 - c2.radius ^ 2) / (2 * c1.radius * c2.radius) := by
    have p1 : c1.radius ≠ 0 := by linarith
    have p2 : c2.radius ≠ 0 := by linarith
    unfold sqDist
    field_simp
    ring
  rw [ex] at e
  refine e.trans ?_
  norm_num
  linarith

end FCA

namespace FCA

theorem guard_plus {x : ℝ} {B : ℕ} (h : IntB B x) (hB : B ≤ 2 ^ 25) : fl (x + sepsilon_) = x + 1 / 2 ^ 26 ∧ fl (x - sepsilon_) = x - 1 / 2 ^ 26 := by
  obtain ⟨n, rfl, hn⟩ := h
  have hn' : |n| ≤ 2 ^ 25 := hn.trans (by exact_mod_cast hB)
  rw [abs_le] at hn'
  unfold sepsilon_
  constructor
  · refine FH.dbl (n * 2 ^ 26 + 1) (-26) ?_ (by norm_num) (by rw [abs_le]; constructor <;> linarith [hn'.1, hn'.2])
    push_cast
    rw [zpow_neg]
    norm_num
    ring
  · refine FH.dbl (n * 2 ^ 26 - 1) (-26) ?_ (by norm_num) (by rw [abs_le]; constructor <;> linarith [hn'.1, hn'.2])
    push_cast
    rw [zpow_neg]
    norm_num
    ring

/-- The condition of the first test in rounded arithmetic, for integers. -/
theorem guard (k : Fma) {c1 c2 : Circle} {B : ℕ} (hB : B ≤ 2 ^ 11) (h1 : IntCircle B c1) (h2 : IntCircle B c2) :
    (vdotF k (subF c1.center c2.center) (subF c1.center c2.center) > fl (fl (fl (c1.radius + c2.radius) ^ 2) + sepsilon_) ∨
      vdotF k (subF c1.center c2.center) (subF c1.center c2.center) < fl (fl (fl (c1.radius - c2.radius) ^ 2) - sepsilon_)) ↔
    (c1.radius + c2.radius) ^ 2 < sqDist c1.center c2.center ∨ sqDist c1.center c2.center < (c1.radius - c2.radius) ^ 2 := by
  have g1 := (⟨FI.mono h1.1.1 hB, FI.mono h1.1.2 hB⟩ : IntPt (2 ^ 11) c1.center)
  have g2 := (⟨FI.mono h2.1.1 hB, FI.mono h2.1.2 hB⟩ : IntPt (2 ^ 11) c2.center)
  have r1 := FI.mono h1.2.1 hB
  have r2 := FI.mono h2.2.1 hB
  obtain ⟨e, j⟩ := FI.subPt g1 g2 (by norm_num)
  have ia := FI.add r1 r2
  have is := FI.sub r1 r2
  have ia2 := FI.mul ia ia
  have is2 := FI.mul is is
  have id := FI.add (FI.mul j.1 j.1) (FI.mul j.2 j.2)
  rw [← sq (c1.radius + c2.radius)] at ia2
  rw [← sq (c1.radius - c2.radius)] at is2
  have ed : (c1.center - c2.center).x * (c1.center - c2.center).x + (c1.center - c2.center).y * (c1.center - c2.center).y =
      sqDist c1.center c2.center := by
    unfold sqDist; simp only [Pt.sub_x, Pt.sub_y]; ring
  rw [ed] at id
  rw [e, FI.vdot k j j (by norm_num), ed, FI.fl ia (by norm_num), FI.fl is (by norm_num), FI.fl ia2 (by norm_num), FI.fl is2 (by norm_num),
    (guard_plus ia2 (by norm_num)).1, (guard_plus is2 (by norm_num)).2]
  constructor
  · rintro (h | h)
    · left; linarith [show (0 : ℝ) < 1 / 2 ^ 26 by norm_num]
    · right; linarith [show (0 : ℝ) < 1 / 2 ^ 26 by norm_num]
  · rintro (h | h)
    · left
      have := FI.one_le (FI.sub id ia2) (by linarith)
      linarith [show (1 : ℝ) / 2 ^ 26 < 1 by norm_num]
    · right
      have := FI.one_le (FI.sub is2 id) (by linarith)
      linarith [show (1 : ℝ) / 2 ^ 26 < 1 by norm_num]

end FCA

/-- **C136, no angle.** For centers and radii that are integers up to 2048 the method returns `None` exactly when the circles have no common
point, one being outside or inside of the other. -/
theorem C136_none (k : Fma) (acosF : ℝ → ℝ) {c1 c2 : Circle} {B : ℕ} (hB : B ≤ 2 ^ 11) (h1 : FCA.IntCircle B c1) (h2 : FCA.IntCircle B c2) :
    c1.angleF k acosF c2 = .ok none ↔
      (c1.radius + c2.radius) ^ 2 < sqDist c1.center c2.center ∨ sqDist c1.center c2.center < (c1.radius - c2.radius) ^ 2 := by
  unfold Circle.angleF
  dsimp only
  rw [← FCA.guard k hB h1 h2]
  split_ifs with h
  · simp only [h]
  · simp only [h, iff_false]
    unfold pyAcosF
    split_ifs <;> simp [Res.ok_bind, Res.pure_ok]

theorem FCA.one_sub_sq {g q : ℝ} (h0 : 0 ≤ g) (h1 : g ≤ 1 / 2) (q1 : q ≤ 1 - g) (q2 : -1 + g ≤ q) : 749956 / 1000000 * 2 * g ≤ 1 - q ^ 2 := by
  have e1 : 0 ≤ (1 - g - q) * (q - (-1 + g)) := mul_nonneg (by linarith) (by linarith)
  have e2 : g * g ≤ g * (1 / 2) := mul_le_mul_of_nonneg_left h1 h0
  have e3 : (1 - g - q) * (q - (-1 + g)) = 1 - 2 * g + g * g - q ^ 2 := by ring
  linarith

set_option maxHeartbeats 1000000 in
/-- **C136, angle.** For circles with integer data up to `B ≤ 2048` that cross in two points the method does not raise, and its result is the
exact angle up to `240 B³ / 2 ^ 53` and the error `η` of the library function `acos`. -/
theorem C136_angle (k : Fma) (acosF : ℝ → ℝ) {η : ℝ} (hη : ∀ x, -1 ≤ x → x ≤ 1 → |acosF x - arccos x| ≤ η) {c1 c2 : Circle} {B : ℕ}
    (hB : B ≤ 2 ^ 11) (h1 : FCA.IntCircle B c1) (h2 : FCA.IntCircle B c2) (hlt : (c1.radius - c2.radius) ^ 2 < sqDist c1.center c2.center)
    (hgt : sqDist c1.center c2.center < (c1.radius + c2.radius) ^ 2) :
    ∃ θ, c1.angleF k acosF c2 = .ok (some θ) ∧
      |θ - arccos ((sqDist c1.center c2.center - c1.radius ^ 2 - c2.radius ^ 2) / (2 * c1.radius * c2.radius))| ≤ η + 240 * (B : ℝ) ^ 3 / 2 ^ 53 := by
  have hc := FCA.cosine k hB h1 h2
  obtain ⟨p1, p1'⟩ := FCA.int_bounds h1
  obtain ⟨p2, p2'⟩ := FCA.int_bounds h2
  have ir := FI.add h1.2.1 h2.2.1
  have is := FI.sub h1.2.1 h2.2.1
  have ix := FI.sub h1.1.1 h2.1.1
  have iy := FI.sub h1.1.2 h2.1.2
  have id := FI.add (FI.mul ix ix) (FI.mul iy iy)
  have ed : (c1.center.x - c2.center.x) * (c1.center.x - c2.center.x) + (c1.center.y - c2.center.y) * (c1.center.y - c2.center.y) =
      sqDist c1.center c2.center := by
    unfold sqDist; ring
  rw [ed] at id
  have g1 : 1 ≤ (c1.radius + c2.radius) * (c1.radius + c2.radius) - sqDist c1.center c2.center := FI.one_le (FI.sub (FI.mul ir ir) id) (by nlinarith)
  have g2 : 1 ≤ sqDist c1.center c2.center - (c1.radius - c2.radius) * (c1.radius - c2.radius) := FI.one_le (FI.sub id (FI.mul is is)) (by nlinarith)
  have hB' : (B : ℝ) ≤ 2 ^ 11 := by exact_mod_cast hB
  have hB1 : (1 : ℝ) ≤ B := by linarith
  obtain ⟨q, hq⟩ : ∃ q, q = (sqDist c1.center c2.center - c1.radius ^ 2 - c2.radius ^ 2) / (2 * c1.radius * c2.radius) := ⟨_, rfl⟩
  have hp : 0 < 2 * c1.radius * c2.radius := by positivity
  have hpB : 2 * c1.radius * c2.radius ≤ 2 * (B : ℝ) ^ 2 := by nlinarith
  have hB2 : (1 : ℝ) ≤ (B : ℝ) ^ 2 := one_le_pow₀ hB1
  have gap : 1 / (2 * (B : ℝ) ^ 2) ≤ 1 / (2 * c1.radius * c2.radius) := one_div_le_one_div_of_le hp hpB
  have q1 : q ≤ 1 - 1 / (2 * (B : ℝ) ^ 2) := by
    refine le_trans ?_ (sub_le_sub_left gap 1)
    rw [hq, div_le_iff₀ hp, sub_mul, one_div, inv_mul_cancel₀ hp.ne']
    linarith
  have q2 : -1 + 1 / (2 * (B : ℝ) ^ 2) ≤ q := by
    refine le_trans (add_le_add_right gap (-1)) ?_
    rw [hq, le_div_iff₀ hp, add_mul, one_div, inv_mul_cancel₀ hp.ne']
    linarith
  rw [← hq] at hc ⊢
  obtain ⟨C, hC⟩ : ∃ C, C = cosThetaF k c1 c2 := ⟨_, rfl⟩
  have hsmall : 66 / 2 ^ 53 * (B : ℝ) ^ 2 ≤ 1 / (2 * (B : ℝ) ^ 2) := by
    rw [le_div_iff₀ (by positivity)]
    have b4 : (B : ℝ) ^ 4 ≤ (2 ^ 11) ^ 4 := by gcongr
    have : 66 / 2 ^ 53 * (B : ℝ) ^ 2 * (2 * B ^ 2) = 132 / 2 ^ 53 * (B : ℝ) ^ 4 := by ring
    rw [this]
    norm_num at b4 ⊢
    linarith
  have ha := abs_le.1 hc
  have gp : 0 < 1 / (2 * (B : ℝ) ^ 2) := by positivity
  have c1' : cosThetaF k c1 c2 ≤ 1 := by linarith [ha.2]
  have c2' : -1 ≤ cosThetaF k c1 c2 := by linarith [ha.1]
  refine ⟨acosF (cosThetaF k c1 c2), ?_, ?_⟩
  · unfold Circle.angleF pyAcosF
    dsimp only
    rw [if_neg (fun hn => ?_), if_neg (by push Not; exact ⟨c2', c1'⟩)]
    · rfl
    · rcases (FCA.guard k hB h1 h2).1 hn with hn | hn <;> linarith
  · have e1 := hη _ c2' c1'
    have e2 := FAng.arccos_err c2' c1' (show -1 ≤ q by linarith) (show q ≤ 1 by linarith)
    have g2 : 1 / (2 * (B : ℝ) ^ 2) ≤ 1 / 2 := one_div_le_one_div_of_le (by norm_num) (by linarith)
    have hs : (866 / 1000 / B : ℝ) ≤ √(1 - q ^ 2) := by
      refine Real.le_sqrt_of_sq_le ?_
      have e : (866 / 1000 / B : ℝ) ^ 2 = 749956 / 1000000 * 2 * (1 / (2 * (B : ℝ) ^ 2)) := by field_simp; norm_num
      rw [e]
      exact FCA.one_sub_sq gp.le g2 q1 q2
    have e3 : 866 / 1000 / B * |arccos (cosThetaF k c1 c2) - arccos q| ≤ π * (66 / 2 ^ 53 * (B : ℝ) ^ 2) :=
      (mul_le_mul_of_nonneg_right hs (abs_nonneg _)).trans (e2.trans (mul_le_mul_of_nonneg_left hc pi_pos.le))
    have e4 : |arccos (cosThetaF k c1 c2) - arccos q| ≤ 240 * (B : ℝ) ^ 3 / 2 ^ 53 := by
      have B0 : (0 : ℝ) < B := by linarith
      have e5 : π * (66 / 2 ^ 53 * (B : ℝ) ^ 2) ≤ 3.1416 * (66 / 2 ^ 53 * (B : ℝ) ^ 2) := mul_le_mul_of_nonneg_right pi_lt_d4.le (by positivity)
      have e6 : 866 / 1000 * |arccos (cosThetaF k c1 c2) - arccos q| ≤ 3.1416 * (66 / 2 ^ 53 * (B : ℝ) ^ 2) * B := by
        have := mul_le_mul_of_nonneg_right (e3.trans e5) B0.le
        refine le_trans (le_of_eq ?_) this
        field_simp
      have b3 : 0 < (B : ℝ) ^ 3 := by positivity
      have e7 : 3.1416 * (66 / 2 ^ 53 * (B : ℝ) ^ 2) * B = 3.1416 * 66 / 2 ^ 53 * (B : ℝ) ^ 3 := by ring
      rw [e7] at e6
      generalize (B : ℝ) ^ 3 = b at *
      generalize |arccos (cosThetaF k c1 c2) - arccos q| = a at *
      clear * - e6 b3
      norm_num at *
      linarith
    calc |acosF (cosThetaF k c1 c2) - arccos q| ≤ |acosF (cosThetaF k c1 c2) - arccos (cosThetaF k c1 c2)| + |arccos (cosThetaF k c1 c2) - arccos q| :=
          abs_sub_le _ _ _
      _ ≤ _ := add_le_add e1 e4

/-- Two circles of radii 3 and 4 with centers five apart are orthogonal: the result is `π / 2` up to `2 ^ -37`. -/
example (k : Fma) (acosF : ℝ → ℝ) (hη : ∀ x, -1 ≤ x → x ≤ 1 → |acosF x - arccos x| ≤ 1 / 2 ^ 51) :
    ∃ θ, (⟨⟨1, 2⟩, 3⟩ : Circle).angleF k acosF ⟨⟨4, 6⟩, 4⟩ = .ok (some θ) ∧ |θ - π / 2| ≤ 1 / 2 ^ 36 := by
  obtain ⟨θ, h1, h2⟩ := C136_angle k acosF hη (c1 := ⟨⟨1, 2⟩, 3⟩) (c2 := ⟨⟨4, 6⟩, 4⟩) (B := 6) (by norm_num)
    ⟨⟨⟨1, by norm_num, by norm_num⟩, ⟨2, by norm_num, by norm_num⟩⟩, ⟨3, by norm_num, by norm_num⟩, by norm_num⟩
    ⟨⟨⟨4, by norm_num, by norm_num⟩, ⟨6, by norm_num, by norm_num⟩⟩, ⟨4, by norm_num, by norm_num⟩, by norm_num⟩
    (by norm_num [sqDist]) (by norm_num [sqDist])
  refine ⟨θ, h1, ?_⟩
  norm_num [sqDist] at h2
  refine h2.trans ?_
  norm_num

theorem FCA.vdot_zero (k : Fma) (x y : ℝ) : vdotF k ⟨x, 0⟩ ⟨y, 0⟩ = fl (x * y) := by
  cases k <;> simp only [vdotF, mul_zero, add_zero, fl_zero, fl_double (fl_isDouble _)]

/-- **C136, tangent circles (counterexample).** The circles with centers `(1, 0)`, `(5, 0)` and radii 3, 1 touch each other at `(4, 0)`. In exact
arithmetic the angle is 0. In double precision the number given to `acos` is `1 + 2 ^ -51` and the method raises `ValueError`. -/
theorem C136_tangent_counterexample (k : Fma) (acosF : ℝ → ℝ) :
    (⟨⟨1, 0⟩, 3⟩ : Circle).angle ⟨⟨5, 0⟩, 1⟩ = .ok (some 0) ∧
    (⟨⟨1, 0⟩, 3⟩ : Circle).angleF k acosF ⟨⟨5, 0⟩, 1⟩ = .error (.valueError "math domain error") := by
  constructor
  · obtain ⟨th, h, h0, h1, h2, -⟩ := C20_angle ⟨⟨1, 0⟩, 3⟩ ⟨⟨5, 0⟩, 1⟩ (by norm_num [Circle.Valid]) (by norm_num [Circle.Valid])
      (by norm_num [sqDist]) (by norm_num [sqDist])
    norm_num [sqDist] at h2
    rw [h]
    have : th = 0 := injOn_cos ⟨h0, h1⟩ ⟨le_rfl, pi_pos.le⟩ (by rw [h2, cos_zero])
    rw [this]
  · have v1 : fl (1 / 3) = 6004799503160661 / 2 ^ 54 := by
      rw [fl_eval (e := -54) (n := 6004799503160661) (by norm_num) (by norm_num [abs_of_pos]) (by norm_num [abs_of_pos]) (by norm_num [abs_lt])]
      norm_num
    have v2 : fl (6004799503160661 / 2 ^ 54 * 1) = 6004799503160661 / 2 ^ 54 :=
      (FH.dbl (x := 6004799503160661 / 2 ^ 54 * 1) 6004799503160661 (-54) (by norm_num) (by norm_num) (by norm_num)).trans (by norm_num)
    have v3 : fl (6004799503160661 / 2 ^ 54 * (6004799503160661 / 2 ^ 54)) = 8006399337547548 / 2 ^ 56 := by
      rw [fl_eval (e := -56) (n := 8006399337547548) (by norm_num) (by norm_num [abs_of_pos]) (by norm_num [abs_of_pos]) (by norm_num [abs_lt])]
      norm_num
    have v4 : fl (8006399337547548 / 2 ^ 56 - 1) = -(8006399337547548 / 2 ^ 53) := by
      rw [FH.fl_tie (e := -53) (n := -8006399337547548) (by norm_num) (by norm_num) (by norm_num) (by decide) (by norm_num)]
      norm_num
    have v5 : fl (3 * -(8006399337547548 / 2 ^ 53)) = -(6004799503160661 / 2 ^ 51) :=
      (FH.dbl (x := 3 * -(8006399337547548 / 2 ^ 53)) (-6004799503160661) (-51) (by norm_num) (by norm_num) (by norm_num)).trans (by norm_num)
    have v6 : fl (1 / 1) = 1 := (FH.dbl (x := 1 / 1) 1 0 (by norm_num) (by norm_num) (by norm_num)).trans (by norm_num)
    have v7 : fl (1 * 5) = 5 := (FH.dbl (x := 1 * 5) 5 0 (by norm_num) (by norm_num) (by norm_num)).trans (by norm_num)
    have v8 : fl (5 * 5) = 25 := (FH.dbl (x := 5 * 5) 25 0 (by norm_num) (by norm_num) (by norm_num)).trans (by norm_num)
    have v9 : fl (25 - 1) = 24 := (FH.dbl (x := 25 - 1) 24 0 (by norm_num) (by norm_num) (by norm_num)).trans (by norm_num)
    have v10 : fl (1 * 24) = 24 := (FH.dbl (x := 1 * 24) 24 0 (by norm_num) (by norm_num) (by norm_num)).trans (by norm_num)
    have v11 : fl (6004799503160661 / 2 ^ 54 * 24) = 8 := by
      rw [FH.fl_tie (e := -50) (n := 9007199254740992) (by norm_num) (by norm_num [abs_of_pos]) (by norm_num [abs_of_pos]) (by decide) (by norm_num)]
      norm_num
    have v12 : fl (8 / 2) = 4 := (FH.dbl (x := 8 / 2) 4 0 (by norm_num) (by norm_num) (by norm_num)).trans (by norm_num)
    have v13 : fl (1 * -(6004799503160661 / 2 ^ 51)) = -(6004799503160661 / 2 ^ 51) :=
      (FH.dbl (x := 1 * -(6004799503160661 / 2 ^ 51)) (-6004799503160661) (-51) (by norm_num) (by norm_num) (by norm_num)).trans (by norm_num)
    have v14 : fl (-(6004799503160661 / 2 ^ 51) / 2) = -(6004799503160661 / 2 ^ 52) :=
      (FH.dbl (x := -(6004799503160661 / 2 ^ 51) / 2) (-6004799503160661) (-52) (by norm_num) (by norm_num) (by norm_num)).trans (by norm_num)
    have v15 : fl (4 + -(6004799503160661 / 2 ^ 52)) = 6004799503160662 / 2 ^ 51 := by
      rw [FH.fl_tie (e := -51) (n := 6004799503160662) (by norm_num) (by norm_num [abs_of_pos]) (by norm_num [abs_of_pos]) (by decide) (by norm_num)]
      norm_num
    have v16 : fl (6004799503160661 / 2 ^ 54 * 5) = 7505999378950826 / 2 ^ 52 := by
      rw [fl_eval (e := -52) (n := 7505999378950826) (by norm_num) (by norm_num [abs_of_pos]) (by norm_num [abs_of_pos]) (by norm_num [abs_lt])]
      norm_num
    have v17 : fl (6004799503160662 / 2 ^ 51 - 7505999378950826 / 2 ^ 52) = 1 + 1 / 2 ^ 51 :=
      (FH.dbl (x := 6004799503160662 / 2 ^ 51 - 7505999378950826 / 2 ^ 52) 2251799813685249 (-51) (by norm_num) (by norm_num) (by norm_num)).trans
        (by norm_num)
    have hc : cosThetaF k ⟨⟨1, 0⟩, 3⟩ ⟨⟨5, 0⟩, 1⟩ = 1 + 1 / 2 ^ 51 := by
      unfold cosThetaF bprimeF
      dsimp only
      simp only [mul_zero, fl_zero, FCA.vdot_zero]
      rw [v1, v2, v3, v4, v5, v6, v7, v8, v9, v10, v11, v12, v13, v14, v15, v16, v17]
    have hn := (FCA.guard k (B := 6) (by norm_num) (c1 := ⟨⟨1, 0⟩, 3⟩) (c2 := ⟨⟨5, 0⟩, 1⟩)
      ⟨⟨⟨1, by norm_num, by norm_num⟩, ⟨0, by norm_num, by norm_num⟩⟩, ⟨3, by norm_num, by norm_num⟩, by norm_num⟩
      ⟨⟨⟨5, by norm_num, by norm_num⟩, ⟨0, by norm_num, by norm_num⟩⟩, ⟨1, by norm_num, by norm_num⟩, by norm_num⟩).not.2 (by norm_num [sqDist])
    unfold Circle.angleF pyAcosF
    dsimp only at hn ⊢
    rw [if_neg hn, hc, if_pos (by right; norm_num)]
    rfl

/-- Circles of radius 1 with centers three apart: `None`. -/
example (k : Fma) (acosF : ℝ → ℝ) : (⟨⟨0, 0⟩, 1⟩ : Circle).angleF k acosF ⟨⟨3, 0⟩, 1⟩ = .ok none :=
  (C136_none k acosF (B := 3) (by norm_num)
    ⟨⟨⟨0, by norm_num, by norm_num⟩, ⟨0, by norm_num, by norm_num⟩⟩, ⟨1, by norm_num, by norm_num⟩, by norm_num⟩
    ⟨⟨⟨3, by norm_num, by norm_num⟩, ⟨0, by norm_num, by norm_num⟩⟩, ⟨1, by norm_num, by norm_num⟩, by norm_num⟩).2 (by norm_num [sqDist])
