import Verif.Props.FloatTransforms
import Verif.Model.FloatDecide

/-!
# Integers in double precision
-/

open Spec Real Classical

namespace Spec

/-- `x` is an integer of absolute value at most `B`. -/
def IntB (B : ℕ) (x : ℝ) : Prop := ∃ n : ℤ, x = n ∧ |n| ≤ B

/-- The coordinates of `P` are integers of absolute value at most `B`. -/
def IntPt (B : ℕ) (P : Pt) : Prop := IntB B P.x ∧ IntB B P.y

end Spec

namespace FI

theorem mul {A B : ℕ} {x y : ℝ} (hx : IntB A x) (hy : IntB B y) : IntB (A * B) (x * y) := by
  obtain ⟨m, rfl, hm⟩ := hx
  obtain ⟨n, rfl, hn⟩ := hy
  refine ⟨m * n, by push_cast; ring, ?_⟩
  rw [abs_mul]
  push_cast
  exact mul_le_mul hm hn (abs_nonneg _) ((abs_nonneg _).trans hm)

theorem add {A B : ℕ} {x y : ℝ} (hx : IntB A x) (hy : IntB B y) : IntB (A + B) (x + y) := by
  obtain ⟨m, rfl, hm⟩ := hx
  obtain ⟨n, rfl, hn⟩ := hy
  refine ⟨m + n, by push_cast; ring, ?_⟩
  push_cast
  exact (abs_add_le _ _).trans (add_le_add hm hn)

theorem neg {A : ℕ} {x : ℝ} (hx : IntB A x) : IntB A (-x) := by
  obtain ⟨m, rfl, hm⟩ := hx
  exact ⟨-m, by push_cast; ring, by rwa [abs_neg]⟩

theorem sub {A B : ℕ} {x y : ℝ} (hx : IntB A x) (hy : IntB B y) : IntB (A + B) (x - y) := by
  rw [sub_eq_add_neg]
  exact add hx (neg hy)

theorem mono {A B : ℕ} {x : ℝ} (hx : IntB A x) (h : A ≤ B) : IntB B x := by
  obtain ⟨m, rfl, hm⟩ := hx
  exact ⟨m, rfl, hm.trans (by exact_mod_cast h)⟩

theorem isDouble {A : ℕ} {x : ℝ} (hx : IntB A x) (h : A ≤ 2 ^ 53) : IsDouble x := by
  obtain ⟨m, rfl, hm⟩ := hx
  exact isDouble_int (hm.trans (by exact_mod_cast h))

/-- An integer that is not too large is not rounded. -/
theorem fl {A : ℕ} {x : ℝ} (hx : IntB A x) (h : A ≤ 2 ^ 53) : fl x = x := fl_double (isDouble hx h)

theorem abs_le {A : ℕ} {x : ℝ} (hx : IntB A x) : |x| ≤ A := by
  obtain ⟨m, rfl, hm⟩ := hx
  rw [← Int.cast_abs]
  exact_mod_cast hm

theorem eq_zero {A : ℕ} {x : ℝ} (hx : IntB A x) (h : |x| < 1) : x = 0 := by
  obtain ⟨m, rfl, -⟩ := hx
  rw [← Int.cast_abs] at h
  have : |m| < 1 := by exact_mod_cast h
  rw [Int.abs_lt_one_iff] at this
  rw [this, Int.cast_zero]

theorem one_le {A : ℕ} {x : ℝ} (hx : IntB A x) (h : 0 < x) : 1 ≤ x := by
  obtain ⟨m, rfl, -⟩ := hx
  have : 0 < m := by exact_mod_cast h
  exact_mod_cast this

theorem one_le_abs {A : ℕ} {x : ℝ} (hx : IntB A x) (h : x ≠ 0) : 1 ≤ |x| := by
  by_contra hc
  exact h (eq_zero hx (not_le.1 hc))

/-- `np.vdot` on integers. -/
theorem vdot {A : ℕ} (k : Fma) {u v : Pt} (hu : IntPt A u) (hv : IntPt A v) (h : A * A + A * A ≤ 2 ^ 53) :
    vdotF k u v = u.x * v.x + u.y * v.y := by
  have h1 := mul hu.1 hv.1
  have h2 := mul hu.2 hv.2
  have h3 := fl (add h1 h2) h
  have g1 := fl h1 (by omega)
  have g2 := fl h2 (by omega)
  unfold vdotF
  cases k <;> simp only [g1, g2, h3]

/-- The difference of two points with integer coordinates. -/
theorem subPt {A B : ℕ} {P Q : Pt} (hP : IntPt A P) (hQ : IntPt B Q) (h : A + B ≤ 2 ^ 53) :
    subF P Q = P - Q ∧ IntPt (A + B) (P - Q) := by
  have h1 := sub hP.1 hQ.1
  have h2 := sub hP.2 hQ.2
  refine ⟨?_, h1, h2⟩
  unfold subF
  rw [fl h1 h, fl h2 h]
  rfl

/-- A determinant of integers. -/
theorem det {A B C D : ℕ} {a b c d : ℝ} (ha : IntB A a) (hb : IntB B b) (hc : IntB C c) (hd : IntB D d) (h : A * D + C * B ≤ 2 ^ 53) :
    det2x2F a b c d = a * d - c * b ∧ IntB (A * D + C * B) (a * d - c * b) := by
  have h1 := mul ha hd
  have h2 := mul hc hb
  have h3 := sub h1 h2
  refine ⟨?_, h3⟩
  unfold det2x2F
  rw [fl h1 (by omega), fl h2 (by omega), fl h3 h]


theorem tiny_small : FG.tiny ≤ 1 / 2 ^ 200 := by
  unfold FG.tiny
  calc (2 : ℝ) ^ (-1075 : ℤ) ≤ 2 ^ (-200 : ℤ) := zpow_le_zpow_right₀ (by norm_num) (by norm_num)
    _ = _ := by norm_num [zpow_neg]

/-- The relative tolerance of `math.isclose`, in double precision. -/
theorem tol_mul (b : ℝ) : |_root_.fl (_root_.fl (1 / 10 ^ 9) * b)| ≤ 11 / 10 ^ 10 * |b| + 1 / 2 ^ 100 := by
  have h1 := FG.fl_err' (1 / 10 ^ 9)
  have ht := tiny_small
  have h2 := FG.fl_err' (_root_.fl (1 / 10 ^ 9) * b)
  have h0 : 0 ≤ _root_.fl (1 / 10 ^ 9) := fl_nonneg (by norm_num)
  have h3 : _root_.fl (1 / 10 ^ 9) ≤ 105 / 10 ^ 11 := by
    have := (_root_.abs_le.1 h1).2
    rw [abs_of_pos (by norm_num)] at this
    norm_num at this ht ⊢
    linarith
  have h4 : |_root_.fl (1 / 10 ^ 9) * b| ≤ 105 / 10 ^ 11 * |b| := by
    rw [abs_mul, abs_of_nonneg h0]
    gcongr
  have h5 := abs_sub_abs_le_abs_sub (_root_.fl (_root_.fl (1 / 10 ^ 9) * b)) (_root_.fl (1 / 10 ^ 9) * b)
  norm_num at *
  have hb := abs_nonneg b
  linarith

/-- `approx_equal_` on integers: equality, when a difference of the size of the tolerance is less than one. -/
theorem approx {A : ℕ} {a b : ℝ} (ha : IntB A a) (hb : IntB A b) (hA : A + 1 + (A + 1) ≤ 2 ^ 53)
    (h : a ≠ b → 12 / 10 ^ 10 * (|a| + 1) < |a - b| ∧ 12 / 10 ^ 10 * (|b| + 1) < |a - b|) : approx_equalF a b ↔ a = b := by
  constructor
  swap
  · intro e
    exact Or.inl (Or.inl e)
  intro hc
  by_contra hne
  obtain ⟨g1, g2⟩ := h hne
  have i1 : IntB 1 1 := ⟨1, by norm_num, by norm_num⟩
  have a1 := add ha i1
  have b1 := add hb i1
  have key : ∀ x y : ℝ, IntB (A + 1) x → IntB (A + 1) y → |y - x| = |a - b| → |x| ≤ |a| + 1 → |y| ≤ |b| + 1 → ¬ iscloseF x y := by
    intro x y hx hy e ex ey hcl
    have f := fl (sub hy hx) hA
    unfold iscloseF at hcl
    rw [f, e] at hcl
    have t1 := tol_mul x
    have t2 := tol_mul y
    have p1 := abs_nonneg a
    have p2 := abs_nonneg b
    have p3 : 0 < |a - b| := abs_pos.2 (sub_ne_zero.2 hne)
    rcases hcl with hcl | hcl | hcl
    · rw [hcl, sub_self, abs_zero] at e
      linarith
    · norm_num at *
      linarith [abs_nonneg a, abs_nonneg b]
    · norm_num at *
      linarith [abs_nonneg a, abs_nonneg b]
  rcases hc with hc | hc
  · exact key a b (mono ha (by omega)) (mono hb (by omega)) (abs_sub_comm _ _) (by linarith) (by linarith) hc
  · rw [fl a1 (by omega), fl b1 (by omega)] at hc
    refine key _ _ a1 b1 ?_ ?_ ?_ hc
    · rw [abs_sub_comm]; congr 1; ring
    · exact (abs_add_le _ _).trans (by rw [abs_one])
    · exact (abs_add_le _ _).trans (by rw [abs_one])

/-- `np.isclose` on integers of absolute value at most `90000`: equality. -/
theorem npClose {a b : ℝ} (ha : IntB 90000 a) (hb : IntB 90000 b) : npClose64 a b ↔ a = b := by
  unfold npClose64
  rw [fl (sub ha hb) (by norm_num)]
  constructor
  · intro h
    by_contra hne
    have h1 := one_le_abs (sub ha hb) (sub_ne_zero.2 hne)
    have ht := tiny_small
    have b1 := abs_le hb
    have b0 := abs_nonneg b
    have e8 := (_root_.abs_le.1 (FG.fl_err' (1 / 10 ^ 8))).2
    have e5 := (_root_.abs_le.1 (FG.fl_err' (1 / 10 ^ 5))).2
    rw [abs_of_pos (by norm_num)] at e8 e5
    have n5 : 0 ≤ _root_.fl (1 / 10 ^ 5) := fl_nonneg (by norm_num)
    have n8 : 0 ≤ _root_.fl (1 / 10 ^ 8) := fl_nonneg (by norm_num)
    have q5 : _root_.fl (1 / 10 ^ 5) ≤ 10001 / 10 ^ 9 := by norm_num at *; linarith
    have q8 : _root_.fl (1 / 10 ^ 8) ≤ 2 / 10 ^ 8 := by norm_num at *; linarith
    have m : _root_.fl (1 / 10 ^ 5) * |b| ≤ 10001 / 10 ^ 9 * 90000 := by
      gcongr
      exact_mod_cast b1
    have m0 : 0 ≤ _root_.fl (1 / 10 ^ 5) * |b| := by positivity
    have em := (_root_.abs_le.1 (FG.fl_err' (_root_.fl (1 / 10 ^ 5) * |b|))).2
    rw [abs_of_nonneg m0] at em
    have n0 : 0 ≤ _root_.fl (_root_.fl (1 / 10 ^ 5) * |b|) := fl_nonneg m0
    have es := (_root_.abs_le.1 (FG.fl_err' (_root_.fl (1 / 10 ^ 8) + _root_.fl (_root_.fl (1 / 10 ^ 5) * |b|)))).2
    rw [abs_of_nonneg (add_nonneg n8 n0)] at es
    norm_num at *
    linarith
  · rintro rfl
    rw [sub_self, abs_zero]
    exact fl_nonneg (add_nonneg (fl_nonneg (by norm_num)) (fl_nonneg (mul_nonneg (fl_nonneg (by norm_num)) (abs_nonneg _))))

theorem allclose {P Q : Pt} (hP : IntPt 90000 P) (hQ : IntPt 90000 Q) : allclose64 P Q ↔ P = Q := by
  unfold allclose64
  rw [npClose hP.1 hQ.1, npClose hP.2 hQ.2, Pt.ext_iff]

end FI
