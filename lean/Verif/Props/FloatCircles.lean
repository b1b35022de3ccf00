import Verif.Props.FloatLines
import Verif.Props.Circle2

/-!
# C116: circles with integer centers and radii in double precision
-/

open Spec Real Classical

namespace FI

/-- The computed squared distance of integer points. -/
theorem sqd {A B : ℕ} (k : Fma) {P Q : Pt} (hP : IntPt A P) (hQ : IntPt B Q) (h : (A + B) * (A + B) + (A + B) * (A + B) ≤ 2 ^ 53) :
    vdotF k (subF P Q) (subF P Q) = sqDist P Q ∧ IntB ((A + B) * (A + B) + (A + B) * (A + B)) (sqDist P Q) := by
  have hs : A + B ≤ 2 ^ 53 := by nlinarith
  obtain ⟨e, i⟩ := subPt hP hQ hs
  have e2 : sqDist P Q = (P - Q).x * (P - Q).x + (P - Q).y * (P - Q).y := by
    unfold sqDist; simp only [Pt.sub_x, Pt.sub_y]; ring
  refine ⟨by rw [e, vdot k i i h, e2], ?_⟩
  rw [e2]
  exact add (mul i.1 i.1) (mul i.2 i.2)

/-- `approx_equal_` on integers of absolute value at most `8e8`. -/
theorem approx_small {a b : ℝ} (ha : IntB 800000000 a) (hb : IntB 800000000 b) : approx_equalF a b ↔ a = b := by
  apply approx ha hb (by norm_num)
  intro hne
  have h := one_le_abs (sub ha hb) (sub_ne_zero.2 hne)
  have h1 := abs_le ha
  have h2 := abs_le hb
  generalize |a| = x at *
  generalize |b| = y at *
  generalize |a - b| = z at *
  norm_num at *
  constructor <;> linarith

/-- Comparisons with the tolerance added. -/
theorem gt_add {A : ℕ} {a b : ℝ} (ha : IntB A a) (hb : IntB A b) (hA : A ≤ 2 ^ 51) : a > _root_.fl (b + 1 / 2 ^ 26) ↔ b < a := by
  have dh : IsDouble (b + 1 / 2) := by
    obtain ⟨n, rfl, hn⟩ := hb
    have hA' : (A : ℤ) ≤ 2 ^ 51 := by exact_mod_cast hA
    refine ⟨2 * n + 1, -1, by norm_num, ?_, by push_cast; norm_num; ring⟩
    rw [_root_.abs_le] at hn ⊢
    constructor <;> linarith [hn.1, hn.2]
  constructor
  · intro h
    by_contra hc
    rw [not_lt] at hc
    have := fl_mono (x := a) (y := b + 1 / 2 ^ 26) (by norm_num; linarith)
    rw [fl ha (by omega)] at this
    linarith
  · intro h
    have h1 : 1 ≤ a - b := one_le (sub ha hb) (by linarith)
    have := fl_mono (x := b + 1 / 2 ^ 26) (y := b + 1 / 2) (by norm_num)
    rw [fl_double dh] at this
    linarith

theorem lt_sub {A : ℕ} {a b : ℝ} (ha : IntB A a) (hb : IntB A b) (hA : A ≤ 2 ^ 51) : a < _root_.fl (b - 1 / 2 ^ 26) ↔ a < b := by
  have h := gt_add (neg ha) (neg hb) hA
  rw [show -b + 1 / 2 ^ 26 = -(b - 1 / 2 ^ 26) by ring, fl_neg, gt_iff_lt, neg_lt_neg_iff, neg_lt_neg_iff] at h
  exact h

theorem lt_tol {A : ℕ} {a : ℝ} (ha : IntB A a) (h0 : 0 ≤ a) : a < 1 / 2 ^ 26 ↔ a = 0 := by
  constructor
  · intro h
    exact eq_zero ha (by rw [abs_of_nonneg h0]; exact h.trans (by norm_num))
  · rintro rfl
    norm_num

end FI

/-- C116: for integer data of moderate size `Circle.contains` is exact. -/
theorem C116_contains (k : Fma) (c : Circle) (P : Pt) (hc : IntPt (2 ^ 24) c.center) (hr : IntB (2 ^ 26) c.radius)
    (hP : IntPt (2 ^ 24) P) : c.containsF k P ↔ sqDist c.center P ≤ c.radius ^ 2 := by
  unfold Circle.containsF
  rw [(FI.sqd k hP hc (by norm_num)).1, FI.fl (FI.mul hr hr) (by norm_num), ← sq]
  unfold sqDist
  constructor <;> intro h <;> linarith [sq_abs (P.x - c.center.x)]

/-- C116: for integer data of moderate size `Circle.includes` is exact. -/
theorem C116_includes (k : Fma) (c : Circle) (P : Pt) (hc : IntPt 10000 c.center) (hr : IntB 20000 c.radius)
    (hP : IntPt 10000 P) : c.includesF k P ↔ OnCircle c.center c.radius P := by
  obtain ⟨e, i⟩ := FI.sqd k hP hc (by norm_num)
  unfold Circle.includesF
  rw [e, FI.fl (FI.mul hr hr) (by norm_num), FI.approx_small (FI.mono i (by norm_num)) (FI.mono (FI.mul hr hr) (by norm_num))]
  unfold OnCircle
  rw [sq c.radius]

/-- C116: for integer data of moderate size `Circle.is_orthogonal` is exact. -/
theorem C116_is_orthogonal (k : Fma) (c1 c2 : Circle) (h1 : IntPt 10000 c1.center) (g1 : IntB 20000 c1.radius)
    (h2 : IntPt 10000 c2.center) (g2 : IntB 20000 c2.radius) :
    c1.is_orthogonalF k c2 ↔ Orthogonal c1.center c1.radius c2.center c2.radius := by
  obtain ⟨e, i⟩ := FI.sqd k h1 h2 (by norm_num)
  have j := FI.add (FI.mul g1 g1) (FI.mul g2 g2)
  unfold Circle.is_orthogonalF
  rw [e, FI.fl (FI.mul g1 g1) (by norm_num), FI.fl (FI.mul g2 g2) (by norm_num), FI.fl j (by norm_num),
    FI.approx_small (FI.mono i (by norm_num)) (FI.mono j (by norm_num))]
  unfold Orthogonal
  rw [sq c1.radius, sq c2.radius]

/-- C116: larger circles may be taken for orthogonal: centers at distance `40000`, radii `40000` and `1`. -/
theorem C116_orthogonal_counterexample (k : Fma) : ∃ c1 c2 : Circle, IntPt 40000 c1.center ∧ IntB 40000 c1.radius ∧
    IntPt 40000 c2.center ∧ IntB 40000 c2.radius ∧ c1.is_orthogonalF k c2 ∧
    ¬ Orthogonal c1.center c1.radius c2.center c2.radius := by
  have z : IntB 40000 0 := ⟨0, by norm_num, by norm_num⟩
  have o : IntB 40000 1 := ⟨1, by norm_num, by norm_num⟩
  have t : IntB 40000 40000 := ⟨40000, by norm_num, by norm_num⟩
  refine ⟨⟨⟨0, 0⟩, 40000⟩, ⟨⟨40000, 0⟩, 1⟩, ⟨z, z⟩, t, ⟨t, z⟩, o, ?_, ?_⟩
  · obtain ⟨e, i⟩ := FI.sqd k (P := ⟨0, 0⟩) (Q := ⟨40000, 0⟩) ⟨z, z⟩ ⟨t, z⟩ (by norm_num)
    have j := FI.add (FI.mul t t) (FI.mul o o)
    unfold Circle.is_orthogonalF
    dsimp only
    rw [e, FI.fl (FI.mul t t) (by norm_num), FI.fl (FI.mul o o) (by norm_num), FI.fl j (by norm_num)]
    left
    right
    left
    have e1 : sqDist (⟨0, 0⟩ : Pt) ⟨40000, 0⟩ = 1600000000 := by unfold sqDist; norm_num
    have f1 : fl 1 = 1 := FI.fl o (by norm_num)
    have h1 := (abs_le.1 (FG.fl_err' (1 / 10 ^ 9))).1
    have ht := FI.tiny_small
    rw [abs_of_pos (by norm_num)] at h1
    have h2 : 9 / 10 ^ 10 ≤ fl (1 / 10 ^ 9) := by norm_num at *; linarith
    have h3 : 1 ≤ fl (1 / 10 ^ 9) * (40000 * 40000 + 1 * 1) := by norm_num at *; linarith
    rw [e1, show (40000 * 40000 + 1 * 1 - 1600000000 : ℝ) = 1 by norm_num, f1, abs_one]
    have h4 := fl_mono h3
    rw [f1] at h4
    exact h4.trans (le_abs_self _)
  · unfold Orthogonal sqDist
    norm_num

/-- Tangent circles have one common point at most. -/
theorem FI.tangent_unique {O₁ O₂ X Y : Pt} {r₁ r₂ : ℝ} (p1 : 0 < r₁) (p2 : 0 < r₂) (hO : O₁ ≠ O₂)
    (ht : sqDist O₁ O₂ = (r₁ + r₂) ^ 2 ∨ sqDist O₁ O₂ = (r₁ - r₂) ^ 2)
    (x1 : OnCircle O₁ r₁ X) (x2 : OnCircle O₂ r₂ X) (y1 : OnCircle O₁ r₁ Y) (y2 : OnCircle O₂ r₂ Y) : X = Y := by
  have key : ∀ e : ℝ, e ^ 2 = 1 → sqDist O₁ O₂ = (r₁ + e * r₂) ^ 2 → ∀ Z, OnCircle O₁ r₁ Z → OnCircle O₂ r₂ Z →
      (r₂ + e * r₁) * Z.x = r₂ * O₁.x + e * r₁ * O₂.x ∧ (r₂ + e * r₁) * Z.y = r₂ * O₁.y + e * r₁ * O₂.y := by
    intro e he hd Z z1 z2
    unfold OnCircle sqDist at z1 z2
    unfold sqDist at hd
    have h : (r₂ * (Z.x - O₁.x) + e * r₁ * (Z.x - O₂.x)) ^ 2 + (r₂ * (Z.y - O₁.y) + e * r₁ * (Z.y - O₂.y)) ^ 2 = 0 := by
      linear_combination (r₂ ^ 2 + e * r₁ * r₂) * z1 + (e ^ 2 * r₁ ^ 2 + e * r₁ * r₂) * z2 - e * r₁ * r₂ * hd -
        (r₁ ^ 2 * r₂ ^ 2 + r₁ * r₂ ^ 3 * e) * he
    have a : r₂ * (Z.x - O₁.x) + e * r₁ * (Z.x - O₂.x) = 0 := by
      apply pow_eq_zero_iff (two_ne_zero) |>.1
      linarith [sq_nonneg (r₂ * (Z.x - O₁.x) + e * r₁ * (Z.x - O₂.x)), sq_nonneg (r₂ * (Z.y - O₁.y) + e * r₁ * (Z.y - O₂.y))]
    have b : r₂ * (Z.y - O₁.y) + e * r₁ * (Z.y - O₂.y) = 0 := by
      apply pow_eq_zero_iff (two_ne_zero) |>.1
      linarith [sq_nonneg (r₂ * (Z.x - O₁.x) + e * r₁ * (Z.x - O₂.x)), sq_nonneg (r₂ * (Z.y - O₁.y) + e * r₁ * (Z.y - O₂.y))]
    constructor <;> linarith
  have fin : ∀ e : ℝ, e ^ 2 = 1 → sqDist O₁ O₂ = (r₁ + e * r₂) ^ 2 → r₂ + e * r₁ ≠ 0 → X = Y := by
    intro e he hd hne
    obtain ⟨a, b⟩ := key e he hd X x1 x2
    obtain ⟨c, d⟩ := key e he hd Y y1 y2
    ext
    · exact mul_left_cancel₀ hne (a.trans c.symm)
    · exact mul_left_cancel₀ hne (b.trans d.symm)
  rcases ht with h | h
  · exact fin 1 (by norm_num) (by rw [h]; ring) (by positivity)
  · refine fin (-1) (by norm_num) (by rw [h]; ring) ?_
    intro h0
    have : r₁ = r₂ := by linarith
    rw [this, sub_self] at h
    have := sqDist_pos hO
    rw [h] at this
    norm_num at this

/-- In exact arithmetic too, `Circle.is_equal` is equality for such circles. -/
theorem FI.is_equal_real {c1 c2 : Circle} (h1 : IntPt 90000 c1.center) (g1 : IntB 90000 c1.radius) (h2 : IntPt 90000 c2.center)
    (g2 : IntB 90000 c2.radius) (h : c1.is_equal c2) : c1 = c2 := by
  have np : ∀ a b : ℝ, IntB 90000 a → IntB 90000 b → _root_.npClose a b → a = b := by
    intro a b ha hb hab
    by_contra hne
    have h1 := FI.one_le_abs (FI.sub ha hb) (sub_ne_zero.2 hne)
    have h2 := FI.abs_le hb
    unfold _root_.npClose at hab
    norm_num at *
    linarith
  obtain ⟨ha, hx, hy⟩ := h
  have hr : c1.radius = c2.radius := by
    by_contra hne
    have k1 := approx_equal_bound ha
    have k2 := FI.one_le_abs (FI.sub g1 g2) (sub_ne_zero.2 hne)
    have k3 := max_le (FI.abs_le g1) (FI.abs_le g2)
    generalize max |c1.radius| |c2.radius| = z at *
    norm_num at *
    linarith
  exact Circle.ext (Pt.ext (np _ _ h1.1 h2.1 hx) (np _ _ h1.2 h2.2 hy)) hr

/-- C116: for integer data of moderate size `intersection_circle_circle` gives an answer of the right kind. -/
theorem C116_circle_circle (k : Fma) (c1 c2 : Circle) (h1 : IntPt 90000 c1.center) (g1 : IntB 90000 c1.radius)
    (p1 : 0 < c1.radius) (h2 : IntPt 90000 c2.center) (g2 : IntB 90000 c2.radius) (p2 : 0 < c2.radius) :
    (ccKindF k c1 c2 = .circle ∧ c1 = c2) ∨
    (ccKindF k c1 c2 = .none ∧ ¬ ∃ X, OnCircle c1.center c1.radius X ∧ OnCircle c2.center c2.radius X) ∨
    (ccKindF k c1 c2 = .one ∧ c1 ≠ c2 ∧ ∃! X, OnCircle c1.center c1.radius X ∧ OnCircle c2.center c2.radius X) ∨
    (ccKindF k c1 c2 = .two ∧ ∃ P Q, P ≠ Q ∧ ∀ X, (OnCircle c1.center c1.radius X ∧ OnCircle c2.center c2.radius X) ↔ X = P ∨ X = Q) := by
  have he : c1.is_equalF c2 ↔ c1 = c2 := by
    unfold Circle.is_equalF
    rw [FI.approx_small (FI.mono g1 (by norm_num)) (FI.mono g2 (by norm_num)), FI.allclose h1 h2, Circle.ext_iff, and_comm]
  by_cases hc : c1 = c2
  · left
    refine ⟨?_, hc⟩
    unfold ccKindF
    rw [if_pos (he.2 hc)]
  right
  obtain ⟨e, i⟩ := FI.sqd k h1 h2 (by norm_num)
  have i1 := FI.add g1 g2
  have i2 := FI.sub g1 g2
  have i3 := FI.mul i1 i1
  have i4 := FI.mul i2 i2
  have f1 := FI.fl i1 (by norm_num)
  have f2 := FI.fl i2 (by norm_num)
  have f3 := FI.fl i3 (by norm_num)
  have f4 := FI.fl i4 (by norm_num)
  have f5 := FI.fl (FI.sub i3 i) (by norm_num)
  have f6 := FI.fl (FI.sub i i4) (by norm_num)
  have hn : ¬ c1.is_equal c2 := fun hh => hc (FI.is_equal_real h1 g1 h2 g2 hh)
  have kind : ccKindF k c1 c2 =
      if (c1.radius + c2.radius) ^ 2 < sqDist c1.center c2.center ∨ sqDist c1.center c2.center < (c1.radius - c2.radius) ^ 2 then .none
      else if (c1.radius + c2.radius) ^ 2 = sqDist c1.center c2.center ∨ sqDist c1.center c2.center = (c1.radius - c2.radius) ^ 2 then .one
      else .two := by
    unfold ccKindF
    rw [if_neg (mt he.1 hc)]
    dsimp only
    have q1 := FI.gt_add i (FI.mono i3 (by norm_num)) (by norm_num)
    have q2 := FI.lt_sub i (FI.mono i4 (by norm_num)) (by norm_num)
    rw [← sq] at q1 q2
    rw [e, f1, f2, f3, f4, f5, f6]
    simp only [← sq]
    simp only [q1, q2]
    by_cases hq : (c1.radius + c2.radius) ^ 2 < sqDist c1.center c2.center ∨
        sqDist c1.center c2.center < (c1.radius - c2.radius) ^ 2
    · rw [if_pos hq, if_pos hq]
    · rw [if_neg hq, if_neg hq]
      push Not at hq
      have q3 := FI.lt_tol (FI.sub i3 i) (by rw [← sq]; linarith [hq.1])
      have q4 := FI.lt_tol (FI.sub i i4) (by rw [← sq]; linarith [hq.2])
      rw [← sq, sub_eq_zero] at q3 q4
      simp only [q3, q4]
  rw [kind]
  by_cases hq : (c1.radius + c2.radius) ^ 2 < sqDist c1.center c2.center ∨ sqDist c1.center c2.center < (c1.radius - c2.radius) ^ 2
  · left
    rw [if_pos hq]
    refine ⟨rfl, ?_⟩
    rintro ⟨X, x1, x2⟩
    have := common_ineq p1 p2 x1 x2
    rcases hq with hq | hq <;> linarith [this.1, this.2]
  right
  rw [if_neg hq]
  push Not at hq
  have hs : sepsilon_ = 1 / 2 ^ 26 := rfl
  by_cases ht : (c1.radius + c2.radius) ^ 2 = sqDist c1.center c2.center ∨ sqDist c1.center c2.center = (c1.radius - c2.radius) ^ 2
  · left
    rw [if_pos ht]
    have hO : c1.center ≠ c2.center := by
      intro h0
      have z : sqDist c1.center c2.center = 0 := by rw [h0]; unfold sqDist; ring
      have r : c1.radius = c2.radius := by
        have := hq.2
        rw [z] at this
        have : (c1.radius - c2.radius) ^ 2 = 0 := le_antisymm this (sq_nonneg _)
        have := pow_eq_zero_iff (two_ne_zero) |>.1 this
        linarith
      exact hc (Circle.ext h0 r)
    rcases icc_cases c1 c2 p1 p2 hn with ⟨h3, -⟩ | ⟨-, -, P, h3, h4⟩ | ⟨h5, h6, -⟩
    · exfalso
      rw [hs] at h3
      rcases h3 with h3 | h3 <;> norm_num at h3 <;> linarith [hq.1, hq.2]
    · refine ⟨rfl, hc, P, h4 hO hq.1 hq.2, ?_⟩
      rintro Y ⟨y1, y2⟩
      obtain ⟨q1, q2⟩ := h4 hO hq.1 hq.2
      exact FI.tangent_unique p1 p2 hO (ht.imp_left Eq.symm) y1 y2 q1 q2
    · exfalso
      rw [hs] at h5 h6
      norm_num at h5 h6
      rcases ht with ht | ht <;> linarith
  · right
    rw [if_neg ht]
    push Not at ht
    have k1 := FI.one_le (FI.sub i3 i) (by rw [← sq]; exact sub_pos.2 (lt_of_le_of_ne hq.1 (Ne.symm ht.1)))
    have k2 := FI.one_le (FI.sub i i4) (by rw [← sq]; exact sub_pos.2 (lt_of_le_of_ne hq.2 (Ne.symm ht.2)))
    rw [← sq] at k1 k2
    rcases icc_cases c1 c2 p1 p2 hn with ⟨h3, -⟩ | ⟨-, h3, -⟩ | ⟨-, -, P, Q, -, h4, h5⟩
    · exfalso
      rw [hs] at h3
      rcases h3 with h3 | h3 <;> norm_num at h3 <;> linarith [hq.1, hq.2]
    · exfalso
      rw [hs] at h3
      rcases h3 with h3 | h3 <;> norm_num at h3 <;> linarith
    · exact ⟨rfl, P, Q, h4, h5⟩

/-- The circle of center the origin and radius five: `(3, 4)` is on it and in it, `(4, 4)` is not; it is orthogonal to the circle of center
`(13, 0)` and radius twelve. -/
example (k : Fma) : (⟨⟨0, 0⟩, 5⟩ : Circle).includesF k ⟨3, 4⟩ ∧ (⟨⟨0, 0⟩, 5⟩ : Circle).containsF k ⟨3, 4⟩ ∧
    ¬ (⟨⟨0, 0⟩, 5⟩ : Circle).includesF k ⟨4, 4⟩ ∧ ¬ (⟨⟨0, 0⟩, 5⟩ : Circle).containsF k ⟨4, 4⟩ ∧
    (⟨⟨0, 0⟩, 5⟩ : Circle).is_orthogonalF k ⟨⟨13, 0⟩, 12⟩ := by
  have i : ∀ m : ℤ, |m| ≤ 10000 → IntB 10000 m := fun m h => ⟨m, rfl, by exact_mod_cast h⟩
  have a : IntPt 10000 ⟨0, 0⟩ := ⟨by simpa using i 0 (by norm_num), by simpa using i 0 (by norm_num)⟩
  have b : IntPt 10000 ⟨3, 4⟩ := ⟨by simpa using i 3 (by norm_num), by simpa using i 4 (by norm_num)⟩
  have c : IntPt 10000 ⟨4, 4⟩ := ⟨by simpa using i 4 (by norm_num), by simpa using i 4 (by norm_num)⟩
  have d : IntPt 10000 ⟨13, 0⟩ := ⟨by simpa using i 13 (by norm_num), by simpa using i 0 (by norm_num)⟩
  have r : IntB 20000 5 := ⟨5, by norm_num, by norm_num⟩
  have s : IntB 20000 12 := ⟨12, by norm_num, by norm_num⟩
  have up : ∀ P, IntPt 10000 P → IntPt (2 ^ 24) P := fun P h => ⟨FI.mono h.1 (by norm_num), FI.mono h.2 (by norm_num)⟩
  refine ⟨(C116_includes k _ _ a r b).2 ?_, (C116_contains k _ _ (up _ a) (FI.mono r (by norm_num)) (up _ b)).2 ?_, fun h => ?_,
    fun h => ?_, (C116_is_orthogonal k _ _ a r d s).2 ?_⟩
  · norm_num [OnCircle, sqDist]
  · norm_num [sqDist]
  · have := (C116_includes k _ _ a r c).1 h
    norm_num [OnCircle, sqDist] at this
  · have := (C116_contains k _ _ (up _ a) (FI.mono r (by norm_num)) (up _ c)).1 h
    norm_num [sqDist] at this
  · norm_num [Orthogonal, sqDist]

/-- The circles of radii five and three with centers the origin and `(8, 0)` touch, and the answer is one point. -/
example (k : Fma) : ccKindF k ⟨⟨0, 0⟩, 5⟩ ⟨⟨8, 0⟩, 3⟩ = .one := by
  have i : ∀ m : ℤ, |m| ≤ 90000 → IntB 90000 m := fun m h => ⟨m, rfl, by exact_mod_cast h⟩
  have z : IntB 90000 0 := by simpa using i 0 (by norm_num)
  have e : IntB 90000 8 := by simpa using i 8 (by norm_num)
  have r : IntB 90000 5 := by simpa using i 5 (by norm_num)
  have s : IntB 90000 3 := by simpa using i 3 (by norm_num)
  have on : OnCircle (⟨0, 0⟩ : Pt) 5 ⟨5, 0⟩ ∧ OnCircle (⟨8, 0⟩ : Pt) 3 ⟨5, 0⟩ := by norm_num [OnCircle, sqDist]
  have uni : ∀ X, OnCircle (⟨0, 0⟩ : Pt) 5 X ∧ OnCircle (⟨8, 0⟩ : Pt) 3 X → X = ⟨5, 0⟩ := by
    rintro X ⟨h1, h2⟩
    unfold OnCircle sqDist at h1 h2
    have hx : X.x = 5 := by norm_num at h1 h2; linarith
    have hy : X.y = 0 := by
      rw [hx] at h1
      norm_num at h1
      exact h1
    exact Pt.ext hx hy
  rcases C116_circle_circle k ⟨⟨0, 0⟩, 5⟩ ⟨⟨8, 0⟩, 3⟩ ⟨z, z⟩ r (by norm_num) ⟨e, z⟩ s (by norm_num) with
    ⟨-, h⟩ | ⟨-, h⟩ | ⟨h, -⟩ | ⟨-, P, Q, hne, h⟩
  · have := congrArg Circle.radius h
    norm_num at this
  · exact absurd ⟨_, on⟩ h
  · exact h
  · exact absurd ((uni P ((h P).2 (Or.inl rfl))).trans (uni Q ((h Q).2 (Or.inr rfl))).symm) hne
