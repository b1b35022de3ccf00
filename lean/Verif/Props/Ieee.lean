import Verif.Model.Ieee
import Verif.Lemmas.FloatInt

/-!
# C118: infinities, nan and overflow
-/

open Spec Real Classical

/-- Both coordinates are at most `2^e` in absolute value. -/
def Spec.Below (e : ℕ) (P : Pt) : Prop := |P.x| ≤ 2 ^ e ∧ |P.y| ≤ 2 ^ e

/-- A coordinate of the point is nan. -/
def Spec.HasNan (P : PtI) : Prop := P.x = .nan ∨ P.y = .nan

namespace Ieee

theorem fl_le_pow {x : ℝ} {e : ℕ} (h : |x| ≤ 2 ^ e) : |fl x| ≤ 2 ^ e := by
  have hd : fl ((2 : ℝ) ^ e) = 2 ^ e := by
    have := fl_double (isDouble_pow (e : ℤ) (by omega))
    rwa [zpow_natCast] at this
  rw [abs_le] at h ⊢
  have h1 := fl_mono h.1
  have h2 := fl_mono h.2
  rw [fl_neg] at h1
  rw [hd] at h1 h2
  exact ⟨h1, h2⟩

theorem pow_le_max : (2 : ℝ) ^ 1023 ≤ maxDouble := by
  unfold maxDouble
  have : (2 : ℝ) ^ 971 ≤ 2 ^ 1023 := pow_le_pow_right₀ (by norm_num) (by norm_num)
  have e : (2 : ℝ) ^ 1024 = 2 * 2 ^ 1023 := by rw [← pow_succ']
  rw [e]
  generalize (2 : ℝ) ^ 1023 = a at *
  generalize (2 : ℝ) ^ 971 = b at *
  linarith

/-- No overflow below `2^1023`. -/
theorem flo_fin {x : ℝ} (h : |x| ≤ 2 ^ 1023) : flo x = .fin (fl x) := by
  unfold flo
  rw [if_pos ((fl_le_pow h).trans pow_le_max)]

theorem flo_of_fl {x : ℝ} (h : |fl x| ≤ 2 ^ 1023) : flo x = .fin (fl x) := by
  unfold flo
  rw [if_pos (h.trans pow_le_max)]

/-- Overflow from `2^1024` on. -/
theorem flo_inf {x : ℝ} (h : 2 ^ 1024 ≤ x) : flo x = .inf false := by
  have hd : fl ((2 : ℝ) ^ 1024) = 2 ^ 1024 := by
    have := fl_double (isDouble_pow (1024 : ℤ) (by omega))
    rwa [show (1024 : ℤ) = ((1024 : ℕ) : ℤ) from rfl, zpow_natCast] at this
  have h1 := fl_mono h
  rw [hd] at h1
  have h0 : (0 : ℝ) < 2 ^ 1024 := by positivity
  have h2 : (0 : ℝ) < 2 ^ 971 := by positivity
  unfold flo maxDouble
  clear hd
  generalize (2 : ℝ) ^ 1024 = a at *
  generalize (2 : ℝ) ^ 971 = b at *
  rw [if_neg]
  · rw [decide_eq_false]
    linarith
  · rw [abs_of_pos (by linarith)]
    linarith

theorem sub_fin {x y : ℝ} {e : ℕ} (hx : |x| ≤ 2 ^ e) (hy : |y| ≤ 2 ^ e) (he : e + 1 ≤ 1023) :
    F64.sub (.fin x) (.fin y) = .fin (fl (x - y)) ∧ |fl (x - y)| ≤ 2 ^ (e + 1) := by
  have h : |x - y| ≤ 2 ^ (e + 1) := by
    rw [pow_succ']
    linarith [abs_sub x y]
  refine ⟨?_, fl_le_pow h⟩
  rw [show F64.sub (.fin x) (.fin y) = flo (x + -y) from rfl, ← sub_eq_add_neg]
  exact flo_fin (h.trans (pow_le_pow_right₀ (by norm_num) he))

theorem add_fin {x y : ℝ} {e : ℕ} (hx : |x| ≤ 2 ^ e) (hy : |y| ≤ 2 ^ e) (he : e + 1 ≤ 1023) :
    F64.add (.fin x) (.fin y) = .fin (fl (x + y)) ∧ |fl (x + y)| ≤ 2 ^ (e + 1) := by
  have h : |x + y| ≤ 2 ^ (e + 1) := by
    rw [pow_succ']
    linarith [abs_add_le x y]
  refine ⟨?_, fl_le_pow h⟩
  unfold F64.add
  exact flo_fin (h.trans (pow_le_pow_right₀ (by norm_num) he))

theorem mul_le {x y : ℝ} {a b : ℕ} (hx : |x| ≤ 2 ^ a) (hy : |y| ≤ 2 ^ b) : |x * y| ≤ 2 ^ (a + b) := by
  rw [abs_mul, pow_add]
  exact mul_le_mul hx hy (abs_nonneg _) (by positivity)

theorem mul_fin {x y : ℝ} {a b : ℕ} (hx : |x| ≤ 2 ^ a) (hy : |y| ≤ 2 ^ b) (he : a + b ≤ 1023) :
    F64.mul (.fin x) (.fin y) = .fin (fl (x * y)) ∧ |fl (x * y)| ≤ 2 ^ (a + b) := by
  have h := mul_le hx hy
  refine ⟨?_, fl_le_pow h⟩
  unfold F64.mul
  exact flo_fin (h.trans (pow_le_pow_right₀ (by norm_num) he))

theorem subPt {e : ℕ} {P Q : Pt} (hP : Below e P) (hQ : Below e Q) (he : e + 1 ≤ 1023) :
    subI (.of P) (.of Q) = .of (subF P Q) ∧ Below (e + 1) (subF P Q) := by
  obtain ⟨h1, g1⟩ := sub_fin hP.1 hQ.1 he
  obtain ⟨h2, g2⟩ := sub_fin hP.2 hQ.2 he
  refine ⟨?_, g1, g2⟩
  unfold subI PtI.of
  dsimp only
  rw [h1, h2]
  rfl

theorem vdot {e : ℕ} (k : Fma) {u v : Pt} (hu : Below e u) (hv : Below e v) (he : e + e + 1 ≤ 1023) :
    vdotI k (.of u) (.of v) = .fin (vdotF k u v) ∧ |vdotF k u v| ≤ 2 ^ (e + e + 1) := by
  obtain ⟨h1, g1⟩ := mul_fin hu.1 hv.1 (by omega)
  obtain ⟨h2, g2⟩ := mul_fin hu.2 hv.2 (by omega)
  have e1 := mul_le hu.1 hv.1
  have e2 := mul_le hu.2 hv.2
  have up : (2 : ℝ) ^ (e + e + 1) ≤ 2 ^ 1023 := pow_le_pow_right₀ (by norm_num) he
  have s : ∀ a b : ℝ, |a| ≤ 2 ^ (e + e) → |b| ≤ 2 ^ (e + e) → |a + b| ≤ 2 ^ (e + e + 1) := by
    intro a b ha hb
    rw [pow_succ']
    linarith [abs_add_le a b]
  cases k
  · unfold vdotI vdotF PtI.of
    dsimp only
    rw [h1, h2]
    exact add_fin g1 g2 he
  · unfold vdotI vdotF PtI.of
    dsimp only
    rw [h2]
    have := s _ _ e1 g2
    exact ⟨flo_fin (this.trans up), fl_le_pow this⟩
  · unfold vdotI vdotF PtI.of
    dsimp only
    rw [h1]
    have := s _ _ g1 e2
    rw [show F64.fma (.fin u.y) (.fin v.y) (.fin (fl (u.x * v.x))) = flo (u.y * v.y + fl (u.x * v.x)) from rfl, add_comm]
    exact ⟨flo_fin (this.trans up), fl_le_pow this⟩

theorem le_fin (x y : ℝ) : F64.le (.fin x) (.fin y) ↔ x ≤ y := le_iff_lt_or_eq.symm

theorem det {a b c d : ℝ} {m n : ℕ} (ha : |a| ≤ 2 ^ m) (hb : |b| ≤ 2 ^ n) (hc : |c| ≤ 2 ^ m) (hd : |d| ≤ 2 ^ n)
    (he : m + n + 1 ≤ 1023) : det2x2I (.fin a) (.fin b) (.fin c) (.fin d) = .fin (det2x2F a b c d) ∧
      |det2x2F a b c d| ≤ 2 ^ (m + n + 1) := by
  obtain ⟨h1, g1⟩ := mul_fin ha hd (by omega)
  obtain ⟨h2, g2⟩ := mul_fin hc hb (by omega)
  unfold det2x2I det2x2F
  rw [h1, h2]
  exact sub_fin g1 g2 he

theorem isclose {x y : ℝ} (hx : |x| ≤ 2 ^ 1022) (hy : |y| ≤ 2 ^ 1022) : iscloseI (.fin x) (.fin y) ↔ iscloseF x y := by
  have h9 : flo (1 / 10 ^ 9) = .fin (fl (1 / 10 ^ 9)) := flo_fin (by
    rw [abs_of_pos (by positivity)]
    exact le_trans (by norm_num : (1 : ℝ) / 10 ^ 9 ≤ 2 ^ 0) (pow_le_pow_right₀ (by norm_num) (by norm_num)))
  have b9 : |fl (1 / 10 ^ 9)| ≤ 2 ^ 0 := fl_le_pow (by rw [abs_of_pos (by positivity)]; norm_num)
  obtain ⟨h1, -⟩ := sub_fin hy hx (by norm_num)
  obtain ⟨h2, -⟩ := mul_fin b9 hy (by norm_num)
  obtain ⟨h3, -⟩ := mul_fin b9 hx (by norm_num)
  unfold iscloseI iscloseF
  dsimp only
  rw [h9, h1, h2, h3]
  unfold F64.abs
  rw [le_fin, le_fin]
  rfl

theorem approx {x y : ℝ} (hx : |x| ≤ 2 ^ 1021) (hy : |y| ≤ 2 ^ 1021) : approx_equalI (.fin x) (.fin y) ↔ approx_equalF x y := by
  have one : |(1 : ℝ)| ≤ 2 ^ 1021 := by
    rw [abs_one]; exact one_le_pow₀ (by norm_num)
  obtain ⟨h1, g1⟩ := add_fin hx one (by norm_num)
  obtain ⟨h2, g2⟩ := add_fin hy one (by norm_num)
  have up : (2 : ℝ) ^ 1021 ≤ 2 ^ 1022 := pow_le_pow_right₀ (by norm_num) (by norm_num)
  unfold approx_equalI approx_equalF
  rw [h1, h2, isclose (hx.trans up) (hy.trans up), isclose g1 g2]

theorem npClose {x y : ℝ} (hx : |x| ≤ 2 ^ 1022) (hy : |y| ≤ 2 ^ 1022) : npCloseI (.fin x) (.fin y) ↔ npClose64 x y := by
  have c : ∀ a : ℝ, 0 < a → a ≤ 1 → flo a = .fin (fl a) ∧ |fl a| ≤ 2 ^ 0 := by
    intro a ha h1
    refine ⟨flo_fin ?_, fl_le_pow (by rw [abs_of_pos ha]; simpa using h1)⟩
    rw [abs_of_pos ha]
    exact h1.trans (one_le_pow₀ (by norm_num))
  obtain ⟨h8, b8⟩ := c (1 / 10 ^ 8) (by positivity) (by norm_num)
  obtain ⟨h5, b5⟩ := c (1 / 10 ^ 5) (by positivity) (by norm_num)
  obtain ⟨h1, -⟩ := sub_fin hx hy (by norm_num)
  obtain ⟨h2, g2⟩ := mul_fin b5 (by rw [abs_abs]; exact hy : |(|y|)| ≤ 2 ^ 1022) (by norm_num)
  obtain ⟨h3, -⟩ := add_fin (b8.trans (pow_le_pow_right₀ (by norm_num) (by norm_num) : (2 : ℝ) ^ 0 ≤ 2 ^ (0 + 1022))) g2 (by norm_num)
  unfold npCloseI npClose64
  dsimp only
  rw [h8, h5, h1, h2, h3]
  unfold F64.abs
  rw [le_fin]
  constructor
  · rintro (h | h)
    · exact h
    · have : x = y := h
      rw [this, sub_self, fl_zero, abs_zero]
      exact fl_nonneg (add_nonneg (fl_nonneg (by norm_num)) (fl_nonneg (mul_nonneg (fl_nonneg (by norm_num)) (abs_nonneg _))))
  · exact Or.inl

theorem allclose {P Q : Pt} (hP : Below 1022 P) (hQ : Below 1022 Q) : allcloseI (.of P) (.of Q) ↔ allclose64 P Q := by
  unfold allcloseI allclose64 PtI.of
  rw [npClose hP.1 hQ.1, npClose hP.2 hQ.2]

theorem _root_.Spec.Below.mono {e e' : ℕ} {P : Pt} (h : Below e P) (he : e ≤ e') : Below e' P :=
  ⟨h.1.trans (pow_le_pow_right₀ (by norm_num) he), h.2.trans (pow_le_pow_right₀ (by norm_num) he)⟩

theorem sqd (k : Fma) {P Q : Pt} (hP : Below 508 P) (hQ : Below 508 Q) :
    vdotI k (subI (.of P) (.of Q)) (subI (.of P) (.of Q)) = .fin (vdotF k (subF P Q) (subF P Q)) ∧
      |vdotF k (subF P Q) (subF P Q)| ≤ 2 ^ 1019 := by
  obtain ⟨h, g⟩ := subPt hP hQ (by norm_num)
  rw [h]
  exact vdot k g g (by norm_num)

end Ieee

/-- C118: for data of absolute value at most `2^508` there is neither overflow nor nan in the methods of a circle: the functions are those of
`Verif/Model/FloatGeom.lean`. -/
theorem C118_circle_agrees (k : Fma) (c : Circle) (P : Pt) (hc : Below 508 c.center) (hr : |c.radius| ≤ 2 ^ 508) (hP : Below 508 P) :
    ((CircleI.of c).contains k (.of P) ↔ c.containsF k P) ∧ ((CircleI.of c).includes k (.of P) ↔ c.includesF k P) ∧
    (CircleI.of c).power k (.of P) = .fin (c.powerF k P) ∧ distanceI k (.of c.center) (.of P) = .fin (distanceF k c.center P) := by
  obtain ⟨h, g⟩ := Ieee.sqd k hP hc
  obtain ⟨h2, g2⟩ := Ieee.mul_fin hr hr (by norm_num)
  have up : (2 : ℝ) ^ 1019 ≤ 2 ^ 1021 := pow_le_pow_right₀ (by norm_num) (by norm_num)
  have up2 : (2 : ℝ) ^ (508 + 508) ≤ 2 ^ 1019 := pow_le_pow_right₀ (by norm_num) (by norm_num)
  refine ⟨?_, ?_, ?_, ?_⟩
  · show F64.le (vdotI k (subI (.of P) (.of c.center)) (subI (.of P) (.of c.center))) (F64.mul (.fin c.radius) (.fin c.radius)) ↔ _
    rw [h, h2, Ieee.le_fin]
    rfl
  · show approx_equalI (vdotI k (subI (.of P) (.of c.center)) (subI (.of P) (.of c.center))) (F64.mul (.fin c.radius) (.fin c.radius)) ↔ _
    rw [h, h2, Ieee.approx (g.trans up) (g2.trans (up2.trans up))]
    rfl
  · show F64.sub (vdotI k (subI (.of P) (.of c.center)) (subI (.of P) (.of c.center))) (F64.mul (.fin c.radius) (.fin c.radius)) = _
    rw [h, h2, (Ieee.sub_fin g (g2.trans up2) (by norm_num)).1]
    rfl
  · unfold distanceI
    rw [h]
    unfold F64.sqrt
    dsimp only
    rw [if_neg]
    · rfl
    · rw [not_lt]
      unfold vdotF
      cases k
      · exact fl_nonneg (add_nonneg (fl_nonneg (mul_self_nonneg _)) (fl_nonneg (mul_self_nonneg _)))
      · exact fl_nonneg (add_nonneg (mul_self_nonneg _) (fl_nonneg (mul_self_nonneg _)))
      · exact fl_nonneg (add_nonneg (fl_nonneg (mul_self_nonneg _)) (mul_self_nonneg _))

/-- Small coordinates are far below the bounds. -/
theorem below_small {n : ℕ} (hn : 2 ≤ n) {P : Pt} (hx : |P.x| ≤ 4) (hy : |P.y| ≤ 4) : Below n P := by
  have h : (4 : ℝ) ≤ 2 ^ n := by
    calc (4 : ℝ) = 2 ^ 2 := by norm_num
      _ ≤ 2 ^ n := pow_le_pow_right₀ (by norm_num) hn
  exact ⟨hx.trans h, hy.trans h⟩

/-- The power of `(3, 4)` with respect to the unit circle. -/
example (k : Fma) : (CircleI.of ⟨⟨0, 0⟩, 1⟩).power k (.of ⟨3, 4⟩) = .fin ((⟨⟨0, 0⟩, 1⟩ : Circle).powerF k ⟨3, 4⟩) :=
  (C118_circle_agrees k ⟨⟨0, 0⟩, 1⟩ ⟨3, 4⟩ (below_small (by norm_num) (by norm_num) (by norm_num)) (by rw [abs_one]; exact one_le_pow₀ (by norm_num)) (below_small (by norm_num) (by norm_num) (by norm_num))).2.2.1

/-- C118: equality of circles, and the checks made by the constructors of circles and lines, for data of absolute value at most `2^1021`. -/
theorem C118_constructors_agree (c c' : Circle) (A B : Pt) (hc : Below 1021 c.center) (hr : |c.radius| ≤ 2 ^ 1021)
    (hc' : Below 1021 c'.center) (hr' : |c'.radius| ≤ 2 ^ 1021) (hA : Below 1021 A) (hB : Below 1021 B) :
    ((CircleI.of c).is_equal (.of c') ↔ c.is_equalF c') ∧ (allcloseI (.of A) (.of B) ↔ allclose64 A B) ∧
    ((∃ d, mkCircleI (.of c.center) (.fin c.radius) = .ok d) ↔ 0 < c.radius) ∧
    ((∃ l, mkLineI (.of A) (.of B) = .ok l) ↔ ¬ allclose64 A B) := by
  have ac := Ieee.allclose (hA.mono (by norm_num : 1021 ≤ 1022)) (hB.mono (by norm_num : 1021 ≤ 1022))
  refine ⟨?_, ac, ?_, ?_⟩
  · show approx_equalI (.fin c.radius) (.fin c'.radius) ∧ allcloseI (.of c.center) (.of c'.center) ↔ _
    rw [Ieee.approx hr hr', Ieee.allclose (hc.mono (by norm_num)) (hc'.mono (by norm_num))]
    rfl
  · unfold mkCircleI
    rw [Ieee.le_fin]
    by_cases h : c.radius ≤ 0
    · simp [h]
    · simp [h, not_le.1 h]
  · unfold mkLineI
    rw [ac]
    by_cases h : allclose64 A B
    · simp [h]
    · simp [h]

/-- A circle of radius `3` is constructed, one of radius `-3` is not. -/
example : (∃ d, mkCircleI (.of ⟨1, 2⟩) (.fin 3) = .ok d) ∧ ¬ ∃ d, mkCircleI (.of ⟨1, 2⟩) (.fin (-3)) = .ok d := by
  have b : Below 1021 ⟨1, 2⟩ := below_small (by norm_num) (by norm_num) (by norm_num)
  have r : |(3 : ℝ)| ≤ 2 ^ 1021 := by
    rw [abs_of_pos (by norm_num)]
    exact (by norm_num : (3 : ℝ) ≤ 2 ^ 2).trans (pow_le_pow_right₀ (by norm_num) (by norm_num))
  have r' : |(-3 : ℝ)| ≤ 2 ^ 1021 := by rwa [abs_neg]
  refine ⟨(C118_constructors_agree ⟨⟨1, 2⟩, 3⟩ ⟨⟨1, 2⟩, 3⟩ ⟨1, 2⟩ ⟨1, 2⟩ b r b r b b).2.2.1.2 (by norm_num), fun h => ?_⟩
  have := (C118_constructors_agree ⟨⟨1, 2⟩, -3⟩ ⟨⟨1, 2⟩, 3⟩ ⟨1, 2⟩ ⟨1, 2⟩ b r' b r b b).2.2.1.1 h
  norm_num at this

/-- C118: the functions of two lines through points with coordinates of absolute value at most `2^330`. -/
theorem C118_line_agrees (k : Fma) (l1 l2 : Line) (h1 : Below 330 l1.A) (h2 : Below 330 l1.B) (h3 : Below 330 l2.A) (h4 : Below 330 l2.B) :
    ((LineI.of l1).is_parallel (.of l2) ↔ l1.is_parallelF l2) ∧
    ((LineI.of l1).is_perpendicular k (.of l2) ↔ l1.is_perpendicularF k l2) ∧
    ((LineI.of l1).intersection (.of l2) = none ↔ line_line_intersectionF l1.A l1.B l2.A l2.B = none) ∧
    ∀ I, line_line_intersectionF l1.A l1.B l2.A l2.B = some I → Below 1023 I → (LineI.of l1).intersection (.of l2) = some (.of I) := by
  obtain ⟨ex1, gx1⟩ := Ieee.sub_fin h1.1 h2.1 (by norm_num)
  obtain ⟨ey1, gy1⟩ := Ieee.sub_fin h1.2 h2.2 (by norm_num)
  obtain ⟨ex2, gx2⟩ := Ieee.sub_fin h3.1 h4.1 (by norm_num)
  obtain ⟨ey2, gy2⟩ := Ieee.sub_fin h3.2 h4.2 (by norm_num)
  obtain ⟨eD, gD⟩ := Ieee.det gx1 gy1 gx2 gy2 (by norm_num)
  obtain ⟨e1, g1⟩ := Ieee.det h1.1 h1.2 h2.1 h2.2 (by norm_num)
  obtain ⟨e2, g2⟩ := Ieee.det h3.1 h3.2 h4.1 h4.2 (by norm_num)
  obtain ⟨eX, -⟩ := Ieee.det g1 gx1 g2 gx2 (by norm_num)
  obtain ⟨eY, -⟩ := Ieee.det g1 gy1 g2 gy2 (by norm_num)
  have int : (LineI.of l1).intersection (.of l2) =
      if det2x2F (fl (l1.A.x - l1.B.x)) (fl (l1.A.y - l1.B.y)) (fl (l2.A.x - l2.B.x)) (fl (l2.A.y - l2.B.y)) = 0 then none
      else some ⟨flo (det2x2F (det2x2F l1.A.x l1.A.y l1.B.x l1.B.y) (fl (l1.A.x - l1.B.x)) (det2x2F l2.A.x l2.A.y l2.B.x l2.B.y)
          (fl (l2.A.x - l2.B.x)) / det2x2F (fl (l1.A.x - l1.B.x)) (fl (l1.A.y - l1.B.y)) (fl (l2.A.x - l2.B.x)) (fl (l2.A.y - l2.B.y))),
        flo (det2x2F (det2x2F l1.A.x l1.A.y l1.B.x l1.B.y) (fl (l1.A.y - l1.B.y)) (det2x2F l2.A.x l2.A.y l2.B.x l2.B.y)
          (fl (l2.A.y - l2.B.y)) / det2x2F (fl (l1.A.x - l1.B.x)) (fl (l1.A.y - l1.B.y)) (fl (l2.A.x - l2.B.x)) (fl (l2.A.y - l2.B.y)))⟩ := by
    unfold LineI.intersection LineI.of PtI.of
    dsimp only
    rw [ex1, ey1, ex2, ey2, eD, e1, e2, eX, eY]
    rfl
  refine ⟨?_, ?_, ?_, ?_⟩
  · unfold LineI.is_parallel LineI.of PtI.of
    dsimp only
    rw [ex1, ey1, ex2, ey2, eD]
    rfl
  · obtain ⟨s1, t1⟩ := Ieee.subPt h2 h1 (by norm_num)
    obtain ⟨s2, t2⟩ := Ieee.subPt h4 h3 (by norm_num)
    obtain ⟨v, w⟩ := Ieee.vdot k t1 t2 (by norm_num)
    show approx_equalI (vdotI k (subI (.of l1.B) (.of l1.A)) (subI (.of l2.B) (.of l2.A))) (.fin 0) ↔ _
    rw [s1, s2, v, Ieee.approx (w.trans (pow_le_pow_right₀ (by norm_num) (by norm_num))) (by rw [abs_zero]; positivity)]
    rfl
  · rw [int]
    unfold line_line_intersectionF
    dsimp only
    split_ifs <;> simp
  · intro I hI hb
    rw [int]
    unfold line_line_intersectionF at hI
    dsimp only at hI
    split_ifs at hI with hD
    rw [if_neg hD]
    rw [Option.some.injEq] at hI ⊢
    rw [← hI] at hb ⊢
    rw [Ieee.flo_of_fl hb.1, Ieee.flo_of_fl hb.2]
    rfl

/-- The parallelism of two lines. -/
example (k : Fma) : (LineI.of ⟨⟨0, 0⟩, ⟨3, 1⟩, true, true⟩).is_parallel (.of ⟨⟨1, 2⟩, ⟨4, 3⟩, true, true⟩) ↔
    (⟨⟨0, 0⟩, ⟨3, 1⟩, true, true⟩ : Line).is_parallelF ⟨⟨1, 2⟩, ⟨4, 3⟩, true, true⟩ :=
  (C118_line_agrees k ⟨⟨0, 0⟩, ⟨3, 1⟩, true, true⟩ ⟨⟨1, 2⟩, ⟨4, 3⟩, true, true⟩ (below_small (by norm_num) (by norm_num) (by norm_num))
    (below_small (by norm_num) (by norm_num) (by norm_num)) (below_small (by norm_num) (by norm_num) (by norm_num))
    (below_small (by norm_num) (by norm_num) (by norm_num))).1

/-- C118: the orientation of a triangle with coordinates of absolute value at most `2^510`. -/
theorem C118_orientation_agrees (T : Triangle) (hA : Below 510 T.A) (hB : Below 510 T.B) (hC : Below 510 T.C) :
    (TriangleI.of T).orientation = T.orientationF := by
  obtain ⟨e1, g1⟩ := Ieee.sub_fin hB.2 hA.2 (by norm_num)
  obtain ⟨e2, g2⟩ := Ieee.sub_fin hC.1 hB.1 (by norm_num)
  obtain ⟨e3, g3⟩ := Ieee.sub_fin hB.1 hA.1 (by norm_num)
  obtain ⟨e4, g4⟩ := Ieee.sub_fin hC.2 hB.2 (by norm_num)
  obtain ⟨e5, g5⟩ := Ieee.mul_fin g1 g2 (by norm_num)
  obtain ⟨e6, g6⟩ := Ieee.mul_fin g3 g4 (by norm_num)
  obtain ⟨e7, -⟩ := Ieee.sub_fin g5 g6 (by norm_num)
  unfold TriangleI.orientation TriangleI.of PtI.of Triangle.orientationF
  dsimp only
  rw [e1, e2, e3, e4, e5, e6, e7]
  rfl

/-- The orientation of an ordinary triangle, with special values and without. -/
example : (TriangleI.of ⟨⟨0, 0⟩, ⟨3, 1⟩, ⟨1, 2⟩⟩).orientation = (⟨⟨0, 0⟩, ⟨3, 1⟩, ⟨1, 2⟩⟩ : Triangle).orientationF :=
  C118_orientation_agrees _ (below_small (by norm_num) (by norm_num) (by norm_num)) (below_small (by norm_num) (by norm_num) (by norm_num)) (below_small (by norm_num) (by norm_num) (by norm_num))

namespace Ieee

theorem nan_add (x : F64) : F64.add .nan x = .nan := by cases x <;> rfl
theorem add_nan (x : F64) : F64.add x .nan = .nan := by cases x <;> rfl
theorem nan_sub (x : F64) : F64.sub .nan x = .nan := nan_add _
theorem sub_nan (x : F64) : F64.sub x .nan = .nan := add_nan _
theorem nan_mul (x : F64) : F64.mul .nan x = .nan := by cases x <;> rfl
theorem mul_nan (x : F64) : F64.mul x .nan = .nan := by cases x <;> rfl
theorem nan_div (x : F64) : F64.div .nan x = .nan := by cases x <;> rfl
theorem div_nan (x : F64) : F64.div x .nan = .nan := by cases x <;> rfl
theorem nan_fma (x y : F64) : F64.fma .nan x y = .nan := by
  show F64.add (F64.mul .nan x) y = .nan
  rw [nan_mul, nan_add]
theorem fma_nan (x y : F64) : F64.fma x y .nan = .nan := by
  cases x <;> cases y <;> first | rfl | exact add_nan _
theorem nan_le (x : F64) : ¬ F64.le .nan x := by
  cases x <;> simp [F64.le, F64.lt, F64.eq]
theorem le_nan (x : F64) : ¬ F64.le x .nan := by
  cases x <;> simp [F64.le, F64.lt, F64.eq]
theorem lt_nan (x : F64) : ¬ F64.lt x .nan := by
  cases x <;> simp [F64.lt]
theorem eq_nan (x : F64) : ¬ F64.eq x .nan := by
  cases x <;> simp [F64.eq]
theorem nan_eq (x : F64) : ¬ F64.eq .nan x := by
  cases x <;> simp [F64.eq]

theorem isclose_nan (x : F64) : ¬ iscloseI x .nan ∧ ¬ iscloseI .nan x := by
  unfold iscloseI
  constructor <;> cases x <;> simp [F64.eq]

theorem approx_nan (x : F64) : ¬ approx_equalI x .nan ∧ ¬ approx_equalI .nan x := by
  unfold approx_equalI
  rw [nan_add]
  constructor
  · rintro (h | h)
    · exact (isclose_nan _).1 h
    · exact (isclose_nan _).1 h
  · rintro (h | h)
    · exact (isclose_nan _).2 h
    · exact (isclose_nan _).2 h

theorem npClose_nan (x : F64) : ¬ npCloseI x .nan ∧ ¬ npCloseI .nan x := by
  unfold npCloseI
  constructor
  · simp [eq_nan]
  · rintro (h | h)
    · cases x with
      | nan => exact h
      | inf s => exact h
      | fin y =>
        dsimp only at h
        rw [nan_sub] at h
        exact nan_le _ h
    · exact nan_eq _ h

theorem sub_hasNan {P Q : PtI} (h : HasNan P ∨ HasNan Q) : HasNan (subI P Q) := by
  rcases h with (h | h) | (h | h)
  · left; show F64.sub P.x Q.x = .nan; rw [h, nan_sub]
  · right; show F64.sub P.y Q.y = .nan; rw [h, nan_sub]
  · left; show F64.sub P.x Q.x = .nan; rw [h, sub_nan]
  · right; show F64.sub P.y Q.y = .nan; rw [h, sub_nan]

theorem vdot_hasNan (k : Fma) {u v : PtI} (h : HasNan u ∨ HasNan v) : vdotI k u v = .nan := by
  have hm : F64.mul u.x v.x = .nan ∨ F64.mul u.y v.y = .nan := by
    rcases h with (h | h) | (h | h)
    · left; rw [h]; exact nan_mul _
    · right; rw [h]; exact nan_mul _
    · left; rw [h]; exact mul_nan _
    · right; rw [h]; exact mul_nan _
  have fm : ∀ x y z, F64.mul x y = .nan → F64.fma x y z = .nan := by
    intro x y z hxy
    cases x with
    | nan => exact nan_fma _ _
    | inf s =>
      show F64.add (F64.mul (.inf s) y) z = .nan
      rw [hxy, nan_add]
    | fin x =>
      cases y with
      | nan => 
        show F64.add (F64.mul (.fin x) .nan) z = .nan
        rw [hxy, nan_add]
      | inf s =>
        show F64.add (F64.mul (.fin x) (.inf s)) z = .nan
        rw [hxy, nan_add]
      | fin y =>
        have : flo (x * y) = .nan := hxy
        unfold flo at this
        split_ifs at this
  unfold vdotI
  cases k
  · dsimp only
    rcases hm with h | h <;> rw [h]
    · exact nan_add _
    · exact add_nan _
  · dsimp only
    rcases hm with h | h
    · exact fm _ _ _ h
    · rw [h]; exact fma_nan _ _
  · dsimp only
    rcases hm with h | h
    · rw [h]; exact fma_nan _ _
    · exact fm _ _ _ h

end Ieee

/-- C118: nan is accepted as a radius and as a coordinate, and then every question about the circle is answered by `False`, also whether it is equal to
itself, and every number is nan. -/
theorem C118_nan_circle (k : Fma) (c : CircleI) (P : PtI) :
    (c.radius = .nan → mkCircleI c.center c.radius = .ok c) ∧
    (c.radius = .nan ∨ HasNan c.center → ∀ c', ¬ c.is_equal c') ∧
    (c.radius = .nan ∨ HasNan c.center ∨ HasNan P → ¬ c.contains k P ∧ ¬ c.includes k P ∧ c.power k P = .nan) ∧
    (HasNan c.center ∨ HasNan P → distanceI k c.center P = .nan) := by
  have v : HasNan c.center ∨ HasNan P → vdotI k (subI P c.center) (subI P c.center) = .nan := by
    intro h
    exact Ieee.vdot_hasNan k (Or.inl (Ieee.sub_hasNan (or_comm.1 h)))
  refine ⟨?_, ?_, ?_, ?_⟩
  · intro h
    unfold mkCircleI
    rw [h, if_neg (Ieee.nan_le _), ← h]
  · rintro (h | h | h) c' ⟨h1, h2, h3⟩
    · rw [h] at h1
      exact (Ieee.approx_nan _).2 h1
    · rw [h] at h2
      exact (Ieee.npClose_nan _).2 h2
    · rw [h] at h3
      exact (Ieee.npClose_nan _).2 h3
  · rintro (h | h)
    · unfold CircleI.contains CircleI.includes CircleI.power
      rw [h, Ieee.nan_mul]
      exact ⟨Ieee.le_nan _, (Ieee.approx_nan _).1, Ieee.sub_nan _⟩
    · unfold CircleI.contains CircleI.includes CircleI.power
      rw [v h]
      exact ⟨Ieee.nan_le _, (Ieee.approx_nan _).2, Ieee.nan_sub _⟩
  · intro h
    unfold distanceI
    rw [v h]
    rfl

/-- C118: the constructor of a line accepts two points as soon as a coordinate is nan, even twice the same point; such a line is parallel and
perpendicular to no line, itself included, and meets every line in the point `(nan, nan)`. -/
theorem C118_nan_line (k : Fma) (l l' : LineI) (h : HasNan l.A ∨ HasNan l.B) :
    mkLineI l.A l.B = .ok l ∧ ¬ l.is_parallel l' ∧ ¬ l'.is_parallel l ∧ ¬ l.is_perpendicular k l' ∧ ¬ l'.is_perpendicular k l ∧
    l.intersection l' = some ⟨.nan, .nan⟩ ∧ l'.intersection l = some ⟨.nan, .nan⟩ := by
  have d : F64.sub l.A.x l.B.x = .nan ∨ F64.sub l.A.y l.B.y = .nan := by
    rcases h with (h | h) | (h | h)
    · left; rw [h]; exact Ieee.nan_sub _
    · right; rw [h]; exact Ieee.nan_sub _
    · left; rw [h]; exact Ieee.sub_nan _
    · right; rw [h]; exact Ieee.sub_nan _
  have det : ∀ a b c d : F64, a = .nan ∨ b = .nan → det2x2I a b c d = .nan := by
    rintro a b c d (rfl | rfl)
    · unfold det2x2I; rw [Ieee.nan_mul, Ieee.nan_sub]
    · unfold det2x2I; rw [Ieee.mul_nan, Ieee.sub_nan]
  have det' : ∀ a b c d : F64, c = .nan ∨ d = .nan → det2x2I a b c d = .nan := by
    rintro a b c d (rfl | rfl)
    · unfold det2x2I; rw [Ieee.nan_mul, Ieee.sub_nan]
    · unfold det2x2I; rw [Ieee.mul_nan, Ieee.nan_sub]
  refine ⟨?_, ?_, ?_, ?_, ?_, ?_, ?_⟩
  · unfold mkLineI
    rw [if_neg]
    rintro ⟨h1, h2⟩
    rcases h with (h | h) | (h | h)
    · rw [h] at h1; exact (Ieee.npClose_nan _).2 h1
    · rw [h] at h2; exact (Ieee.npClose_nan _).2 h2
    · rw [h] at h1; exact (Ieee.npClose_nan _).1 h1
    · rw [h] at h2; exact (Ieee.npClose_nan _).1 h2
  · unfold LineI.is_parallel
    rw [det _ _ _ _ d]
    simp [F64.abs, F64.lt]
  · unfold LineI.is_parallel
    rw [det' _ _ _ _ d]
    simp [F64.abs, F64.lt]
  · unfold LineI.is_perpendicular
    rw [Ieee.vdot_hasNan k (Or.inl (Ieee.sub_hasNan (or_comm.1 h)))]
    exact (Ieee.approx_nan _).2
  · unfold LineI.is_perpendicular
    rw [Ieee.vdot_hasNan k (Or.inr (Ieee.sub_hasNan (or_comm.1 h)))]
    exact (Ieee.approx_nan _).2
  · unfold LineI.intersection
    dsimp only
    rw [det _ _ _ _ d, if_neg (Ieee.nan_eq _), Ieee.div_nan, Ieee.div_nan]
  · unfold LineI.intersection
    dsimp only
    rw [det' _ _ _ _ d, if_neg (Ieee.nan_eq _), Ieee.div_nan, Ieee.div_nan]

/-- A line with one nan coordinate is accepted, is not even parallel to itself, and meets every line at `(nan, nan)`. -/
example (k : Fma) : mkLineI ⟨.nan, .fin 0⟩ ⟨.fin 1, .fin 1⟩ = .ok ⟨⟨.nan, .fin 0⟩, ⟨.fin 1, .fin 1⟩⟩ ∧
    ¬ (⟨⟨.nan, .fin 0⟩, ⟨.fin 1, .fin 1⟩⟩ : LineI).is_parallel ⟨⟨.nan, .fin 0⟩, ⟨.fin 1, .fin 1⟩⟩ ∧
    (⟨⟨.nan, .fin 0⟩, ⟨.fin 1, .fin 1⟩⟩ : LineI).intersection ⟨⟨.fin 0, .fin 0⟩, ⟨.fin 1, .fin 0⟩⟩ = some ⟨.nan, .nan⟩ :=
  ⟨(C118_nan_line k ⟨⟨.nan, .fin 0⟩, ⟨.fin 1, .fin 1⟩⟩ ⟨⟨.nan, .fin 0⟩, ⟨.fin 1, .fin 1⟩⟩ (.inl (.inl rfl))).1,
    (C118_nan_line k ⟨⟨.nan, .fin 0⟩, ⟨.fin 1, .fin 1⟩⟩ ⟨⟨.nan, .fin 0⟩, ⟨.fin 1, .fin 1⟩⟩ (.inl (.inl rfl))).2.1,
    (C118_nan_line k ⟨⟨.nan, .fin 0⟩, ⟨.fin 1, .fin 1⟩⟩ ⟨⟨.fin 0, .fin 0⟩, ⟨.fin 1, .fin 0⟩⟩ (.inl (.inl rfl))).2.2.2.2.2.1⟩

/-- C118: a triangle with a nan among its six coordinates has orientation `-1`. -/
theorem C118_nan_orientation (T : TriangleI) (h : HasNan T.A ∨ HasNan T.B ∨ HasNan T.C) : T.orientation = -1 := by
  have v : F64.sub (F64.mul (F64.sub T.B.y T.A.y) (F64.sub T.C.x T.B.x)) (F64.mul (F64.sub T.B.x T.A.x) (F64.sub T.C.y T.B.y)) = .nan := by
    rcases h with (h | h) | (h | h) | (h | h) <;>
      simp only [h, Ieee.nan_sub, Ieee.sub_nan, Ieee.nan_mul, Ieee.mul_nan]
  unfold TriangleI.orientation
  dsimp only
  rw [v, if_neg (Ieee.nan_eq _), if_neg (Ieee.lt_nan _)]

/-- A triangle with one nan coordinate is said to have orientation -1. -/
example : (⟨⟨.fin 0, .fin 0⟩, ⟨.nan, .fin 0⟩, ⟨.fin 0, .fin 1⟩⟩ : TriangleI).orientation = -1 :=
  C118_nan_orientation _ (.inr (.inl (.inl rfl)))

namespace Ieee

/-- A nonnegative number or the positive infinity. -/
def NonNeg (v : F64) : Prop := (∃ y, 0 ≤ y ∧ v = .fin y) ∨ v = .inf false

theorem flo_nonneg {x : ℝ} (h : 0 ≤ x) : NonNeg (flo x) := by
  unfold flo
  split_ifs
  · exact Or.inl ⟨_, fl_nonneg h, rfl⟩
  · right
    rw [decide_eq_false (not_lt.2 h)]

theorem sub_of (x y : ℝ) : (∃ z, F64.sub (.fin x) (.fin y) = .fin z) ∨ ∃ s, F64.sub (.fin x) (.fin y) = .inf s := by
  show (∃ z, flo (x + -y) = .fin z) ∨ ∃ s, flo (x + -y) = .inf s
  unfold flo
  split_ifs
  · exact Or.inl ⟨_, rfl⟩
  · exact Or.inr ⟨_, rfl⟩

theorem sq_nonneg {v : F64} (h : (∃ z, v = .fin z) ∨ ∃ s, v = .inf s) : NonNeg (F64.mul v v) := by
  rcases h with ⟨z, rfl⟩ | ⟨s, rfl⟩
  · exact flo_nonneg (mul_self_nonneg z)
  · right
    show F64.inf (s ^^ s) = _
    simp

theorem add_nonneg' {v w : F64} (hv : NonNeg v) (hw : NonNeg w) : NonNeg (F64.add v w) := by
  rcases hv with ⟨y, hy, rfl⟩ | rfl <;> rcases hw with ⟨z, hz, rfl⟩ | rfl
  · exact flo_nonneg (add_nonneg hy hz)
  · exact Or.inr rfl
  · exact Or.inr rfl
  · exact Or.inr rfl

theorem fma_nonneg {v w : F64} (h : (∃ z, v = .fin z) ∨ ∃ s, v = .inf s) (hw : NonNeg w) : NonNeg (F64.fma v v w) := by
  have hm := sq_nonneg h
  rcases h with ⟨z, rfl⟩ | ⟨s, rfl⟩
  · rcases hw with ⟨y, hy, rfl⟩ | rfl
    · exact flo_nonneg (add_nonneg (mul_self_nonneg _) hy)
    · exact Or.inr rfl
  · exact add_nonneg' hm hw

/-- The computed squared distance of two points with finite coordinates is never nan. -/
theorem sqd_nonneg (k : Fma) (P Q : Pt) : NonNeg (vdotI k (subI (.of P) (.of Q)) (subI (.of P) (.of Q))) := by
  have hx := sub_of P.x Q.x
  have hy := sub_of P.y Q.y
  cases k
  · exact add_nonneg' (sq_nonneg hx) (sq_nonneg hy)
  · exact fma_nonneg hx (sq_nonneg hy)
  · exact fma_nonneg hy (sq_nonneg hx)

theorem le_inf {v : F64} (h : NonNeg v) : F64.le v (.inf false) := by
  rcases h with ⟨y, -, rfl⟩ | rfl
  · exact Or.inl rfl
  · exact Or.inr rfl

theorem sq_large {r : ℝ} (h : 2 ^ 512 ≤ |r|) : F64.mul (.fin r) (.fin r) = .inf false := by
  apply flo_inf
  rw [← abs_mul_abs_self, show 1024 = 512 + 512 from rfl, pow_add]
  exact mul_le_mul h h (by positivity) (abs_nonneg _)

theorem flo_large {x : ℝ} (h : 2 ^ 512 ≤ |x|) : (∃ s, flo x = .inf s) ∨ ∃ y, 2 ^ 512 ≤ |y| ∧ flo x = .fin y := by
  unfold flo
  split_ifs
  · refine Or.inr ⟨_, ?_, rfl⟩
    have hd : fl ((2 : ℝ) ^ 512) = 2 ^ 512 := by
      have := fl_double (isDouble_pow ((512 : ℕ) : ℤ) (by omega))
      rwa [zpow_natCast] at this
    rcases le_abs.1 h with h | h
    · have := fl_mono h
      rw [hd] at this
      exact this.trans (le_abs_self _)
    · have := fl_mono h
      rw [hd, fl_neg] at this
      exact this.trans (neg_le_abs _)
  · exact Or.inl ⟨_, rfl⟩

theorem mul_large {v w : F64} (hv : (∃ s, v = .inf s) ∨ ∃ y, 2 ^ 512 ≤ |y| ∧ v = .fin y)
    (hw : (∃ s, w = .inf s) ∨ ∃ y, 2 ^ 512 ≤ |y| ∧ w = .fin y) : ∃ s, F64.mul v w = .inf s := by
  have ne : ∀ y : ℝ, 2 ^ 512 ≤ |y| → y ≠ 0 := by
    rintro y h rfl
    rw [abs_zero] at h
    exact absurd h (not_le.2 (by positivity))
  rcases hv with ⟨s, rfl⟩ | ⟨y, hy, rfl⟩ <;> rcases hw with ⟨t, rfl⟩ | ⟨z, hz, rfl⟩
  · exact ⟨_, rfl⟩
  · unfold F64.mul
    dsimp only
    rw [if_neg (ne z hz)]
    exact ⟨_, rfl⟩
  · unfold F64.mul
    dsimp only
    rw [if_neg (ne y hy)]
    exact ⟨_, rfl⟩
  · have h : 2 ^ 1024 ≤ |y * z| := by
      rw [abs_mul, show 1024 = 512 + 512 from rfl, pow_add]
      exact mul_le_mul hy hz (by positivity) (abs_nonneg _)
    show ∃ s, flo (y * z) = .inf s
    rcases le_abs.1 h with h | h
    · exact ⟨_, flo_inf h⟩
    · have := flo_inf h
      unfold flo at this ⊢
      rw [fl_neg, abs_neg] at this
      split_ifs at this ⊢
      exact ⟨_, rfl⟩

end Ieee

/-- C118: a circle of radius at least `2^512`, or of infinite radius, contains every point with finite coordinates, however far. -/
theorem C118_large_radius (k : Fma) (O P : Pt) (r : F64) (h : r = .inf false ∨ ∃ x, 2 ^ 512 ≤ x ∧ r = .fin x) :
    mkCircleI (.of O) r = .ok ⟨.of O, r⟩ ∧ (⟨.of O, r⟩ : CircleI).contains k (.of P) := by
  have hm : F64.mul r r = .inf false := by
    rcases h with rfl | ⟨x, hx, rfl⟩
    · rfl
    · exact Ieee.sq_large (hx.trans (le_abs_self _))
  constructor
  · unfold mkCircleI
    rw [if_neg]
    rcases h with rfl | ⟨x, hx, rfl⟩
    · simp [F64.le, F64.lt, F64.eq]
    · rw [Ieee.le_fin, not_le]
      exact lt_of_lt_of_le (by positivity) hx
  · unfold CircleI.contains
    rw [hm]
    exact Ieee.le_inf (Ieee.sqd_nonneg k P O)

/-- C118: a circle of infinite radius and moderate center includes no point with coordinates of absolute value at most `2^508`; its power is minus infinity there. -/
theorem C118_infinite_radius (k : Fma) (O P : Pt) (hO : Below 508 O) (hP : Below 508 P) :
    ¬ (⟨.of O, .inf false⟩ : CircleI).includes k (.of P) ∧ (⟨.of O, .inf false⟩ : CircleI).power k (.of P) = .inf true := by
  obtain ⟨h, g⟩ := Ieee.sqd k hP hO
  have one : |(1 : ℝ)| ≤ 2 ^ 1019 := by
    rw [abs_one]; exact one_le_pow₀ (by norm_num)
  obtain ⟨h1, -⟩ := Ieee.add_fin g one (by norm_num)
  constructor
  · show ¬ approx_equalI (vdotI k (subI (.of P) (.of O)) (subI (.of P) (.of O))) (.inf (false ^^ false))
    rw [h]
    unfold approx_equalI
    rw [h1]
    rintro (h | h) <;> exact absurd h (by simp [iscloseI, F64.eq, F64.add])
  · show F64.sub (vdotI k (subI (.of P) (.of O)) (subI (.of P) (.of O))) (.inf (false ^^ false)) = _
    rw [h]
    rfl

/-- C118: the circle of center the origin and radius `2^512` and the point `(2^600, 0)`: the point is far outside, but it is said to be on the circle
and in it, its distance to the center is infinite and its power nan. -/
theorem C118_overflow_counterexample (k : Fma) : ∃ (c : Circle) (P : Pt), c.radius < Spec.dist c.center P ∧
    (CircleI.of c).contains k (.of P) ∧ (CircleI.of c).includes k (.of P) ∧ (CircleI.of c).power k (.of P) = .nan ∧
    distanceI k (.of c.center) (.of P) = .inf false := by
  have h600 : (2 : ℝ) ^ 512 < 2 ^ 600 := pow_lt_pow_right₀ (by norm_num) (by norm_num)
  have p600 : (0 : ℝ) < 2 ^ 600 := by positivity
  have d600 : fl ((2 : ℝ) ^ 600) = 2 ^ 600 := by
    have := fl_double (isDouble_pow ((600 : ℕ) : ℤ) (by omega))
    rwa [zpow_natCast] at this
  have sx : F64.sub (.fin (2 ^ 600)) (.fin 0) = .fin (2 ^ 600) := by
    have := (Ieee.sub_fin (x := 2 ^ 600) (y := 0) (e := 600) (by rw [abs_of_pos p600]) (by rw [abs_zero]; positivity) (by norm_num)).1
    rw [this, sub_zero, d600]
  have sy : F64.sub (.fin 0) (.fin 0) = .fin 0 := by
    have := (Ieee.sub_fin (x := 0) (y := 0) (e := 600) (by rw [abs_zero]; positivity) (by rw [abs_zero]; positivity) (by norm_num)).1
    rw [this, sub_zero, fl_zero]
  have mx : F64.mul (.fin (2 ^ 600)) (.fin (2 ^ 600)) = .inf false := Ieee.sq_large (by rw [abs_of_pos p600]; exact h600.le)
  have my : F64.mul (.fin 0) (.fin 0) = .fin 0 := by
    show flo (0 * 0) = _
    rw [Ieee.flo_fin (by rw [mul_zero, abs_zero]; positivity), mul_zero, fl_zero]
  have v : vdotI k (subI (.of ⟨2 ^ 600, 0⟩) (.of ⟨0, 0⟩)) (subI (.of ⟨2 ^ 600, 0⟩) (.of ⟨0, 0⟩)) = .inf false := by
    have e : subI (.of ⟨2 ^ 600, 0⟩) (.of ⟨0, 0⟩) = ⟨.fin (2 ^ 600), .fin 0⟩ := by
      unfold subI PtI.of
      dsimp only
      rw [sx, sy]
    rw [e]
    unfold vdotI
    cases k
    · dsimp only
      rw [mx, my]
      rfl
    · dsimp only
      rw [my]
      show flo (2 ^ 600 * 2 ^ 600 + 0) = _
      rw [add_zero]
      exact mx
    · dsimp only
      rw [mx]
      rfl
  have mr : F64.mul (.fin (2 ^ 512)) (.fin (2 ^ 512)) = .inf false := Ieee.sq_large (by rw [abs_of_pos (by positivity)])
  refine ⟨⟨⟨0, 0⟩, 2 ^ 512⟩, ⟨2 ^ 600, 0⟩, ?_, ?_, ?_, ?_, ?_⟩
  · unfold Spec.dist sqDist
    dsimp only
    rw [Real.lt_sqrt (by positivity)]
    have := pow_lt_pow_left₀ h600 (by positivity) two_ne_zero
    generalize (2 : ℝ) ^ 600 = a at *
    generalize (2 : ℝ) ^ 512 = b at *
    linarith
  · show F64.le (vdotI k _ _) (F64.mul (.fin (2 ^ 512)) (.fin (2 ^ 512)))
    rw [mr]
    exact Ieee.le_inf (Ieee.sqd_nonneg k _ _)
  · show approx_equalI (vdotI k (subI (.of ⟨2 ^ 600, 0⟩) (.of ⟨0, 0⟩)) (subI (.of ⟨2 ^ 600, 0⟩) (.of ⟨0, 0⟩))) (F64.mul (.fin (2 ^ 512)) (.fin (2 ^ 512)))
    rw [mr, v]
    exact Or.inl (Or.inl rfl)
  · show F64.sub (vdotI k (subI (.of ⟨2 ^ 600, 0⟩) (.of ⟨0, 0⟩)) (subI (.of ⟨2 ^ 600, 0⟩) (.of ⟨0, 0⟩))) (F64.mul (.fin (2 ^ 512)) (.fin (2 ^ 512))) = _
    rw [mr, v]
    rfl
  · unfold distanceI
    rw [v]
    rfl

/-- C118: a line whose two points differ by at least `2^512` in both coordinates is not found parallel to itself, and its intersection with itself
is the point `(nan, nan)`. -/
theorem C118_large_line (l : Line) (hx : 2 ^ 512 ≤ |l.A.x - l.B.x|) (hy : 2 ^ 512 ≤ |l.A.y - l.B.y|) :
    ¬ (LineI.of l).is_parallel (.of l) ∧ (LineI.of l).intersection (.of l) = some ⟨.nan, .nan⟩ := by
  have bx := Ieee.flo_large hx
  have by' := Ieee.flo_large hy
  have ex : F64.sub (.fin l.A.x) (.fin l.B.x) = flo (l.A.x - l.B.x) := by
    rw [sub_eq_add_neg]; rfl
  have ey : F64.sub (.fin l.A.y) (.fin l.B.y) = flo (l.A.y - l.B.y) := by
    rw [sub_eq_add_neg]; rfl
  obtain ⟨s, hs⟩ := Ieee.mul_large bx by'
  have D : det2x2I (F64.sub (.fin l.A.x) (.fin l.B.x)) (F64.sub (.fin l.A.y) (.fin l.B.y)) (F64.sub (.fin l.A.x) (.fin l.B.x))
      (F64.sub (.fin l.A.y) (.fin l.B.y)) = .nan := by
    rw [ex, ey]
    unfold det2x2I
    rw [hs]
    cases s <;> rfl
  constructor
  · unfold LineI.is_parallel LineI.of PtI.of
    dsimp only
    rw [D]
    simp [F64.abs, F64.lt]
  · unfold LineI.intersection LineI.of PtI.of
    dsimp only
    rw [D, if_neg (Ieee.nan_eq _), Ieee.div_nan, Ieee.div_nan]

/-- Nan and infinity as radii: both are accepted, the circle of radius nan contains nothing, that of infinite radius contains `(3, 4)` and does not include it. -/
example (k : Fma) : mkCircleI (.of ⟨0, 0⟩) .nan = .ok ⟨.of ⟨0, 0⟩, .nan⟩ ∧ ¬ (⟨.of ⟨0, 0⟩, .nan⟩ : CircleI).contains k (.of ⟨3, 4⟩) ∧
    (⟨.of ⟨0, 0⟩, .inf false⟩ : CircleI).contains k (.of ⟨3, 4⟩) ∧ ¬ (⟨.of ⟨0, 0⟩, .inf false⟩ : CircleI).includes k (.of ⟨3, 4⟩) := by
  have b : ∀ x : ℝ, 0 ≤ x → x ≤ 4 → |x| ≤ 2 ^ 508 := by
    intro x h0 h4
    rw [abs_of_nonneg h0]
    exact (h4.trans (by norm_num : (4 : ℝ) ≤ 2 ^ 2)).trans (pow_le_pow_right₀ (by norm_num) (by norm_num))
  exact ⟨(C118_nan_circle k ⟨.of ⟨0, 0⟩, .nan⟩ (.of ⟨3, 4⟩)).1 rfl, ((C118_nan_circle k ⟨.of ⟨0, 0⟩, .nan⟩ (.of ⟨3, 4⟩)).2.2.1 (Or.inl rfl)).1,
    (C118_large_radius k _ _ _ (Or.inl rfl)).2,
    (C118_infinite_radius k ⟨0, 0⟩ ⟨3, 4⟩ ⟨b 0 (by norm_num) (by norm_num), b 0 (by norm_num) (by norm_num)⟩
      ⟨b 3 (by norm_num) (by norm_num), b 4 (by norm_num) (by norm_num)⟩).1⟩
