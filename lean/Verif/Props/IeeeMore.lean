import Verif.Model.IeeeMore
import Verif.Props.Ieee
import Verif.Props.FloatConstruct

/-!
# C123: constructors, transformations and `Triangle.contains` with infinities, nan and overflow
-/

open Spec Real Classical

namespace Ieee

theorem up {x : ℝ} {a b : ℕ} (h : |x| ≤ 2 ^ a) (hab : a ≤ b) : |x| ≤ 2 ^ b := h.trans (pow_le_pow_right₀ (by norm_num) hab)

theorem dist_fin (k : Fma) {A B : Pt} (hA : Below 508 A) (hB : Below 508 B) :
    distanceI k (.of A) (.of B) = .fin (distanceF k A B) ∧ |distanceF k A B| ≤ 2 ^ 1019 := by
  obtain ⟨h, g⟩ := sqd k hB hA
  have hn : 0 ≤ vdotF k (subF B A) (subF B A) := by
    unfold vdotF
    cases k
    · exact fl_nonneg (add_nonneg (fl_nonneg (mul_self_nonneg _)) (fl_nonneg (mul_self_nonneg _)))
    · exact fl_nonneg (add_nonneg (mul_self_nonneg _) (fl_nonneg (mul_self_nonneg _)))
    · exact fl_nonneg (add_nonneg (fl_nonneg (mul_self_nonneg _)) (mul_self_nonneg _))
  constructor
  · unfold distanceI
    rw [h]
    unfold F64.sqrt
    dsimp only
    rw [if_neg (not_lt.2 hn)]
    rfl
  · unfold distanceF
    apply fl_le_pow
    rw [abs_of_nonneg hn] at g
    rw [abs_of_nonneg (Real.sqrt_nonneg _), Real.sqrt_le_left (by positivity)]
    refine g.trans ?_
    rw [← pow_mul]
    exact pow_le_pow_right₀ (by norm_num) (by norm_num)

theorem half_fin {x : ℝ} {e : ℕ} (h : |x| ≤ 2 ^ e) (he : e ≤ 1023) : F64.div (.fin x) (.fin 2) = .fin (fl (x / 2)) := by
  show flo (x / 2) = _
  apply flo_fin
  rw [abs_div, abs_two]
  have := up h he
  have h0 := abs_nonneg x
  generalize (2 : ℝ) ^ 1023 = m at *
  linarith

/-- An infinity or a large number. -/
def Large (v : F64) : Prop := (∃ s, v = .inf s) ∨ ∃ y, 2 ^ 512 ≤ |y| ∧ v = .fin y

theorem sq_inf {v : F64} (h : Large v) : F64.mul v v = .inf false := by
  rcases h with ⟨s, rfl⟩ | ⟨y, hy, rfl⟩
  · show F64.inf (s ^^ s) = _
    rw [Bool.xor_self]
  · exact sq_large hy

theorem inf_add {w : F64} (h : NonNeg w) : F64.add (.inf false) w = .inf false ∧ F64.add w (.inf false) = .inf false := by
  rcases h with ⟨y, -, rfl⟩ | rfl
  · exact ⟨rfl, rfl⟩
  · exact ⟨rfl, rfl⟩

theorem fma_inf {v w : F64} (h : Large v) (hw : NonNeg w) : F64.fma v v w = .inf false := by
  rcases h with ⟨s, rfl⟩ | ⟨y, hy, rfl⟩
  · show F64.add (F64.mul (.inf s) (.inf s)) w = _
    rw [sq_inf (Or.inl ⟨s, rfl⟩)]
    exact (inf_add hw).1
  · rcases hw with ⟨z, hz, rfl⟩ | rfl
    · show flo (y * y + z) = _
      apply flo_inf
      have : (2 : ℝ) ^ 1024 ≤ y * y := by
        rw [← abs_mul_abs_self, show 1024 = 512 + 512 from rfl, pow_add]
        exact mul_le_mul hy hy (by positivity) (abs_nonneg _)
      generalize (2 : ℝ) ^ 1024 = m at *
      linarith
    · rfl

theorem fma_inf' {v : F64} (h : (∃ z, v = .fin z) ∨ ∃ s, v = .inf s) : F64.fma v v (.inf false) = .inf false := by
  rcases h with ⟨z, rfl⟩ | ⟨s, rfl⟩
  · rfl
  · show F64.add (F64.mul (.inf s) (.inf s)) (.inf false) = _
    rw [sq_inf (Or.inl ⟨s, rfl⟩)]
    rfl

/-- The computed squared distance of points that are far apart. -/
theorem sqd_inf (k : Fma) {O A : Pt} (hx : 2 ^ 512 ≤ |A.x - O.x| ∨ 2 ^ 512 ≤ |A.y - O.y|) :
    vdotI k (subI (.of A) (.of O)) (subI (.of A) (.of O)) = .inf false := by
  have ax := sub_of A.x O.x
  have ay := sub_of A.y O.y
  have l : ∀ x y : ℝ, 2 ^ 512 ≤ |x - y| → Large (F64.sub (.fin x) (.fin y)) := by
    intro x y h
    rw [show F64.sub (.fin x) (.fin y) = flo (x + -y) from rfl, ← sub_eq_add_neg]
    exact flo_large h
  have e : subI (.of A) (.of O) = ⟨F64.sub (.fin A.x) (.fin O.x), F64.sub (.fin A.y) (.fin O.y)⟩ := rfl
  rw [e]
  rcases hx with h | h
  · have hl := l _ _ h
    cases k
    · show F64.add (F64.mul _ _) (F64.mul _ _) = _
      rw [sq_inf hl]
      exact (inf_add (sq_nonneg ay)).1
    · exact fma_inf hl (sq_nonneg ay)
    · show F64.fma _ _ (F64.mul _ _) = _
      rw [sq_inf hl]
      exact fma_inf' ay
  · have hl := l _ _ h
    cases k
    · show F64.add (F64.mul _ _) (F64.mul _ _) = _
      rw [sq_inf hl]
      exact (inf_add (sq_nonneg ax)).2
    · show F64.fma _ _ (F64.mul _ _) = _
      rw [sq_inf hl]
      exact fma_inf' ax
    · exact fma_inf hl (sq_nonneg ax)

end Ieee

open Ieee

/-- C123: `circleOA` and `circleAB` for coordinates of absolute value at most `2^508`: neither overflow nor nan. -/
theorem C123_circle_agrees (k : Fma) (A B : Pt) (hA : Below 508 A) (hB : Below 508 B) :
    circleOAI k (.of A) (.of B) = (circleOAF k A B).map CircleI.of ∧ circleABI k (.of A) (.of B) = (circleABF k A B).map CircleI.of := by
  have ac := Ieee.allclose (hA.mono (by norm_num : 508 ≤ 1022)) (hB.mono (by norm_num : 508 ≤ 1022))
  obtain ⟨d, dg⟩ := dist_fin k hA hB
  obtain ⟨sx, gx⟩ := add_fin hA.1 hB.1 (by norm_num)
  obtain ⟨sy, gy⟩ := add_fin hA.2 hB.2 (by norm_num)
  have mk : ∀ (P : Pt) (r : ℝ), mkCircleI (.of P) (.fin r) = (mkCircleF P r).map CircleI.of := by
    intro P r
    unfold mkCircleI mkCircleF
    rw [le_fin]
    split_ifs <;> rfl
  constructor
  · unfold circleOAI circleOAF
    rw [ac, d, mk]
    split_ifs <;> rfl
  · unfold circleABI circleABF
    rw [ac, d]
    have e : (⟨F64.div (F64.add (PtI.of A).x (PtI.of B).x) (.fin 2), F64.div (F64.add (PtI.of A).y (PtI.of B).y) (.fin 2)⟩ : PtI) =
        .of ⟨fl (fl (A.x + B.x) / 2), fl (fl (A.y + B.y) / 2)⟩ := by
      unfold PtI.of
      dsimp only
      rw [sx, sy, half_fin gx (by norm_num), half_fin gy (by norm_num)]
    rw [e, half_fin dg (by norm_num), mk]
    split_ifs <;> rfl

/-- `circleAB` for ordinary points. -/
example (k : Fma) : circleABI k (.of ⟨0, 0⟩) (.of ⟨3, 4⟩) = (circleABF k ⟨0, 0⟩ ⟨3, 4⟩).map CircleI.of :=
  (C123_circle_agrees _ _ _ (below_small (by norm_num) (by norm_num) (by norm_num)) (below_small (by norm_num) (by norm_num) (by norm_num))).2

/-- C123: `circleOA` for points that are not close and farther apart than `2^512` in a coordinate: the circle is accepted, with an infinite
radius; it includes the given point and contains all points with finite coordinates. -/
theorem C123_circleOA_large (k k' : Fma) (O A : Pt) (hx : 2 ^ 512 ≤ |A.x - O.x| ∨ 2 ^ 512 ≤ |A.y - O.y|) (h : ¬ allcloseI (.of O) (.of A)) :
    circleOAI k (.of O) (.of A) = .ok ⟨.of O, .inf false⟩ ∧ (⟨.of O, .inf false⟩ : CircleI).includes k' (.of A) ∧
    ∀ P, (⟨.of O, .inf false⟩ : CircleI).contains k' (.of P) := by
  have big : ∀ k, vdotI k (subI (.of A) (.of O)) (subI (.of A) (.of O)) = .inf false := by
    intro k
    exact sqd_inf k hx
  refine ⟨?_, ?_, ?_⟩
  · unfold circleOAI distanceI
    rw [if_neg h, big]
    exact (C118_large_radius k O O (.inf false) (Or.inl rfl)).1
  · show approx_equalI (vdotI k' (subI (.of A) (.of O)) (subI (.of A) (.of O))) (.inf (false ^^ false))
    rw [big]
    exact Or.inl (Or.inl rfl)
  · intro P
    exact (C118_large_radius k' O P (.inf false) (Or.inl rfl)).2

namespace Ieee

theorem div_pos {z : Bool} {x y : ℝ} (hy : y ≠ 0) : F64.divZ z (.fin x) (.fin y) = flo (x / y) := by
  show (if y = 0 then _ else flo (x / y)) = _
  rw [if_neg hy]

theorem fl_nonpos' {x : ℝ} (h : x ≤ 0) : fl x ≤ 0 := by
  have := fl_mono h
  rwa [fl_zero] at this

theorem lt_flo (w : ℝ) : F64.lt (.fin 0) (flo w) ↔ 0 < fl w := by
  unfold flo
  split_ifs with h
  · exact Iff.rfl
  · show decide (w < 0) = false ↔ _
    rw [decide_eq_false_iff_not, not_lt]
    constructor
    · intro hw
      refine lt_of_le_of_ne (fl_nonneg hw) ?_
      intro h0
      rw [← h0, abs_zero] at h
      exact h (le_trans (by positivity) pow_le_max)
    · intro hw
      by_contra hc
      exact absurd (fl_nonpos' (not_le.1 hc).le) (not_le.2 hw)

theorem max_ge : 2 ≤ maxDouble := le_trans (by
  calc (2 : ℝ) = 2 ^ 1 := by norm_num
    _ ≤ 2 ^ 1023 := pow_le_pow_right₀ (by norm_num) (by norm_num)) pow_le_max

theorem sub_inf (x : F64) : ¬ F64.lt (.fin 0) (F64.sub x (.inf false)) := by
  cases x with
  | nan => exact fun h => h
  | inf s => cases s <;> simp [F64.sub, F64.add, F64.neg, F64.lt]
  | fin x => simp [F64.sub, F64.add, F64.neg, F64.lt]

theorem flo_cases (p : ℝ) : (flo p = .fin (fl p)) ∨ (flo p = .inf false ∧ 2 < fl p) ∨ (flo p = .inf true ∧ fl p < 0) := by
  unfold flo
  have hm := max_ge
  split_ifs with h
  · exact Or.inl rfl
  · rw [not_le] at h
    by_cases hp : p < 0
    · refine Or.inr (Or.inr ⟨by rw [decide_eq_true hp], ?_⟩)
      have := fl_nonpos' hp.le
      rw [abs_of_nonpos this] at h
      linarith
    · refine Or.inr (Or.inl ⟨by rw [decide_eq_false hp], ?_⟩)
      have := fl_nonneg (not_lt.1 hp)
      rw [abs_of_nonneg this] at h
      linarith

/-- The three comparisons at the end of `Triangle.contains`, with and without overflow. -/
theorem three (p q : ℝ) : (F64.lt (.fin 0) (flo p) ∧ F64.lt (.fin 0) (flo q) ∧ F64.lt (.fin 0) (F64.sub (F64.sub (.fin 1) (flo p)) (flo q))) ↔
    (0 < fl p ∧ 0 < fl q ∧ 0 < fl (fl (1 - fl p) - fl q)) := by
  rw [lt_flo, lt_flo]
  refine and_congr_right fun hp => and_congr_right fun hq => ?_
  have f1 : fl (1 : ℝ) = 1 := by
    have := fl_double (isDouble_pow (0 : ℤ) (by norm_num))
    rwa [zpow_zero] at this
  rcases flo_cases q with hq' | ⟨hq', g⟩ | ⟨hq', g⟩
  · rcases flo_cases p with hp' | ⟨hp', g⟩ | ⟨hp', g⟩
    · rw [hp', hq', show F64.sub (.fin 1) (.fin (fl p)) = flo (1 + -fl p) from rfl, ← sub_eq_add_neg]
      rcases flo_cases (1 - fl p) with h | ⟨h, g⟩ | ⟨h, g⟩
      · rw [h, show F64.sub (.fin (fl (1 - fl p))) (.fin (fl q)) = flo (fl (1 - fl p) + -fl q) from rfl, ← sub_eq_add_neg, lt_flo]
      · have : fl (1 - fl p) ≤ fl 1 := fl_mono (by linarith)
        rw [f1] at this
        linarith
      · rw [h]
        refine iff_of_false (by simp [F64.sub, F64.add, F64.neg, F64.lt]) (not_lt.2 (fl_nonpos' (by linarith)))
    · rw [hp', hq']
      have : fl (1 - fl p) ≤ 0 := fl_nonpos' (by linarith)
      refine iff_of_false (by simp [F64.sub, F64.add, F64.neg, F64.lt]) (not_lt.2 (fl_nonpos' (by linarith)))
    · linarith
  · rw [hq']
    have : fl (1 - fl p) ≤ fl 1 := fl_mono (by linarith)
    rw [f1] at this
    exact iff_of_false (sub_inf _) (not_lt.2 (fl_nonpos' (by linarith)))
  · linarith

theorem neg_fin (x : ℝ) : F64.neg (.fin x) = .fin (-x) := rfl

end Ieee

/-- C123: `Triangle.contains` for coordinates of absolute value at most `2^500`: the answer is that of the model without infinities, also for
a zero area whatever the sign of zero, and also when a quotient overflows. -/
theorem C123_contains_agrees (z : Bool) (T : Triangle) (M : Pt) (hA : Below 500 T.A) (hB : Below 500 T.B) (hC : Below 500 T.C)
    (hM : Below 500 M) : (TriangleI.of T).contains z (.of M) ↔ T.containsF M := by
  have nB1 : |-T.B.y| ≤ 2 ^ 500 := by rw [abs_neg]; exact hB.2
  have nB0 : |-T.B.x| ≤ 2 ^ 500 := by rw [abs_neg]; exact hB.1
  obtain ⟨a1, b1⟩ := mul_fin nB1 hC.1 (by norm_num)
  obtain ⟨a2, b2⟩ := add_fin nB0 hC.1 (by norm_num)
  obtain ⟨a3, b3⟩ := mul_fin hA.2 b2 (by norm_num)
  obtain ⟨a4, b4⟩ := sub_fin hB.2 hC.2 (by norm_num)
  obtain ⟨a5, b5⟩ := mul_fin hA.1 b4 (by norm_num)
  obtain ⟨a6, b6⟩ := mul_fin hB.1 hC.2 (by norm_num)
  obtain ⟨a7, b7⟩ := add_fin (up b1 (by norm_num : 500 + 500 ≤ 1001)) (up b3 (by norm_num)) (by norm_num)
  obtain ⟨a8, b8⟩ := add_fin (up b7 (by norm_num : 1001 + 1 ≤ 1002)) (up b5 (by norm_num)) (by norm_num)
  obtain ⟨a9, -⟩ := add_fin (up b8 (by norm_num : 1002 + 1 ≤ 1003)) (up b6 (by norm_num)) (by norm_num)
  obtain ⟨s1, t1⟩ := mul_fin hA.2 hC.1 (by norm_num)
  obtain ⟨s2, t2⟩ := mul_fin hA.1 hC.2 (by norm_num)
  obtain ⟨s3, t3⟩ := sub_fin t1 t2 (by norm_num)
  obtain ⟨s4, t4⟩ := sub_fin hC.2 hA.2 (by norm_num)
  obtain ⟨s5, t5⟩ := mul_fin t4 hM.1 (by norm_num)
  obtain ⟨s6, t6⟩ := add_fin t3 (up t5 (by norm_num)) (by norm_num)
  obtain ⟨s7, t7⟩ := sub_fin hA.1 hC.1 (by norm_num)
  obtain ⟨s8, t8⟩ := mul_fin t7 hM.2 (by norm_num)
  obtain ⟨s9, -⟩ := add_fin t6 (up t8 (by norm_num)) (by norm_num)
  obtain ⟨u1, v1⟩ := mul_fin hA.1 hB.2 (by norm_num)
  obtain ⟨u2, v2⟩ := mul_fin hA.2 hB.1 (by norm_num)
  obtain ⟨u3, v3⟩ := sub_fin v1 v2 (by norm_num)
  obtain ⟨u4, v4⟩ := sub_fin hA.2 hB.2 (by norm_num)
  obtain ⟨u5, v5⟩ := mul_fin v4 hM.1 (by norm_num)
  obtain ⟨u6, v6⟩ := add_fin v3 (up v5 (by norm_num)) (by norm_num)
  obtain ⟨u7, v7⟩ := sub_fin hB.1 hA.1 (by norm_num)
  obtain ⟨u8, v8⟩ := mul_fin v7 hM.2 (by norm_num)
  obtain ⟨u9, -⟩ := add_fin v6 (up v8 (by norm_num)) (by norm_num)
  unfold TriangleI.contains TriangleI.of PtI.of Triangle.containsF
  dsimp only
  rw [neg_fin, neg_fin, a1, a2, a3, a4, a5, a6, a7, a8, a9, s1, s2, s3, s4, s5, s6, s7, s8, s9, u1, u2, u3, u4, u5, u6, u7, u8, u9]
  generalize fl (fl (fl (fl (-T.B.y * T.C.x) + fl (T.A.y * fl (-T.B.x + T.C.x))) + fl (T.A.x * fl (T.B.y - T.C.y))) + fl (T.B.x * T.C.y)) = D
  generalize fl (fl (fl (fl (T.A.y * T.C.x) - fl (T.A.x * T.C.y)) + fl (fl (T.C.y - T.A.y) * M.x)) + fl (fl (T.A.x - T.C.x) * M.y)) = p
  generalize fl (fl (fl (fl (T.A.x * T.B.y) - fl (T.A.y * T.B.x)) + fl (fl (T.A.y - T.B.y) * M.x)) + fl (fl (T.B.x - T.A.x) * M.y)) = q
  by_cases hD : D = 0
  · rw [if_pos hD]
    refine iff_of_false ?_ (fun h => h)
    rw [hD]
    rintro ⟨h1, h2, h3⟩
    have hp : F64.divZ z (.fin p) (.fin 0) = if p = 0 then .nan else .inf (decide (p < 0) ^^ z) := by
      show (if (0 : ℝ) = 0 then _ else _) = _
      rw [if_pos rfl]
    have hq : F64.divZ z (.fin q) (.fin 0) = if q = 0 then .nan else .inf (decide (q < 0) ^^ z) := by
      show (if (0 : ℝ) = 0 then _ else _) = _
      rw [if_pos rfl]
    rw [hq] at h2 h3
    split_ifs at h2 h3 with hq0
    · exact h2
    · have : (decide (q < 0) ^^ z) = false := h2
      rw [this] at h3
      exact sub_inf _ h3
  · rw [if_neg hD, div_pos hD, div_pos hD]
    exact three _ _

/-- An ordinary triangle and point. -/
example (z : Bool) : (TriangleI.of ⟨⟨0, 0⟩, ⟨3, 1⟩, ⟨1, 2⟩⟩).contains z (.of ⟨1, 1⟩) ↔ (⟨⟨0, 0⟩, ⟨3, 1⟩, ⟨1, 2⟩⟩ : Triangle).containsF ⟨1, 1⟩ :=
  C123_contains_agrees _ _ _ (below_small (by norm_num) (by norm_num) (by norm_num)) (below_small (by norm_num) (by norm_num) (by norm_num)) (below_small (by norm_num) (by norm_num) (by norm_num)) (below_small (by norm_num) (by norm_num) (by norm_num))

namespace Ieee

theorem nan_divZ (z : Bool) (x : F64) : F64.divZ z .nan x = .nan ∧ F64.divZ z x .nan = .nan := by cases x <;> exact ⟨rfl, rfl⟩

theorem neg_nan : F64.neg .nan = .nan := rfl

end Ieee

/-- C123: with a nan among the coordinates of the triangle or of the point, `Triangle.contains` answers `False`. -/
theorem C123_contains_nan (z : Bool) (T : TriangleI) (M : PtI) (h : HasNan T.A ∨ HasNan T.B ∨ HasNan T.C ∨ HasNan M) : ¬ T.contains z M := by
  unfold TriangleI.contains
  rintro ⟨h1, -, -⟩
  rcases h with (h | h) | (h | h) | (h | h) | (h | h) <;>
    simp only [h, nan_sub, Ieee.sub_nan, nan_mul, mul_nan, nan_add, add_nan, neg_nan, (nan_divZ z _).1, (nan_divZ z _).2] at h1 <;> exact lt_nan _ h1

/-- A point with a nan coordinate is not in the triangle. -/
example (z : Bool) : ¬ (TriangleI.of ⟨⟨0, 0⟩, ⟨3, 1⟩, ⟨1, 2⟩⟩).contains z ⟨.nan, .fin 1⟩ :=
  C123_contains_nan _ _ _ (.inr (.inr (.inr (.inl rfl))))

/-- C123: a point well inside a large triangle is said not to be in it: the quotients are nan. -/
theorem C123_contains_overflow_counterexample (z : Bool) : ∃ (T : Triangle) (M : Pt), T.contains M ∧ ¬ (TriangleI.of T).contains z (.of M) := by
  refine ⟨⟨⟨0, 0⟩, ⟨2 ^ 600, 0⟩, ⟨0, 2 ^ 600⟩⟩, ⟨2 ^ 598, 2 ^ 598⟩, ?_, ?_⟩
  · unfold Triangle.contains
    have e : (2 : ℝ) ^ 600 = 4 * 2 ^ 598 := by rw [show 600 = 2 + 598 from rfl, pow_add]; norm_num
    have h0 : (0 : ℝ) < 2 ^ 598 := by positivity
    dsimp only
    rw [e]
    generalize (2 : ℝ) ^ 598 = m at *
    rw [if_neg (by have := h0.ne'; ring_nf; positivity)]
    refine ⟨?_, ?_, ?_⟩
    · ring_nf; positivity
    · ring_nf; positivity
    · have : (4 * m) * (4 * m) ≠ 0 := by positivity
      field_simp
      ring_nf
      positivity
  · have big : ∀ a b : ℕ, 1024 ≤ a + b → F64.mul (.fin (2 ^ a)) (.fin (2 ^ b)) = .inf false := by
      intro a b h
      show flo (2 ^ a * 2 ^ b) = _
      apply flo_inf
      rw [← pow_add]
      exact pow_le_pow_right₀ (by norm_num) h
    have fz : flo 0 = .fin 0 := by rw [flo_fin (by rw [abs_zero]; positivity), fl_zero]
    have fp : ∀ a : ℕ, a ≤ 1023 → flo (2 ^ a) = .fin (2 ^ a) ∧ flo (-2 ^ a) = .fin (-2 ^ a) := by
      intro a ha
      have hd : fl ((2 : ℝ) ^ a) = 2 ^ a := by
        have := fl_double (isDouble_pow (a : ℤ) (by omega))
        rwa [zpow_natCast] at this
      have hb : |(2 : ℝ) ^ a| ≤ 2 ^ 1023 := by
        rw [abs_of_pos (by positivity)]
        exact pow_le_pow_right₀ (by norm_num) ha
      constructor
      · rw [flo_fin hb, hd]
      · rw [flo_fin (by rwa [abs_neg]), fl_neg, hd]
    have z1 : ∀ x : ℝ, F64.mul (.fin 0) (.fin x) = .fin 0 ∧ F64.mul (.fin x) (.fin 0) = .fin 0 := by
      intro x
      refine ⟨?_, ?_⟩
      · show flo (0 * x) = _; rw [zero_mul, fz]
      · show flo (x * 0) = _; rw [mul_zero, fz]
    have z2 : F64.add (.fin 0) (.fin 0) = .fin 0 := by show flo (0 + 0) = _; rw [add_zero, fz]
    have z3 : ∀ a : ℕ, a ≤ 1023 → F64.sub (.fin (2 ^ a)) (.fin 0) = .fin (2 ^ a) ∧ F64.sub (.fin 0) (.fin (2 ^ a)) = .fin (-2 ^ a) ∧
        F64.add (.fin (-2 ^ a)) (.fin 0) = .fin (-2 ^ a) := by
      intro a ha
      refine ⟨?_, ?_, ?_⟩
      · show flo (2 ^ a + -0) = _; rw [neg_zero, add_zero, (fp a ha).1]
      · show flo (0 + -2 ^ a) = _; rw [zero_add, (fp a ha).2]
      · show flo (-2 ^ a + 0) = _; rw [add_zero, (fp a ha).2]
    have z0 : F64.sub (.fin 0) (.fin 0) = .fin 0 := by show flo (0 + -0) = _; rw [neg_zero, add_zero, fz]
    unfold TriangleI.contains TriangleI.of PtI.of
    dsimp only
    rw [neg_fin, neg_fin, neg_zero, (z1 _).1, (z3 600 (by norm_num)).2.2, (z1 _).1, (z3 600 (by norm_num)).2.1, (z1 _).1, z2, z2, big 600 600 (by norm_num)]
    rintro ⟨h, -, -⟩
    rw [z0, (z3 600 (by norm_num)).1, big 600 598 (by norm_num), (z1 _).1] at h
    exact h

/-- C123: for two points of absolute value `2^1023`, `circleAB` returns a circle whose centre is infinite, and which includes neither end. -/
theorem C123_circleAB_counterexample (k k' : Fma) : ∃ (A B : Pt) (c : CircleI), DoublePt A ∧ DoublePt B ∧ circleABI k (.of A) (.of B) = .ok c ∧
    c.center = ⟨.inf false, .fin (1 / 2)⟩ ∧ ¬ c.includes k' (.of A) ∧ ¬ c.includes k' (.of B) := by
  have f0 : fl (0 : ℝ) = 0 := fl_zero
  have f1 : fl (1 : ℝ) = 1 := by
    have := fl_double (isDouble_pow (0 : ℤ) (by norm_num))
    rwa [zpow_zero] at this
  have fh : fl (1 / 2 : ℝ) = 1 / 2 := by
    have := fl_double (isDouble_pow (-1 : ℤ) (by norm_num))
    norm_num at this ⊢
    exact this
  have small : ∀ x : ℝ, |x| ≤ 2 → flo x = .fin (fl x) := fun x hx => flo_fin (hx.trans (by
    calc (2 : ℝ) = 2 ^ 1 := by norm_num
      _ ≤ 2 ^ 1023 := pow_le_pow_right₀ (by norm_num) (by norm_num)))
  have flo1 : flo 1 = .fin 1 := by rw [small 1 (by norm_num), f1]
  have flo0 : flo 0 = .fin 0 := by rw [small 0 (by norm_num), f0]
  have dA : DoublePt ⟨2 ^ 1023, 0⟩ := by
    refine ⟨?_, ⟨0, 0, by norm_num, by norm_num, by norm_num⟩⟩
    have := isDouble_pow ((1023 : ℕ) : ℤ) (by norm_num)
    rwa [zpow_natCast] at this
  have dB : DoublePt ⟨2 ^ 1023, 1⟩ := ⟨dA.1, ⟨1, 0, by norm_num, by norm_num, by norm_num⟩⟩
  have hne : ¬ allcloseI (.of ⟨2 ^ 1023, 0⟩) (.of ⟨2 ^ 1023, 1⟩) := by
    rintro ⟨-, h⟩
    have h' : npCloseI (.fin 0) (.fin 1) := h
    have b : ∀ x : ℝ, |x| ≤ 1 → |x| ≤ 2 ^ 1022 := fun x hx => hx.trans (one_le_pow₀ (by norm_num))
    rw [Ieee.npClose (b 0 (by norm_num)) (b 1 (by norm_num))] at h'
    have := (FI.npClose (a := 0) (b := 1) ⟨0, by simp, by norm_num⟩ ⟨1, by simp, by norm_num⟩).1 h'
    norm_num at this
  have sx : F64.sub (.fin (2 ^ 1023)) (.fin (2 ^ 1023)) = .fin 0 := by
    show flo (2 ^ 1023 + -2 ^ 1023) = _
    rw [add_neg_cancel, flo0]
  have sy : F64.sub (.fin 1) (.fin 0) = .fin 1 := by
    show flo (1 + -0) = _
    rw [neg_zero, add_zero, flo1]
  have v : ∀ k, vdotI k ⟨.fin 0, .fin 1⟩ ⟨.fin 0, .fin 1⟩ = .fin 1 := by
    intro k
    have m0 : F64.mul (.fin 0) (.fin 0) = .fin 0 := by show flo (0 * 0) = _; rw [mul_zero, flo0]
    have m1 : F64.mul (.fin 1) (.fin 1) = .fin 1 := by show flo (1 * 1) = _; rw [mul_one, flo1]
    cases k
    · show F64.add (F64.mul (.fin 0) (.fin 0)) (F64.mul (.fin 1) (.fin 1)) = _
      rw [m0, m1]
      show flo (0 + 1) = _
      rw [zero_add, flo1]
    · show F64.fma (.fin 0) (.fin 0) (F64.mul (.fin 1) (.fin 1)) = _
      rw [m1]
      show flo (0 * 0 + 1) = _
      rw [mul_zero, zero_add, flo1]
    · show F64.fma (.fin 1) (.fin 1) (F64.mul (.fin 0) (.fin 0)) = _
      rw [m0]
      show flo (1 * 1 + 0) = _
      rw [mul_one, add_zero, flo1]
  have dist : distanceI k (.of ⟨2 ^ 1023, 0⟩) (.of ⟨2 ^ 1023, 1⟩) = .fin 1 := by
    unfold distanceI
    rw [show subI (.of ⟨2 ^ 1023, 1⟩) (.of ⟨2 ^ 1023, 0⟩) = ⟨F64.sub (.fin (2 ^ 1023)) (.fin (2 ^ 1023)), F64.sub (.fin 1) (.fin 0)⟩ from rfl, sx, sy, v]
    show (if (1 : ℝ) < 0 then _ else F64.fin (fl √1)) = _
    rw [if_neg (by norm_num), Real.sqrt_one, f1]
  have half : F64.div (.fin 1) (.fin 2) = .fin (1 / 2) := by
    show flo (1 / 2) = _
    rw [small _ (by norm_num [abs_of_pos]), fh]
  have hok : circleABI k (.of ⟨2 ^ 1023, 0⟩) (.of ⟨2 ^ 1023, 1⟩) = .ok ⟨⟨.inf false, .fin (1 / 2)⟩, .fin (1 / 2)⟩ := by
    unfold circleABI
    rw [if_neg hne, dist, half]
    have e1 : F64.add (PtI.of ⟨2 ^ 1023, 0⟩).x (PtI.of ⟨2 ^ 1023, 1⟩).x = .inf false := by
      show flo (2 ^ 1023 + 2 ^ 1023) = _
      apply flo_inf
      rw [show 1024 = 1023 + 1 from rfl, pow_succ']
      exact (two_mul _).le
    have e2 : F64.add (PtI.of ⟨2 ^ 1023, 0⟩).y (PtI.of ⟨2 ^ 1023, 1⟩).y = .fin 1 := by
      show flo (0 + 1) = _
      rw [zero_add, flo1]
    rw [e1, e2, half]
    have e3 : F64.div (.inf false) (.fin 2) = .inf false := by
      show F64.inf (false ^^ decide ((2 : ℝ) < 0)) = _
      rw [decide_eq_false (by norm_num)]
      rfl
    rw [e3]
    unfold mkCircleI
    rw [le_fin, if_neg (by norm_num)]
  have inc : ∀ y : ℝ, (∃ w, F64.sub (.fin y) (.fin (1 / 2)) = .fin w) →
      ¬ (⟨⟨.inf false, .fin (1 / 2)⟩, .fin (1 / 2)⟩ : CircleI).includes k' (.of ⟨2 ^ 1023, y⟩) := by
    rintro y ⟨w, hw⟩
    unfold CircleI.includes
    dsimp only
    have e : subI (.of ⟨2 ^ 1023, y⟩) ⟨.inf false, .fin (1 / 2)⟩ = ⟨.inf true, .fin w⟩ := by
      show (⟨F64.sub (.fin (2 ^ 1023)) (.inf false), F64.sub (.fin y) (.fin (1 / 2))⟩ : PtI) = _
      rw [hw]
      rfl
    have hn : NonNeg (F64.mul (.fin w) (.fin w)) := Ieee.sq_nonneg (Or.inl ⟨w, rfl⟩)
    have hv : vdotI k' ⟨.inf true, .fin w⟩ ⟨.inf true, .fin w⟩ = .inf false := by
      cases k'
      · exact (inf_add hn).1
      · exact fma_inf (Or.inl ⟨true, rfl⟩) hn
      · exact fma_inf' (Or.inl ⟨w, rfl⟩)
    rw [e, hv]
    have m : ∃ q, F64.mul (.fin (1 / 2)) (.fin (1 / 2)) = .fin q := ⟨_, small _ (by norm_num [abs_of_pos])⟩
    obtain ⟨q, hq⟩ := m
    have hq' : q = fl (1 / 2 * (1 / 2)) := by
      have : F64.mul (.fin (1 / 2)) (.fin (1 / 2)) = .fin (fl (1 / 2 * (1 / 2))) := small _ (by norm_num [abs_of_pos])
      rw [this] at hq
      exact (F64.fin.inj hq).symm
    rw [hq]
    have q1 : |q + 1| ≤ 2 := by
      have a := fl_mono (show (0 : ℝ) ≤ 1 / 2 * (1 / 2) by norm_num)
      have b := fl_mono (show (1 / 2 * (1 / 2) : ℝ) ≤ 1 by norm_num)
      rw [f0, ← hq'] at a
      rw [f1, ← hq'] at b
      rw [abs_of_nonneg (by linarith)]
      linarith
    rintro (h | h)
    · rcases h with h | h <;> exact h
    · have e1 : F64.add (.fin q) (.fin 1) = .fin (fl (q + 1)) := small _ q1
      rw [e1] at h
      rcases h with h | h <;> exact h
  have w0 := (sub_fin (x := 0) (y := 1 / 2) (e := 1) (by norm_num) (by norm_num [abs_of_pos]) (by norm_num)).1
  have w1 := (sub_fin (x := 1) (y := 1 / 2) (e := 1) (by norm_num) (by norm_num [abs_of_pos]) (by norm_num)).1
  exact ⟨_, _, _, dA, dB, hok, rfl, inc 0 ⟨_, w0⟩, inc 1 ⟨_, w1⟩⟩

/-- C123: homotheties, scalings, rotations and affine maps for data of absolute value at most `2^500`: neither overflow nor nan. -/
theorem C123_transforms_agree (h : Homothety) (s : ScalingXY) (f : Affine) (O M : Pt) (c' s' : ℝ) (kx ky : Fma) (hM : Below 500 M)
    (h1 : Below 500 h.center) (h2 : |h.scale| ≤ 2 ^ 500) (s1 : Below 500 s.center) (s2 : |s.sx| ≤ 2 ^ 500) (s3 : |s.sy| ≤ 2 ^ 500)
    (f1 : ∀ i j, |f.A i j| ≤ 2 ^ 500) (f2 : Below 500 f.b) (hO : Below 500 O) (hc : |c'| ≤ 2 ^ 500) (hs : |s'| ≤ 2 ^ 500) :
    homothetyI (.of h.center) (.fin h.scale) (.of M) = .of (h.transformF M) ∧
    scalingXYI (.of s.center) (.fin s.sx) (.fin s.sy) (.of M) = .of (s.transformF M) ∧
    rotateI (.of O) (.fin c') (.fin s') (.of M) = .of (rotateF O c' s' M) ∧
    affineI kx ky (.of ⟨f.A 0 0, f.A 0 1⟩) (.of ⟨f.A 1 0, f.A 1 1⟩) (.of f.b) (.of M) = .of (f.transformF kx ky M) := by
  refine ⟨?_, ?_, ?_, ?_⟩
  · have one : |(1 : ℝ)| ≤ 2 ^ 500 := by rw [abs_one]; exact one_le_pow₀ (by norm_num)
    obtain ⟨a1, b1⟩ := sub_fin one h2 (by norm_num)
    obtain ⟨a2, b2⟩ := mul_fin b1 h1.1 (by norm_num)
    obtain ⟨a3, b3⟩ := mul_fin b1 h1.2 (by norm_num)
    obtain ⟨a4, b4⟩ := mul_fin h2 hM.1 (by norm_num)
    obtain ⟨a5, b5⟩ := mul_fin h2 hM.2 (by norm_num)
    obtain ⟨a6, -⟩ := add_fin b2 (up b4 (by norm_num)) (by norm_num)
    obtain ⟨a7, -⟩ := add_fin b3 (up b5 (by norm_num)) (by norm_num)
    unfold homothetyI Homothety.transformF PtI.of
    dsimp only
    rw [a1, a2, a3, a4, a5, a6, a7]
  · obtain ⟨a1, b1⟩ := subPt hM s1 (by norm_num)
    obtain ⟨a2, b2⟩ := mul_fin s2 b1.1 (by norm_num)
    obtain ⟨a3, b3⟩ := mul_fin s3 b1.2 (by norm_num)
    obtain ⟨a4, -⟩ := add_fin b2 (up s1.1 (by norm_num)) (by norm_num)
    obtain ⟨a5, -⟩ := add_fin b3 (up s1.2 (by norm_num)) (by norm_num)
    unfold scalingXYI ScalingXY.transformF
    dsimp only
    rw [a1]
    unfold PtI.of
    dsimp only
    rw [a2, a3, a4, a5]
  · obtain ⟨a1, b1⟩ := subPt hM hO (by norm_num)
    obtain ⟨a2, b2⟩ := mul_fin hc b1.1 (by norm_num)
    obtain ⟨a3, b3⟩ := mul_fin hs b1.2 (by norm_num)
    obtain ⟨a4, b4⟩ := mul_fin hs b1.1 (by norm_num)
    obtain ⟨a5, b5⟩ := mul_fin hc b1.2 (by norm_num)
    obtain ⟨a6, b6⟩ := sub_fin b2 b3 (by norm_num)
    obtain ⟨a7, b7⟩ := add_fin b4 b5 (by norm_num)
    obtain ⟨a8, -⟩ := add_fin b6 (up hO.1 (by norm_num)) (by norm_num)
    obtain ⟨a9, -⟩ := add_fin b7 (up hO.2 (by norm_num)) (by norm_num)
    unfold rotateI rotateF
    dsimp only
    rw [a1]
    unfold PtI.of
    dsimp only
    rw [a2, a3, a4, a5, a6, a7, a8, a9]
  · obtain ⟨a1, b1⟩ := Ieee.vdot kx (u := ⟨f.A 0 0, f.A 0 1⟩) (v := M) ⟨f1 0 0, f1 0 1⟩ hM (by norm_num)
    obtain ⟨a2, b2⟩ := Ieee.vdot ky (u := ⟨f.A 1 0, f.A 1 1⟩) (v := M) ⟨f1 1 0, f1 1 1⟩ hM (by norm_num)
    obtain ⟨a3, -⟩ := add_fin b1 (up f2.1 (by norm_num)) (by norm_num)
    obtain ⟨a4, -⟩ := add_fin b2 (up f2.2 (by norm_num)) (by norm_num)
    unfold affineI Affine.transformF
    rw [a1, a2]
    unfold PtI.of
    dsimp only
    rw [a3, a4]

/-- C123: a nan coordinate of a point makes both coordinates of its image by a rotation or an affine map nan, whatever the coefficients; homotheties
and scalings change only the coordinate in question. -/
theorem C123_transforms_nan (kx ky : Fma) (r1 r2 b O M : PtI) (c s : F64) (h : HasNan M) :
    affineI kx ky r1 r2 b M = ⟨.nan, .nan⟩ ∧ rotateI O c s M = ⟨.nan, .nan⟩ ∧
    ((homothetyI O c M).x = .nan ∧ (scalingXYI O c s M).x = .nan ∨ (homothetyI O c M).y = .nan ∧ (scalingXYI O c s M).y = .nan) := by
  refine ⟨?_, ?_, ?_⟩
  · unfold affineI
    rw [vdot_hasNan kx (Or.inr h), vdot_hasNan ky (Or.inr h), nan_add, nan_add]
  · unfold rotateI subI
    rcases h with h | h <;> simp only [h, nan_sub, mul_nan, Ieee.sub_nan, nan_add, add_nan]
  · unfold homothetyI scalingXYI subI
    rcases h with h | h
    · left
      simp only [h, nan_sub, mul_nan, nan_add, add_nan, and_self]
    · right
      simp only [h, nan_sub, mul_nan, nan_add, add_nan, and_self]

/-- A rotation or an affine map spreads a nan to both coordinates. -/
example (c s : F64) : rotateI ⟨.fin 0, .fin 0⟩ c s ⟨.nan, .fin 1⟩ = ⟨.nan, .nan⟩ :=
  (C123_transforms_nan .none .none ⟨.fin 1, .fin 0⟩ ⟨.fin 0, .fin 1⟩ ⟨.fin 0, .fin 0⟩ _ _ c s (.inl rfl)).2.1

/-- C123: the identity as an affine map sends `(inf, y)` to `(inf, nan)`; as a homothety of scale 1 it keeps `(inf, y)` when the centre is finite. -/
theorem C123_identity_infinity (y : ℝ) (hy : IsDouble y) (hb : |y| ≤ 2 ^ 1000) (kx ky : Fma) (O : Pt) :
    affineI kx ky (.of ⟨1, 0⟩) (.of ⟨0, 1⟩) (.of ⟨0, 0⟩) ⟨.inf false, .fin y⟩ = ⟨.inf false, .nan⟩ ∧
    homothetyI (.of O) (.fin 1) ⟨.inf false, .fin y⟩ = ⟨.inf false, .fin y⟩ := by
  have f0 : flo 0 = .fin 0 := by rw [flo_fin (by rw [abs_zero]; positivity), fl_zero]
  have fy : flo y = .fin y := by rw [flo_fin (up hb (by norm_num)), fl_double hy]
  have m0 : F64.mul (.fin 0) (.fin y) = .fin 0 := by show flo (0 * y) = _; rw [zero_mul, f0]
  have m1 : F64.mul (.fin 1) (.fin y) = .fin y := by show flo (1 * y) = _; rw [one_mul, fy]
  have i1 : F64.mul (.fin 1) (.inf false) = .inf false := by
    show (if (1 : ℝ) = 0 then F64.nan else .inf (decide ((1 : ℝ) < 0) ^^ false)) = _
    rw [if_neg (by norm_num), decide_eq_false (by norm_num)]
    rfl
  have i0 : F64.mul (.fin 0) (.inf false) = .nan := by
    show (if (0 : ℝ) = 0 then F64.nan else _) = _
    rw [if_pos rfl]
  constructor
  · have vx : vdotI kx (.of ⟨1, 0⟩) ⟨.inf false, .fin y⟩ = .inf false := by
      cases kx
      · show F64.add (F64.mul (.fin 1) (.inf false)) (F64.mul (.fin 0) (.fin y)) = _
        rw [i1, m0]; rfl
      · show F64.add (F64.mul (.fin 1) (.inf false)) (F64.mul (.fin 0) (.fin y)) = _
        rw [i1, m0]; rfl
      · show F64.fma (.fin 0) (.fin y) (F64.mul (.fin 1) (.inf false)) = _
        rw [i1]; rfl
    have vy : vdotI ky (.of ⟨0, 1⟩) ⟨.inf false, .fin y⟩ = .nan := by
      cases ky
      · show F64.add (F64.mul (.fin 0) (.inf false)) _ = _
        rw [i0, nan_add]
      · show F64.add (F64.mul (.fin 0) (.inf false)) _ = _
        rw [i0, nan_add]
      · show F64.fma (.fin 1) (.fin y) (F64.mul (.fin 0) (.inf false)) = _
        rw [i0]; rfl
    unfold affineI
    rw [vx, vy]
    rfl
  · have t : F64.sub (.fin 1) (.fin 1) = .fin 0 := by show flo (1 + -1) = _; rw [add_neg_cancel, f0]
    have z : ∀ x : ℝ, F64.mul (.fin 0) (.fin x) = .fin 0 := fun x => by show flo (0 * x) = _; rw [zero_mul, f0]
    unfold homothetyI PtI.of
    dsimp only
    rw [t, z, z, i1, m1]
    have : F64.add (.fin 0) (.fin y) = .fin y := by show flo (0 + y) = _; rw [zero_add, fy]
    rw [this]
    rfl

/-- A concrete overflow: the circle through `(2^600, 0)` with centre the origin has infinite radius and contains `(2^700, 1)`. -/
example : circleOAI .none (.of ⟨0, 0⟩) (.of ⟨2 ^ 600, 0⟩) = .ok ⟨.of ⟨0, 0⟩, .inf false⟩ ∧
    (⟨.of ⟨0, 0⟩, .inf false⟩ : CircleI).contains .first (.of ⟨2 ^ 700, 1⟩) := by
  have h : ¬ allcloseI (.of ⟨0, 0⟩) (.of ⟨2 ^ 600, 0⟩) := by
    have b : Below 1022 ⟨2 ^ 600, 0⟩ :=
      ⟨by rw [abs_of_pos (by positivity)]; exact pow_le_pow_right₀ (by norm_num) (by norm_num), by rw [abs_zero]; positivity⟩
    have b0 : Below 1022 ⟨0, 0⟩ := ⟨by rw [abs_zero]; positivity, by rw [abs_zero]; positivity⟩
    rw [Ieee.allclose b0 b]
    rintro ⟨h, -⟩
    have e1 : fl ((2 : ℝ) ^ 600) = 2 ^ 600 := by
      have := fl_double (isDouble_pow 600 (by omega))
      exact_mod_cast this
    have q : |fl (1 / 10 ^ 5)| ≤ 1 / 4 := by
      have : fl (1 / 4) = 1 / 4 := fl_double ⟨1, -2, by norm_num, by norm_num, by norm_num⟩
      rw [abs_of_nonneg (fl_nonneg (by norm_num)), ← this]
      exact fl_mono (by norm_num)
    have q1 : |fl (1 / 10 ^ 8)| ≤ 2 ^ 0 := fl_le_pow (by rw [abs_of_pos (by norm_num)]; norm_num)
    have q2 : |fl (fl (1 / 10 ^ 5) * |(2 : ℝ) ^ 600|)| ≤ 2 ^ 598 := fl_le_pow (by
      rw [abs_mul, abs_abs, abs_of_pos (show (0 : ℝ) < 2 ^ 600 by positivity)]
      calc |fl (1 / 10 ^ 5)| * 2 ^ 600 ≤ 1 / 4 * 2 ^ 600 := mul_le_mul_of_nonneg_right q (by positivity)
        _ = 2 ^ 598 := by rw [show (600 : ℕ) = 598 + 2 from rfl, pow_add]; ring)
    have q3 : |fl (fl (1 / 10 ^ 8) + fl (fl (1 / 10 ^ 5) * |(2 : ℝ) ^ 600|))| ≤ 2 ^ 599 := fl_le_pow (by
      refine (abs_add_le _ _).trans ((add_le_add q1 q2).trans ?_)
      have h1 : (2 : ℝ) ^ 0 ≤ 2 ^ 598 := pow_le_pow_right₀ (by norm_num) (by norm_num)
      have h2 : (2 : ℝ) ^ 599 = 2 ^ 598 * 2 := pow_succ _ _
      rw [h2, mul_two]
      exact add_le_add h1 le_rfl)
    have h' : |fl (0 - (2 : ℝ) ^ 600)| ≤ fl (fl (1 / 10 ^ 8) + fl (fl (1 / 10 ^ 5) * |(2 : ℝ) ^ 600|)) := h
    rw [zero_sub, fl_neg, abs_neg, e1] at h'
    have h2 := (le_abs_self _).trans (h'.trans ((le_abs_self _).trans q3))
    exact absurd (pow_lt_pow_right₀ (by norm_num) (by norm_num : 599 < 600)) h2.not_gt
  have := C123_circleOA_large .none .first ⟨0, 0⟩ ⟨2 ^ 600, 0⟩ (Or.inl (by
    show (2 : ℝ) ^ 512 ≤ |2 ^ 600 - 0|
    rw [sub_zero, abs_of_pos (by positivity)]
    exact pow_le_pow_right₀ (by norm_num) (by norm_num))) h
  exact ⟨this.1, this.2.2 _⟩
