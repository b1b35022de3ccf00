import Verif.Lemmas.FloatInt

/-!
# C115: lines with integer coordinates in double precision
-/

open Spec Real Classical

/-- The intersection of two lines, by determinants. -/
theorem FI.meet_eq {P1 P2 Q1 Q2 I : Pt} (h1 : OnLine P1 P2 I) (h2 : OnLine Q1 Q2 I) :
    ((P1.x - P2.x) * (Q1.y - Q2.y) - (Q1.x - Q2.x) * (P1.y - P2.y)) * I.x =
      (P1.x * P2.y - P2.x * P1.y) * (Q1.x - Q2.x) - (Q1.x * Q2.y - Q2.x * Q1.y) * (P1.x - P2.x) ∧
    ((P1.x - P2.x) * (Q1.y - Q2.y) - (Q1.x - Q2.x) * (P1.y - P2.y)) * I.y =
      (P1.x * P2.y - P2.x * P1.y) * (Q1.y - Q2.y) - (Q1.x * Q2.y - Q2.x * Q1.y) * (P1.y - P2.y) := by
  obtain ⟨t, ht⟩ := h1
  obtain ⟨s, hs⟩ := h2
  have a := congrArg Pt.x ht
  have b := congrArg Pt.y ht
  have c := congrArg Pt.x hs
  have d := congrArg Pt.y hs
  simp only [Pt.add_x, Pt.add_y, Pt.smul_x, Pt.smul_y, Pt.sub_x, Pt.sub_y] at a b c d
  have e1 : (P2.x - P1.x) * (I.y - P1.y) - (P2.y - P1.y) * (I.x - P1.x) = 0 := by rw [a, b]; ring
  have e2 : (Q2.x - Q1.x) * (I.y - Q1.y) - (Q2.y - Q1.y) * (I.x - Q1.x) = 0 := by rw [c, d]; ring
  constructor
  · linear_combination (Q2.x - Q1.x) * e1 - (P2.x - P1.x) * e2
  · linear_combination (Q2.y - Q1.y) * e1 - (P2.y - P1.y) * e2

/-- C115: for integer coordinates of absolute value at most `10^5`, `line_line_intersection_` returns `None` exactly for parallel lines,
and otherwise the correctly rounded coordinates of the point of intersection. -/
theorem C115_line_line (P1 P2 Q1 Q2 : Pt) (h1 : IntPt 100000 P1) (h2 : IntPt 100000 P2) (h3 : IntPt 100000 Q1)
    (h4 : IntPt 100000 Q2) :
    (line_line_intersectionF P1 P2 Q1 Q2 = none ↔ Parallel (P2 - P1) (Q2 - Q1)) ∧
    ∀ I, OnLine P1 P2 I → OnLine Q1 Q2 I → ¬ Parallel (P2 - P1) (Q2 - Q1) →
      line_line_intersectionF P1 P2 Q1 Q2 = some ⟨fl I.x, fl I.y⟩ := by
  have a1 := FI.sub h1.1 h2.1
  have a2 := FI.sub h3.1 h4.1
  have b1 := FI.sub h1.2 h2.2
  have b2 := FI.sub h3.2 h4.2
  obtain ⟨eD, -⟩ := FI.det a1 b1 a2 b2 (by norm_num)
  obtain ⟨eD1, iD1⟩ := FI.det h1.1 h1.2 h2.1 h2.2 (by norm_num)
  obtain ⟨eD2, iD2⟩ := FI.det h3.1 h3.2 h4.1 h4.2 (by norm_num)
  obtain ⟨eX, -⟩ := FI.det iD1 a1 iD2 a2 (by norm_num)
  obtain ⟨eY, -⟩ := FI.det iD1 b1 iD2 b2 (by norm_num)
  have par : Parallel (P2 - P1) (Q2 - Q1) ↔ (P1.x - P2.x) * (Q1.y - Q2.y) - (Q1.x - Q2.x) * (P1.y - P2.y) = 0 := by
    unfold Parallel cross
    simp only [Pt.sub_x, Pt.sub_y]
    constructor <;> intro h <;> linear_combination h
  unfold line_line_intersectionF
  dsimp only
  rw [FI.fl a1 (by norm_num), FI.fl a2 (by norm_num), FI.fl b1 (by norm_num), FI.fl b2 (by norm_num), eD, eD1, eD2, eX, eY, par]
  constructor
  · split_ifs with h
    · simp [h]
    · simp [h]
  · intro I i1 i2 hp
    obtain ⟨mx, my⟩ := FI.meet_eq i1 i2
    rw [if_neg hp, ← mx, ← my, mul_div_cancel_left₀ _ hp, mul_div_cancel_left₀ _ hp]

/-- C115: for integer coordinates of absolute value at most `2^24`, `is_parallel` is exact. -/
theorem C115_is_parallel (l1 l2 : Line) (h1 : IntPt (2 ^ 24) l1.A) (h2 : IntPt (2 ^ 24) l1.B) (h3 : IntPt (2 ^ 24) l2.A)
    (h4 : IntPt (2 ^ 24) l2.B) : l1.is_parallelF l2 ↔ Parallel (l1.B - l1.A) (l2.B - l2.A) := by
  have a1 := FI.sub h1.1 h2.1
  have a2 := FI.sub h3.1 h4.1
  have b1 := FI.sub h1.2 h2.2
  have b2 := FI.sub h3.2 h4.2
  obtain ⟨eD, iD⟩ := FI.det a1 b1 a2 b2 (by norm_num)
  unfold Line.is_parallelF
  rw [FI.fl a1 (by norm_num), FI.fl a2 (by norm_num), FI.fl b1 (by norm_num), FI.fl b2 (by norm_num), eD]
  unfold Parallel cross
  simp only [Pt.sub_x, Pt.sub_y]
  constructor
  · intro h
    have := FI.eq_zero iD (h.trans (by norm_num))
    linear_combination this
  · intro h
    rw [show (l1.A.x - l1.B.x) * (l2.A.y - l2.B.y) - (l2.A.x - l2.B.x) * (l1.A.y - l1.B.y) = 0 by linear_combination h, abs_zero]
    norm_num

/-- C115: for integer coordinates of absolute value at most `2^24`, `is_perpendicular` is exact. -/
theorem C115_is_perpendicular (k : Fma) (l1 l2 : Line) (h1 : IntPt (2 ^ 24) l1.A) (h2 : IntPt (2 ^ 24) l1.B)
    (h3 : IntPt (2 ^ 24) l2.A) (h4 : IntPt (2 ^ 24) l2.B) : l1.is_perpendicularF k l2 ↔ Perp (l1.B - l1.A) (l2.B - l2.A) := by
  obtain ⟨e1, i1⟩ := FI.subPt h2 h1 (by norm_num)
  obtain ⟨e2, i2⟩ := FI.subPt h4 h3 (by norm_num)
  have hi := FI.add (FI.mul i1.1 i2.1) (FI.mul i1.2 i2.2)
  have h0 : IntB ((2 ^ 24 + 2 ^ 24) * (2 ^ 24 + 2 ^ 24) + (2 ^ 24 + 2 ^ 24) * (2 ^ 24 + 2 ^ 24)) 0 := ⟨0, by norm_num, by norm_num⟩
  unfold Line.is_perpendicularF
  rw [e1, e2, FI.vdot k i1 i2 (by norm_num), FI.approx hi h0 (by norm_num)]
  · rfl
  · intro hne
    have := FI.one_le_abs hi hne
    rw [sub_zero, abs_zero]
    generalize |(l1.B - l1.A).x * (l2.B - l2.A).x + (l1.B - l1.A).y * (l2.B - l2.A).y| = z at *
    constructor <;> norm_num <;> linarith

/-- Rounding of an integer between `2^54` and `2^55`. -/
theorem FI.fl_four (m n : ℤ) (hm1 : 2 ^ 54 ≤ m) (hm2 : m < 2 ^ 55) (h : |m - 4 * n| ≤ 1) : _root_.fl m = 4 * n := by
  have c1 : (2 : ℝ) ^ 54 ≤ m := by exact_mod_cast hm1
  have c2 : (m : ℝ) < 2 ^ 55 := by exact_mod_cast hm2
  have c3 : |(m : ℝ) - 4 * n| ≤ 1 := by exact_mod_cast h
  have hp : (0 : ℝ) < m := lt_of_lt_of_le (by norm_num) c1
  rw [fl_eval (e := 2) (n := n) (by norm_num) (by rw [abs_of_pos hp]; exact_mod_cast c1)
    (by rw [abs_of_pos hp]; exact_mod_cast c2)]
  · rw [mul_comm]; norm_num
  · rw [_root_.abs_le] at c3
    rw [abs_lt]
    norm_num
    constructor <;> linarith [c3.1, c3.2]

/-- C115: larger integers may make two lines parallel: two lines that cross at the origin, for which no point is returned. -/
theorem C115_parallel_counterexample : ∃ P Q : Pt, IntPt (2 ^ 28) P ∧ IntPt (2 ^ 28) Q ∧ ¬ Parallel P Q ∧
    line_line_intersectionF P ⟨0, 0⟩ Q ⟨0, 0⟩ = none ∧
    (⟨P, ⟨0, 0⟩, true, true⟩ : Line).is_parallelF ⟨Q, ⟨0, 0⟩, true, true⟩ := by
  have f1 : fl 134217731 = 134217731 := FI.fl (A := 2 ^ 28) ⟨134217731, by norm_num, by norm_num⟩ (by norm_num)
  have f2 : fl 134217730 = 134217730 := FI.fl (A := 2 ^ 28) ⟨134217730, by norm_num, by norm_num⟩ (by norm_num)
  have f3 : fl 134217729 = 134217729 := FI.fl (A := 2 ^ 28) ⟨134217729, by norm_num, by norm_num⟩ (by norm_num)
  have g1 : fl 18014399046352900 = 18014399046352900 := by
    have := FI.fl_four 18014399046352900 4503599761588225 (by norm_num) (by norm_num) (by norm_num)
    push_cast at this; rw [this]; norm_num
  have g2 : fl 18014399046352899 = 18014399046352900 := by
    have := FI.fl_four 18014399046352899 4503599761588225 (by norm_num) (by norm_num) (by norm_num)
    push_cast at this; rw [this]; norm_num
  have hD : det2x2F 134217731 134217730 134217730 134217729 = 0 := by
    unfold det2x2F
    rw [show (134217731 : ℝ) * 134217729 = 18014399046352899 by norm_num, show (134217730 : ℝ) * 134217730 = 18014399046352900 by norm_num, g1, g2, sub_self, fl_zero]
  refine ⟨⟨134217731, 134217730⟩, ⟨134217730, 134217729⟩, ⟨⟨134217731, by norm_num, by norm_num⟩, ⟨134217730, by norm_num, by norm_num⟩⟩,
    ⟨⟨134217730, by norm_num, by norm_num⟩, ⟨134217729, by norm_num, by norm_num⟩⟩, ?_, ?_, ?_⟩
  · unfold Parallel cross
    norm_num
  · unfold line_line_intersectionF
    dsimp only
    rw [sub_zero, sub_zero, sub_zero, f1, f2, f3, hD, if_pos rfl]
  · unfold Line.is_parallelF
    dsimp only
    rw [sub_zero, sub_zero, sub_zero, f1, f2, f3, hD, abs_zero]
    norm_num

/-- C115: far from the origin the point of intersection may be wrong by more than the size of the data: two segments with a common
end point `P1`, of lengths less than four, for which the computed point is at distance more than five of `P1`. -/
theorem C115_far_counterexample : ∃ P1 P2 Q2 R : Pt, IntPt (2 ^ 28) P1 ∧ IntPt (2 ^ 28) P2 ∧ IntPt (2 ^ 28) Q2 ∧
    ¬ Parallel (P2 - P1) (Q2 - P1) ∧ Spec.dist P1 P2 < 4 ∧ Spec.dist P1 Q2 < 4 ∧
    line_line_intersectionF P1 P2 P1 Q2 = some R ∧ 5 < Spec.dist P1 R := by
  have m13 : fl (134217729 * 134217731) = 18014399046352900 := by
    have := FI.fl_four 18014399046352899 4503599761588225 (by norm_num) (by norm_num) (by norm_num)
    push_cast at this; rw [show (134217729 : ℝ) * 134217731 = 18014399046352899 by norm_num, this]; norm_num
  have m45 : fl (134217732 * 134217733) = 18014399717441556 := by
    have := FI.fl_four 18014399717441556 4503599929360389 (by norm_num) (by norm_num) (by norm_num)
    push_cast at this; rw [show (134217732 : ℝ) * 134217733 = 18014399717441556 by norm_num, this]; norm_num
  have m14 : fl (134217729 * 134217732) = 18014399180570628 := by
    have := FI.fl_four 18014399180570628 4503599795142657 (by norm_num) (by norm_num) (by norm_num)
    push_cast at this; rw [show (134217729 : ℝ) * 134217732 = 18014399180570628 by norm_num, this]; norm_num
  have m35 : fl (134217731 * 134217733) = 18014399583223824 := by
    have := FI.fl_four 18014399583223823 4503599895805956 (by norm_num) (by norm_num) (by norm_num)
    push_cast at this; rw [show (134217731 : ℝ) * 134217733 = 18014399583223823 by norm_num, this]; norm_num
  have i : ∀ n : ℤ, |n| ≤ 2 ^ 53 → fl n = n := fun n h => fl_double (isDouble_int h)
  have s1 : fl (-671088656) = -671088656 := by have := i (-671088656) (by norm_num); push_cast at this; exact this
  have s2 : fl (-402653196) = -402653196 := by have := i (-402653196) (by norm_num); push_cast at this; exact this
  have s3 : fl (1342177312) = 1342177312 := by have := i (1342177312) (by norm_num); push_cast at this; exact this
  have s4 : fl (1207959588) = 1207959588 := by have := i (1207959588) (by norm_num); push_cast at this; exact this
  have s5 : fl (134217724) = 134217724 := by have := i (134217724) (by norm_num); push_cast at this; exact this
  have s6 : fl (-671088656) = -671088656 := by have := i (-671088656) (by norm_num); push_cast at this; exact this
  have s7 : fl (-805306392) = -805306392 := by have := i (-805306392) (by norm_num); push_cast at this; exact this
  have s8 : fl (134217736) = 134217736 := by have := i (134217736) (by norm_num); push_cast at this; exact this
  have t1 : fl (134217724) = 134217724 := by have := i (134217724) (by norm_num); push_cast at this; exact this
  have t2 : fl (134217736) = 134217736 := by have := i (134217736) (by norm_num); push_cast at this; exact this
  have d1 : fl (134217729 - 134217732) = -3 := by rw [show (134217729 - 134217732 : ℝ) = -3 by norm_num]; have := i (-3) (by norm_num); push_cast at this; exact this
  have d2 : fl (134217729 - 134217731) = -2 := by rw [show (134217729 - 134217731 : ℝ) = -2 by norm_num]; have := i (-2) (by norm_num); push_cast at this; exact this
  have d3 : fl (134217733 - 134217731) = 2 := by rw [show (134217733 - 134217731 : ℝ) = 2 by norm_num]; simpa using i 2 (by norm_num)
  have d4 : fl (134217733 - 134217732) = 1 := by rw [show (134217733 - 134217732 : ℝ) = 1 by norm_num]; simpa using i 1 (by norm_num)
  have e3 : fl (3) = 3 := by have := i (3) (by norm_num); push_cast at this; exact this
  have e4 : fl (4) = 4 := by have := i (4) (by norm_num); push_cast at this; exact this
  have e1 : fl (1) = 1 := by have := i (1) (by norm_num); push_cast at this; exact this
  have hD : det2x2F (-3) 2 (-2) 1 = 1 := by
    unfold det2x2F
    norm_num [fl_neg, e3, e4, e1]
  have hD1 : det2x2F 134217729 134217733 134217732 134217731 = -671088656 := by
    unfold det2x2F
    rw [m13, m45]
    norm_num [fl_neg] at s1 ⊢
    exact s1
  have hD2 : det2x2F 134217729 134217733 134217731 134217732 = -402653196 := by
    unfold det2x2F
    rw [m14, m35]
    norm_num [fl_neg] at s2 ⊢
    exact s2
  have hX : det2x2F (-671088656) (-3) (-402653196) (-2) = 134217724 := by
    unfold det2x2F
    norm_num [s3, s4, s5]
  have hY : det2x2F (-671088656) 2 (-402653196) 1 = 134217736 := by
    unfold det2x2F
    norm_num [fl_neg] at s6 s7 s8 ⊢
    rw [s6, s7]
    norm_num [s8]
  refine ⟨⟨134217729, 134217733⟩, ⟨134217732, 134217731⟩, ⟨134217731, 134217732⟩, ⟨134217724, 134217736⟩,
    ⟨⟨134217729, by norm_num, by norm_num⟩, ⟨134217733, by norm_num, by norm_num⟩⟩,
    ⟨⟨134217732, by norm_num, by norm_num⟩, ⟨134217731, by norm_num, by norm_num⟩⟩,
    ⟨⟨134217731, by norm_num, by norm_num⟩, ⟨134217732, by norm_num, by norm_num⟩⟩, ?_, ?_, ?_, ?_, ?_⟩
  · unfold Parallel cross
    norm_num
  · unfold Spec.dist sqDist
    rw [Real.sqrt_lt' (by norm_num)]
    norm_num
  · unfold Spec.dist sqDist
    rw [Real.sqrt_lt' (by norm_num)]
    norm_num
  · unfold line_line_intersectionF
    dsimp only
    rw [d1, d2, d3, d4, hD, hD1, hD2, hX, hY, if_neg one_ne_zero, div_one, div_one, t1, t2]
  · unfold Spec.dist sqDist
    rw [Real.lt_sqrt (by norm_num)]
    norm_num

/-- The lines through `(0, 0)`, `(3, 1)` and through `(0, 1)`, `(1, 0)` meet at `(3/4, 1/4)`. -/
example : line_line_intersectionF ⟨0, 0⟩ ⟨3, 1⟩ ⟨0, 1⟩ ⟨1, 0⟩ = some ⟨3 / 4, 1 / 4⟩ := by
  have z : IntB 100000 0 := ⟨0, by norm_num, by norm_num⟩
  have o : IntB 100000 1 := ⟨1, by norm_num, by norm_num⟩
  have t : IntB 100000 3 := ⟨3, by norm_num, by norm_num⟩
  have h := (C115_line_line ⟨0, 0⟩ ⟨3, 1⟩ ⟨0, 1⟩ ⟨1, 0⟩ ⟨z, z⟩ ⟨t, o⟩ ⟨z, o⟩ ⟨o, z⟩).2 ⟨3 / 4, 1 / 4⟩
    ⟨1 / 4, by ext <;> norm_num⟩ ⟨3 / 4, by ext <;> norm_num⟩ (by unfold Parallel cross; norm_num)
  rw [h, fl_double ⟨3, -2, by norm_num, by norm_num, by norm_num⟩, fl_double ⟨1, -2, by norm_num, by norm_num, by norm_num⟩]

/-- The lines of directions `(3, 1)` and `(6, 2)` are parallel, those of directions `(3, 1)` and `(-1, 3)` perpendicular, and not
conversely. -/
example (k : Fma) : (⟨⟨0, 0⟩, ⟨3, 1⟩, true, true⟩ : Line).is_parallelF ⟨⟨0, 1⟩, ⟨6, 3⟩, true, true⟩ ∧
    ¬ (⟨⟨0, 0⟩, ⟨3, 1⟩, true, true⟩ : Line).is_parallelF ⟨⟨0, 1⟩, ⟨-1, 4⟩, true, true⟩ ∧
    (⟨⟨0, 0⟩, ⟨3, 1⟩, true, true⟩ : Line).is_perpendicularF k ⟨⟨0, 1⟩, ⟨-1, 4⟩, true, true⟩ ∧
    ¬ (⟨⟨0, 0⟩, ⟨3, 1⟩, true, true⟩ : Line).is_perpendicularF k ⟨⟨0, 1⟩, ⟨6, 3⟩, true, true⟩ := by
  have i : ∀ m : ℤ, |m| ≤ 2 ^ 24 → IntB (2 ^ 24) m := fun m h => ⟨m, rfl, by exact_mod_cast h⟩
  have a : IntPt (2 ^ 24) ⟨0, 0⟩ := ⟨by simpa using i 0 (by norm_num), by simpa using i 0 (by norm_num)⟩
  have b : IntPt (2 ^ 24) ⟨3, 1⟩ := ⟨by simpa using i 3 (by norm_num), by simpa using i 1 (by norm_num)⟩
  have c : IntPt (2 ^ 24) ⟨0, 1⟩ := ⟨by simpa using i 0 (by norm_num), by simpa using i 1 (by norm_num)⟩
  have d : IntPt (2 ^ 24) ⟨6, 3⟩ := ⟨by simpa using i 6 (by norm_num), by simpa using i 3 (by norm_num)⟩
  have e : IntPt (2 ^ 24) ⟨-1, 4⟩ := ⟨by simpa using i (-1) (by norm_num), by simpa using i 4 (by norm_num)⟩
  refine ⟨(C115_is_parallel _ _ a b c d).2 ?_, fun h => ?_, (C115_is_perpendicular k _ _ a b c e).2 ?_, fun h => ?_⟩
  · norm_num [Parallel, cross]
  · have := (C115_is_parallel _ _ a b c e).1 h
    norm_num [Parallel, cross] at this
  · norm_num [Perp, dot]
  · have := (C115_is_perpendicular k _ _ a b c d).1 h
    norm_num [Perp, dot] at this
