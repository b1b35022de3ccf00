import Verif.Model.FloatAffineMap
import Verif.Props.FloatAffine
import Verif.Props.FloatMobius
import Verif.Props.FloatReflection

/-!
# C132: `Affine.compose` and `Affine.from_mapping_three_points` in double precision
-/

open Spec Real Classical FG FT

namespace FAM

theorem abs_sum_le (l : List (ℝ × ℝ)) : |(l.map fun p => p.1 * p.2).sum| ≤ (l.map fun p => |p.1 * p.2|).sum := by
  induction l with
  | nil => simp
  | cons p l ih =>
    simp only [List.map_cons, List.sum_cons]
    exact (abs_add_le _ _).trans (add_le_add_right ih _)

/-- The error of a sum of products, whatever the order of the operations. -/
theorem dot_err {l : List (ℝ × ℝ)} {v : ℝ} (h : DotEval l v) (hl : l.length ≤ 1000) :
    IsDouble v ∧ (l = [] → v = 0) ∧
      |v - (l.map fun p => p.1 * p.2).sum| ≤ 2 / 2 ^ 53 * l.length * (l.map fun p => |p.1 * p.2|).sum + (if l = [] then 0 else (3 * l.length - 2) * tiny) := by
  have ht := tiny_pos
  induction h with
  | zero => exact ⟨FAff.isDouble_zero, fun _ => rfl, by simp⟩
  | one p =>
    refine ⟨fl_isDouble _, fun e => by simp at e, ?_⟩
    have h1 := fl_err' (p.1 * p.2)
    have h2 := abs_nonneg (p.1 * p.2)
    simp only [List.map_cons, List.map_nil, List.sum_cons, List.sum_nil, add_zero, List.length_singleton, if_neg (List.cons_ne_nil p [])]
    generalize |p.1 * p.2| = s at *
    push_cast
    norm_num at *
    linarith
  | @add l m v w h1 h2 ih1 ih2 =>
    rw [List.length_append] at hl
    obtain ⟨d1, z1, e1⟩ := ih1 (by omega)
    obtain ⟨d2, z2, e2⟩ := ih2 (by omega)
    refine ⟨fl_isDouble _, fun e => ?_, ?_⟩
    · obtain ⟨rfl, rfl⟩ := List.append_eq_nil_iff.1 e
      rw [z1 rfl, z2 rfl, add_zero, fl_zero]
    · by_cases hln : l = []
      · subst hln
        rw [z1 rfl, zero_add, fl_double d2, List.nil_append]
        exact e2
      · by_cases hmn : m = []
        · subst hmn
          rw [z2 rfl, add_zero, fl_double d1, List.append_nil]
          exact e1
        · rw [if_neg hln] at e1
          rw [if_neg hmn] at e2
          rw [if_neg (by simp [hln]), List.map_append, List.map_append, List.sum_append, List.sum_append, List.length_append]
          have n1 : (1 : ℝ) ≤ l.length := by exact_mod_cast List.length_pos_iff.2 hln
          have n2 : (1 : ℝ) ≤ m.length := by exact_mod_cast List.length_pos_iff.2 hmn
          have n3 : (l.length : ℝ) + m.length ≤ 1000 := by exact_mod_cast hl
          have s1 : |(l.map fun p => p.1 * p.2).sum| ≤ (l.map fun p => |p.1 * p.2|).sum := abs_sum_le l
          have s2 : |(m.map fun p => p.1 * p.2).sum| ≤ (m.map fun p => |p.1 * p.2|).sum := abs_sum_le m
          have h3 := fl_err' (v + w)
          push_cast
          generalize (l.map fun p => p.1 * p.2).sum = x at *
          generalize (m.map fun p => p.1 * p.2).sum = y at *
          generalize (l.map fun p => |p.1 * p.2|).sum = X at *
          generalize (m.map fun p => |p.1 * p.2|).sum = Y at *
          generalize (l.length : ℝ) = a at *
          generalize (m.length : ℝ) = b at *
          generalize fl (v + w) = z at *
          have hX : 0 ≤ X := (abs_nonneg _).trans s1
          have hY : 0 ≤ Y := (abs_nonneg _).trans s2
          have t1 : |v| ≤ X + |v - x| := by
            have := abs_add_le x (v - x)
            rw [add_sub_cancel] at this
            linarith
          have t2 : |w| ≤ Y + |w - y| := by
            have := abs_add_le y (w - y)
            rw [add_sub_cancel] at this
            linarith
          have t3 := abs_add_le v w
          have t4 : |z - (x + y)| ≤ |z - (v + w)| + |v - x| + |w - y| := by
            have e : z - (x + y) = (z - (v + w)) + (v - x) + (w - y) := by ring
            rw [e]
            exact (abs_add_le _ _).trans (add_le_add_left (abs_add_le _ _) _)
          generalize |z - (x + y)| = c1 at *
          generalize |z - (v + w)| = c2 at *
          generalize |v - x| = c3 at *
          generalize |w - y| = c4 at *
          generalize |v + w| = c5 at *
          generalize |v| = c6 at *
          generalize |w| = c7 at *
          generalize tiny = t at *
          have q1 : a * X ≤ 1000 * X := by nlinarith
          have q2 : b * Y ≤ 1000 * Y := by nlinarith
          have q3 : Y ≤ a * Y := by nlinarith
          have q4 : X ≤ b * X := by nlinarith
          have q5 : a * t ≤ 1000 * t := by nlinarith
          have q6 : b * t ≤ 1000 * t := by nlinarith
          have f1 : 2 / 2 ^ 53 * a * X = 2 / 2 ^ 53 * (a * X) := by ring
          have f2 : 2 / 2 ^ 53 * b * Y = 2 / 2 ^ 53 * (b * Y) := by ring
          have f3 : 2 / 2 ^ 53 * (a + b) * (X + Y) + (3 * (a + b) - 2) * t =
            2 / 2 ^ 53 * (a * X + a * Y + b * X + b * Y) + 3 * (a * t) + 3 * (b * t) - 2 * t := by ring
          rw [f1] at e1
          rw [f2] at e2
          rw [f3]
          have f4 : (3 * a - 2) * t = 3 * (a * t) - 2 * t := by ring
          have f5 : (3 * b - 2) * t = 3 * (b * t) - 2 * t := by ring
          rw [f4] at e1
          rw [f5] at e2
          generalize a * X = aX at *
          generalize a * Y = aY at *
          generalize b * X = bX at *
          generalize b * Y = bY at *
          generalize a * t = at' at *
          generalize b * t = bt at *
          norm_num at *
          linarith
  | @fma p l v h1 ih1 =>
    rw [List.length_cons] at hl
    obtain ⟨d1, z1, e1⟩ := ih1 (by omega)
    refine ⟨fl_isDouble _, fun e => by simp at e, ?_⟩
    simp only [List.map_cons, List.sum_cons, List.length_cons, if_neg (List.cons_ne_nil p l)]
    have h3 := fl_err' (v + p.1 * p.2)
    have n0 : (0 : ℝ) ≤ l.length := by positivity
    have n3 : (l.length : ℝ) + 1 ≤ 1000 := by exact_mod_cast hl
    have s1 : |(l.map fun p => p.1 * p.2).sum| ≤ (l.map fun p => |p.1 * p.2|).sum := abs_sum_le l
    have e1' : |v - (l.map fun p => p.1 * p.2).sum| ≤ 2 / 2 ^ 53 * l.length * (l.map fun p => |p.1 * p.2|).sum + 2998 / 1000 * l.length * tiny := by
      refine e1.trans (add_le_add_right ?_ _)
      split
      · positivity
      · have : (3 * (l.length : ℝ) - 2) ≤ 2998 / 1000 * l.length := by linarith
        exact mul_le_mul_of_nonneg_right this ht.le
    clear e1
    push_cast
    have hs := abs_nonneg (p.1 * p.2)
    generalize p.1 * p.2 = s at *
    generalize (l.map fun p => p.1 * p.2).sum = x at *
    generalize (l.map fun p => |p.1 * p.2|).sum = X at *
    generalize (l.length : ℝ) = a at *
    generalize fl (v + s) = z at *
    have hX : 0 ≤ X := (abs_nonneg _).trans s1
    have t1 : |v| ≤ X + |v - x| := by
      have := abs_add_le x (v - x)
      rw [add_sub_cancel] at this
      linarith
    have t3 := abs_add_le v s
    have t4 : |z - (s + x)| ≤ |z - (v + s)| + |v - x| := by
      have e : z - (s + x) = (z - (v + s)) + (v - x) := by ring
      rw [e]
      exact abs_add_le _ _
    generalize |z - (s + x)| = c1 at *
    generalize |z - (v + s)| = c2 at *
    generalize |v - x| = c3 at *
    generalize |v + s| = c5 at *
    generalize |v| = c6 at *
    generalize |s| = c7 at *
    generalize tiny = t at *
    have q1 : a * X ≤ 1000 * X := by nlinarith
    have q3 : 0 ≤ a * c7 := by positivity
    have q5 : 0 ≤ a * t := by positivity
    have f1 : 2 / 2 ^ 53 * a * X + 2998 / 1000 * a * t = 2 / 2 ^ 53 * (a * X) + 2998 / 1000 * (a * t) := by ring
    have f3 : 2 / 2 ^ 53 * (a + 1) * (c7 + X) + (3 * (a + 1) - 2) * t = 2 / 2 ^ 53 * (a * c7 + a * X + c7 + X) + 3 * (a * t) + t := by ring
    rw [f1] at e1'
    rw [f3]
    generalize a * X = aX at *
    generalize a * c7 = aY at *
    generalize a * t = at' at *
    norm_num at *
    linarith
  | @perm l m v hp h1 ih1 =>
    obtain ⟨d1, z1, e1⟩ := ih1 (by rw [hp.length_eq]; exact hl)
    refine ⟨d1, fun e => z1 (by subst e; exact List.perm_nil.1 hp), ?_⟩
    rw [← (hp.map _).sum_eq, ← (hp.map _).sum_eq, ← hp.length_eq]
    have : (m = []) = (l = []) := by
      apply propext
      constructor
      · rintro rfl; exact List.perm_nil.1 hp
      · rintro rfl; exact List.nil_perm.1 hp
    simp only [this]
    exact e1

/-- Three products. -/
theorem dot3_err {a b c a' b' c' v : ℝ} (h : DotEval [(a, a'), (b, b'), (c, c')] v) :
    |v - (a * a' + b * b' + c * c')| ≤ 6 / 2 ^ 53 * (|a * a'| + |b * b'| + |c * c'|) + 1 / 2 ^ 190 := by
  have h1 := (dot_err h (by simp)).2.2
  have ht := FI.tiny_small
  simp only [List.map_cons, List.map_nil, List.sum_cons, List.sum_nil, add_zero, List.length_cons, List.length_nil, if_neg (List.cons_ne_nil _ _)] at h1
  rw [← add_assoc, ← add_assoc] at h1
  generalize |a * a'| + |b * b'| + |c * c'| = s at *
  push_cast at h1
  norm_num at *
  linarith

/-- An entry of the product, with an error in the second factor. -/
theorem entry_err {a b c g0 g1 c' h0 h1 v C w : ℝ} (h : DotEval [(a, g0), (b, g1), (c, c')] v) (hC : 1 ≤ C) (hw : 1 / 2 ^ 30 ≤ w)
    (ha : |a| ≤ 2 * C) (hb : |b| ≤ 2 * C) (h0w : |h0| ≤ 32 * w) (h1w : |h1| ≤ 32 * w) (e0 : |g0 - h0| ≤ w / 2 ^ 42) (e1 : |g1 - h1| ≤ w / 2 ^ 42)
    (hc : |c * c'| ≤ 64 * (C * w)) : |v - (a * h0 + b * h1 + c * c')| ≤ C * w / 2 ^ 39 := by
  have hdot := dot3_err h
  have g0w : |g0| ≤ 33 * w := by
    have := abs_add_le h0 (g0 - h0)
    rw [add_sub_cancel] at this
    norm_num at *
    linarith
  have g1w : |g1| ≤ 33 * w := by
    have := abs_add_le h1 (g1 - h1)
    rw [add_sub_cancel] at this
    norm_num at *
    linarith
  have m0 := FCirc.abs_mul_le ha g0w
  have m1 := FCirc.abs_mul_le hb g1w
  have d0 := FCirc.abs_mul_le ha e0
  have d1 := FCirc.abs_mul_le hb e1
  have hCw : 1 / 2 ^ 30 ≤ C * w := by
    have := mul_le_mul hC hw (by positivity) (by linarith)
    linarith
  have t : |v - (a * h0 + b * h1 + c * c')| ≤ |v - (a * g0 + b * g1 + c * c')| + |a * (g0 - h0)| + |b * (g1 - h1)| := by
    have e : v - (a * h0 + b * h1 + c * c') = (v - (a * g0 + b * g1 + c * c')) + a * (g0 - h0) + b * (g1 - h1) := by ring
    rw [e]
    exact (abs_add_le _ _).trans (add_le_add_left (abs_add_le _ _) _)
  have f1 : 2 * C * (33 * w) = 66 * (C * w) := by ring
  have f2 : 2 * C * (w / 2 ^ 42) = 2 * (C * w) / 2 ^ 42 := by ring
  rw [f1] at m0 m1
  rw [f2] at d0 d1
  generalize |v - (a * h0 + b * h1 + c * c')| = q1 at *
  generalize |v - (a * g0 + b * g1 + c * c')| = q2 at *
  generalize |a * (g0 - h0)| = q3 at *
  generalize |b * (g1 - h1)| = q4 at *
  generalize |a * g0| = q5 at *
  generalize |b * g1| = q6 at *
  generalize |c * c'| = q7 at *
  generalize C * w = z at *
  clear ha hb h0w h1w e0 e1 g0w g1w hw hC f1 f2
  norm_num at *
  linarith

theorem col {A B C : Pt} (hA : IntPt (2 ^ 11) A) (hB : IntPt (2 ^ 11) B) (hC : IntPt (2 ^ 11) C) : collinear64 A B C = .ok (Collinear A B C) := by
  by_cases hne : A = B
  · subst hne
    unfold collinear64
    rw [FL.allclose64_int hA hB, if_pos (Or.inl rfl)]
    have : Collinear A A C := by unfold Spec.Collinear cross; simp
    simp [this]
  · rw [FL.collinear_int hA hB hC hne]
    congr 1
    exact propext (by rw [onLine_iff_cross hne]; rfl)

end FAM

/-- C132: the composition of maps with integer data (up to 2²⁴) is exact, in both orders and however `np.matmul` adds its products. -/
theorem C132_compose (mm : Matrix (Fin 3) (Fin 3) ℝ → Matrix (Fin 3) (Fin 3) ℝ → Matrix (Fin 3) (Fin 3) ℝ) (hmm : IsMatmul3 mm) (f g : Affine)
    (hf : ∀ i j, IntB (2 ^ 24) (f.A i j)) (hfb : IntPt (2 ^ 24) f.b) (hg : ∀ i j, IntB (2 ^ 24) (g.A i j)) (hgb : IntPt (2 ^ 24) g.b) (P : Pt) :
    (f.composeF mm g true).transform P = g.transform (f.transform P) ∧ (f.composeF mm g false).transform P = f.transform (g.transform P) := by
  have key : ∀ {u v : Affine}, (∀ i j, IntB (2 ^ 24) (u.A i j)) → IntPt (2 ^ 24) u.b → (∀ i j, IntB (2 ^ 24) (v.A i j)) → IntPt (2 ^ 24) v.b →
      ∀ i : Fin 3, ∀ j : Fin 3, mm u.get3x3matrix v.get3x3matrix i j = (u.get3x3matrix * v.get3x3matrix) i j := by
    intro u v hu hub hv hvb i j
    have hi : ∀ {w : Affine}, (∀ i j, IntB (2 ^ 24) (w.A i j)) → IntPt (2 ^ 24) w.b → ∀ i j : Fin 3, IntB (2 ^ 24) (w.get3x3matrix i j) := by
      intro w hw hwb i j
      unfold Affine.get3x3matrix
      have z0 : IntB (2 ^ 24) 0 := ⟨0, by simp, by norm_num⟩
      have z1 : IntB (2 ^ 24) 1 := ⟨1, by simp, by norm_num⟩
      fin_cases i <;> fin_cases j
      · exact hw 0 0
      · exact hw 0 1
      · exact hwb.1
      · exact hw 1 0
      · exact hw 1 1
      · exact hwb.2
      · exact z0
      · exact z0
      · exact z1
    have h := hmm u.get3x3matrix v.get3x3matrix i j
    have i1 := FI.mul (hi hu hub i 0) (hi hv hvb 0 j)
    have i2 := FI.mul (hi hu hub i 1) (hi hv hvb 1 j)
    have i3 := FI.mul (hi hu hub i 2) (hi hv hvb 2 j)
    have := (FM.dot_exact h (by
      intro p hp
      simp only [List.mem_cons, List.not_mem_nil, or_false] at hp
      rcases hp with rfl | rfl | rfl
      · obtain ⟨n, hn, -⟩ := i1; exact ⟨n, hn⟩
      · obtain ⟨n, hn, -⟩ := i2; exact ⟨n, hn⟩
      · obtain ⟨n, hn, -⟩ := i3; exact ⟨n, hn⟩) (by
      have a1 := FI.abs_le i1
      have a2 := FI.abs_le i2
      have a3 := FI.abs_le i3
      simp only [List.map_cons, List.map_nil, List.sum_cons, List.sum_nil, add_zero]
      push_cast at a1 a2 a3
      norm_num at *
      linarith)).1
    rw [this, Matrix.mul_apply, Fin.sum_univ_three]
    simp only [List.map_cons, List.map_nil, List.sum_cons, List.sum_nil, add_zero]
    ring
  constructor
  · unfold Affine.composeF Affine.ofMatrix3 Affine.transform
    simp only [if_true, key hg hgb hf hfb]
    apply Pt.ext <;> simp [Matrix.mul_apply, Fin.sum_univ_three, Affine.get3x3matrix] <;> ring
  · unfold Affine.composeF Affine.ofMatrix3 Affine.transform
    simp only [Bool.false_eq_true, if_false, key hf hfb hg hgb]
    apply Pt.ext <;> simp [Matrix.mul_apply, Fin.sum_univ_three, Affine.get3x3matrix] <;> ring

/-- C132: with integer points up to 2¹¹, `None` is returned when three of the points are collinear. -/
theorem C132_collinear (k k' : Lu) (lg ex : ℝ → ℝ) (mm : Matrix (Fin 3) (Fin 3) ℝ → Matrix (Fin 3) (Fin 3) ℝ → Matrix (Fin 3) (Fin 3) ℝ) {P1 P2 P3 Q1 Q2 Q3 : Pt}
    (hP1 : IntPt (2 ^ 11) P1) (hP2 : IntPt (2 ^ 11) P2) (hP3 : IntPt (2 ^ 11) P3) (hQ1 : IntPt (2 ^ 11) Q1) (hQ2 : IntPt (2 ^ 11) Q2) (hQ3 : IntPt (2 ^ 11) Q3)
    (h : Collinear P1 P2 P3 ∨ Collinear Q1 Q2 Q3) : Affine.from_mappingF k k' lg ex mm P1 P2 P3 Q1 Q2 Q3 = .ok none := by
  unfold Affine.from_mappingF
  rw [FAM.col hP1 hP2 hP3, FAM.col hQ1 hQ2 hQ3, Res.ok_bind]
  by_cases hP : Collinear P1 P2 P3
  · rw [if_pos hP]; rfl
  · rw [if_neg hP, Res.ok_bind, if_pos (h.resolve_left hP)]; rfl

set_option maxHeartbeats 1000000 in
/-- C132: `Affine.from_mapping_three_points` on integer points: `B` bounds the coordinates of the first three, `C` those of the images, `D` is twice the area
of the first triangle.  The matrix is within `C B³ / (2³⁹ D²)` of the exact one, the intercept within `C B⁴ / (2³⁹ D²)`, and the map returned sends the
points to the given images up to `3 C B⁴ / (2³⁹ D²)`. -/
theorem C132_mapping (k k' : Lu) {lg ex : ℝ → ℝ} (hle : IsLogExp lg ex) (mm : Matrix (Fin 3) (Fin 3) ℝ → Matrix (Fin 3) (Fin 3) ℝ → Matrix (Fin 3) (Fin 3) ℝ)
    (hmm : IsMatmul3 mm) {P1 P2 P3 Q1 Q2 Q3 : Pt} {B C : ℕ} (hB : B ≤ 2 ^ 11) (hC : C ≤ 2 ^ 11) (hP1 : IntPt B P1) (hP2 : IntPt B P2) (hP3 : IntPt B P3)
    (hQ1 : IntPt C Q1) (hQ2 : IntPt C Q2) (hQ3 : IntPt C Q3) (hP : ¬ Collinear P1 P2 P3) (hQ : ¬ Collinear Q1 Q2 Q3) (D : ℝ) (hD : D = cross (P2 - P1) (P3 - P1)) :
    ∃ H : Affine, H.transform P1 = Q1 ∧ H.transform P2 = Q2 ∧ H.transform P3 = Q3 ∧
      ∃ g, Affine.from_mappingF k k' lg ex mm P1 P2 P3 Q1 Q2 Q3 = .ok (some g) ∧
        (∀ i j, |g.A i j - H.A i j| ≤ C * (B ^ 3 / D ^ 2) / 2 ^ 39) ∧
        |g.b.x - H.b.x| ≤ C * (B * (B ^ 3 / D ^ 2)) / 2 ^ 39 ∧ |g.b.y - H.b.y| ≤ C * (B * (B ^ 3 / D ^ 2)) / 2 ^ 39 ∧
        ∀ p ∈ [(P1, Q1), (P2, Q2), (P3, Q3)], |(g.transform p.1).x - p.2.x| ≤ 3 * (C * (B * (B ^ 3 / D ^ 2))) / 2 ^ 39 ∧
          |(g.transform p.1).y - p.2.y| ≤ 3 * (C * (B * (B ^ 3 / D ^ 2))) / 2 ^ 39 := by
  have pos : ∀ {N : ℕ} {X Y Z : Pt}, IntPt N X → IntPt N Y → ¬ Collinear X Y Z → 1 ≤ N := by
    intro N X Y Z hX hY h
    by_contra hb
    have hb : N = 0 := by omega
    subst hb
    apply h
    have z : ∀ {P : Pt}, IntPt 0 P → P = ⟨0, 0⟩ := fun {P} hP => by
      have h1 := FI.abs_le hP.1
      have h2 := FI.abs_le hP.2
      push_cast at h1 h2
      exact Pt.ext (abs_nonpos_iff.1 h1) (abs_nonpos_iff.1 h2)
    unfold Spec.Collinear cross
    rw [z hX, z hY]; simp
  have hB1 : (1 : ℝ) ≤ B := by exact_mod_cast pos hP1 hP2 hP
  have hC1 : (1 : ℝ) ≤ C := by exact_mod_cast pos hQ1 hQ2 hQ
  have hB11 : (B : ℝ) ≤ 2 ^ 11 := by exact_mod_cast hB
  have big : ∀ {N : ℕ} {X : Pt}, N ≤ 2 ^ 11 → IntPt N X → IntPt (2 ^ 11) X := fun hN hX => ⟨FI.mono hX.1 hN, FI.mono hX.2 hN⟩
  obtain ⟨u2, w2⟩ := FI.subPt hP2 hP1 (by omega)
  obtain ⟨u3, w3⟩ := FI.subPt hP3 hP1 (by omega)
  obtain ⟨x2, y2⟩ := FI.subPt hQ2 hQ1 (by omega)
  obtain ⟨x3, y3⟩ := FI.subPt hQ3 hQ1 (by omega)
  obtain ⟨f1, hf1⟩ : ∃ f : Affine, f = ⟨!![(P2 - P1).x, (P3 - P1).x; (P2 - P1).y, (P3 - P1).y], P1⟩ := ⟨_, rfl⟩
  obtain ⟨f2, hf2⟩ : ∃ f : Affine, f = ⟨!![(Q2 - Q1).x, (Q3 - Q1).x; (Q2 - Q1).y, (Q3 - Q1).y], Q1⟩ := ⟨_, rfl⟩
  have iA : ∀ i j, IntB (B + B) (f1.A i j) := by
    intro i j
    rw [hf1]
    fin_cases i <;> fin_cases j
    · exact w2.1
    · exact w3.1
    · exact w2.2
    · exact w3.2
  have iA2 : ∀ i j, |f2.A i j| ≤ 2 * C := by
    intro i j
    have : ∀ {x : ℝ}, IntB (C + C) x → |x| ≤ 2 * C := fun h => by
      have := FI.abs_le h
      push_cast at this
      linarith
    rw [hf2]
    fin_cases i <;> fin_cases j
    · exact this y2.1
    · exact this y3.1
    · exact this y2.2
    · exact this y3.2
  have hdet : f1.A.det = D := by
    rw [Matrix.det_fin_two, hf1, hD]
    unfold cross
    simp
    ring
  have hD0 : D ≠ 0 := by rw [hD]; exact hP
  have hDi : IntB ((B + B) * (B + B) + (B + B) * (B + B)) D := by
    rw [hD]
    exact FI.sub (FI.mul w2.1 w3.2) (FI.mul w2.2 w3.1)
  have hD1 := FI.one_le_abs hDi hD0
  have hD8 : |D| ≤ 8 * B ^ 2 := by
    have := FI.abs_le hDi
    push_cast at this
    linarith
  have hb1 : f1.b = P1 := by rw [hf1]
  have hb2 : f2.b = Q1 := by rw [hf2]
  obtain ⟨h, hh, -, g, hg, eA, ebx, eby⟩ := C131_inverse k k' hle f1 (B := B + B) (by omega) iA (E := B) hB1 (by rw [hb1]; exact FI.abs_le hP1.1)
    (by rw [hb1]; exact FI.abs_le hP1.2) (by rw [hdet]; exact hD0)
  rw [hdet] at eA ebx eby
  -- the unit
  obtain ⟨W, hW⟩ : ∃ W : ℝ, W = B ^ 3 / D ^ 2 := ⟨_, rfl⟩
  have hDp : 0 < |D| := by linarith
  have hD2 : D ^ 2 = |D| ^ 2 := (sq_abs D).symm
  have hWD : W * |D| ^ 2 = B ^ 3 := by rw [hW, hD2]; field_simp
  have hW0 : 0 < W := by rw [hW]; positivity
  have hWm : B / |D| ≤ 8 * W := by
    rw [div_le_iff₀ hDp]
    have h1 : (B : ℝ) * |D| ≤ 8 * W * |D| * |D| := by
      have e : 8 * W * |D| * |D| = 8 * (W * |D| ^ 2) := by ring
      rw [e, hWD]
      have := mul_le_mul_of_nonneg_left hD8 (by linarith : (0 : ℝ) ≤ B)
      calc _ ≤ _ := this
        _ = _ := by ring
    exact le_of_mul_le_mul_right h1 hDp
  have hBW : 1 ≤ 64 * (B * W) := by
    have h1 : 1 * |D| ^ 2 ≤ 64 * (B * W) * |D| ^ 2 := by
      have e : 64 * (B * W) * |D| ^ 2 = 64 * B * (W * |D| ^ 2) := by ring
      rw [e, hWD]
      have := pow_le_pow_left₀ hDp.le hD8 2
      calc _ ≤ (8 * (B : ℝ) ^ 2) ^ 2 := by linarith
        _ = _ := by ring
    exact le_of_mul_le_mul_right h1 (by positivity)
  have hW30 : 1 / 2 ^ 30 ≤ W := by
    have : B * W ≤ 2 ^ 11 * W := mul_le_mul_of_nonneg_right hB11 hW0.le
    norm_num at *
    linarith
  have hBW30 : 1 / 2 ^ 30 ≤ B * W := by norm_num at *; linarith
  have eA' : ∀ i j, |g.A i j - h.A i j| ≤ W / 2 ^ 42 := fun i j => by
    refine (eA i j).trans (le_of_eq ?_)
    rw [hW]; push_cast; ring
  have eb' : |g.b.x - h.b.x| ≤ B * W / 2 ^ 42 ∧ |g.b.y - h.b.y| ≤ B * W / 2 ^ 42 := by
    refine ⟨ebx.trans (le_of_eq ?_), eby.trans (le_of_eq ?_)⟩ <;> rw [hW] <;> push_cast <;> ring
  -- the exact inverse
  have p1 := hh ⟨0, 0⟩
  have p2 := hh ⟨1, 0⟩
  have p3 := hh ⟨0, 1⟩
  have i1 : f1.transform ⟨0, 0⟩ = P1 := by rw [hf1]; unfold Affine.transform; apply Pt.ext <;> simp
  have i2 : f1.transform ⟨1, 0⟩ = P2 := by rw [hf1]; unfold Affine.transform; apply Pt.ext <;> simp
  have i3 : f1.transform ⟨0, 1⟩ = P3 := by rw [hf1]; unfold Affine.transform; apply Pt.ext <;> simp
  rw [i1] at p1
  rw [i2] at p2
  rw [i3] at p3
  have hD' : D = (P2.x - P1.x) * (P3.y - P1.y) - (P2.y - P1.y) * (P3.x - P1.x) := by rw [hD]; rfl
  have q1 := p1
  have q2 := p2
  have q3 := p3
  unfold Affine.transform at q1 q2 q3
  simp only [Pt.mk.injEq] at q1 q2 q3
  have m00 : h.A 0 0 * D = P3.y - P1.y := by
    rw [hD']
    linear_combination (P3.y - P1.y) * (q2.1 - q1.1) - (P2.y - P1.y) * (q3.1 - q1.1)
  have m01 : h.A 0 1 * D = -(P3.x - P1.x) := by
    rw [hD']
    linear_combination -(P3.x - P1.x) * (q2.1 - q1.1) + (P2.x - P1.x) * (q3.1 - q1.1)
  have m10 : h.A 1 0 * D = -(P2.y - P1.y) := by
    rw [hD']
    linear_combination (P3.y - P1.y) * (q2.2 - q1.2) - (P2.y - P1.y) * (q3.2 - q1.2)
  have m11 : h.A 1 1 * D = P2.x - P1.x := by
    rw [hD']
    linear_combination -(P3.x - P1.x) * (q2.2 - q1.2) + (P2.x - P1.x) * (q3.2 - q1.2)
  have bnd : ∀ {x y : ℝ}, x * D = y → |y| ≤ 2 * B → |x| ≤ 16 * W := by
    intro x y hxy hy
    have : |x| = |y| / |D| := by rw [← hxy, abs_mul]; field_simp
    rw [this, div_le_iff₀ hDp]
    have h1 : 2 * (B : ℝ) ≤ 16 * W * |D| := by
      have := mul_le_mul_of_nonneg_right hWm hDp.le
      rw [div_mul_cancel₀ _ hDp.ne'] at this
      linarith
    linarith
  have dx : ∀ {X Y : Pt}, IntPt B X → IntPt B Y → |X.x - Y.x| ≤ 2 * B ∧ |X.y - Y.y| ≤ 2 * B := by
    intro X Y hX hY
    have h1 := FI.abs_le (FI.sub hX.1 hY.1)
    have h2 := FI.abs_le (FI.sub hX.2 hY.2)
    push_cast at h1 h2
    constructor <;> linarith
  have b00 := bnd m00 (dx hP3 hP1).2
  have b01 := bnd m01 (by rw [abs_neg]; exact (dx hP3 hP1).1)
  have b10 := bnd m10 (by rw [abs_neg]; exact (dx hP2 hP1).2)
  have b11 := bnd m11 (dx hP2 hP1).1
  have hA16 : ∀ i j, |h.A i j| ≤ 32 * W := by
    intro i j
    fin_cases i <;> fin_cases j <;> simp only [Fin.zero_eta, Fin.mk_one] <;> linarith
  have bb : ∀ {a b c : ℝ}, |a| ≤ 16 * W → |b| ≤ 16 * W → a * P1.x + b * P1.y + c = 0 → |c| ≤ 32 * (B * W) := by
    intro a b c ha hb hc
    have e : c = -(a * P1.x + b * P1.y) := by linarith
    rw [e, abs_neg]
    have h1 := FCirc.abs_mul_le ha (FI.abs_le hP1.1)
    have h2 := FCirc.abs_mul_le hb (FI.abs_le hP1.2)
    have := abs_add_le (a * P1.x) (b * P1.y)
    linarith
  have hbx := bb b00 b01 q1.1
  have hby := bb b10 b11 q1.2
  -- the exact map
  obtain ⟨H, hH⟩ : ∃ H : Affine, H = ⟨!![f2.A 0 0 * h.A 0 0 + f2.A 0 1 * h.A 1 0, f2.A 0 0 * h.A 0 1 + f2.A 0 1 * h.A 1 1;
      f2.A 1 0 * h.A 0 0 + f2.A 1 1 * h.A 1 0, f2.A 1 0 * h.A 0 1 + f2.A 1 1 * h.A 1 1],
    ⟨f2.A 0 0 * h.b.x + f2.A 0 1 * h.b.y + f2.b.x, f2.A 1 0 * h.b.x + f2.A 1 1 * h.b.y + f2.b.y⟩⟩ := ⟨_, rfl⟩
  have hHt : ∀ P, H.transform P = f2.transform (h.transform P) := by
    intro P
    rw [hH]
    unfold Affine.transform
    apply Pt.ext <;> simp <;> ring
  have j1 : H.transform P1 = Q1 := by rw [hHt, p1, hf2]; unfold Affine.transform; apply Pt.ext <;> simp
  have j2 : H.transform P2 = Q2 := by rw [hHt, p2, hf2]; unfold Affine.transform; apply Pt.ext <;> simp
  have j3 : H.transform P3 = Q3 := by rw [hHt, p3, hf2]; unfold Affine.transform; apply Pt.ext <;> simp
  have hCW : 0 ≤ (C : ℝ) * W := by positivity
  have hCBW : 0 ≤ (C : ℝ) * (B * W) := by positivity
  obtain ⟨G, hG⟩ : ∃ G, G = g.composeF mm f2 := ⟨_, rfl⟩
  have hGA : ∀ i j, |G.A i j - H.A i j| ≤ C * W / 2 ^ 39 := by
    have en : ∀ (i j : Fin 2) (i' j' : Fin 3) (H' : ℝ), f2.get3x3matrix i' 0 = f2.A i 0 → f2.get3x3matrix i' 1 = f2.A i 1 → g.get3x3matrix 0 j' = g.A 0 j →
        g.get3x3matrix 1 j' = g.A 1 j → g.get3x3matrix 2 j' = 0 → H' = f2.A i 0 * h.A 0 j + f2.A i 1 * h.A 1 j →
        |mm f2.get3x3matrix g.get3x3matrix i' j' - H'| ≤ C * W / 2 ^ 39 := by
      intro i j i' j' H' e1 e2 e3 e4 e5 e6
      have hd := hmm f2.get3x3matrix g.get3x3matrix i' j'
      rw [e1, e2, e3, e4, e5] at hd
      have := FAM.entry_err hd hC1 hW30 (iA2 i 0) (iA2 i 1) (hA16 0 j) (hA16 1 j) (eA' 0 j) (eA' 1 j) (by rw [mul_zero, abs_zero]; linarith)
      rwa [mul_zero, add_zero, ← e6] at this
    intro i j
    rw [hG, hH]
    fin_cases i <;> fin_cases j
    · exact en 0 0 0 0 _ rfl rfl rfl rfl rfl rfl
    · exact en 0 1 0 1 _ rfl rfl rfl rfl rfl rfl
    · exact en 1 0 1 0 _ rfl rfl rfl rfl rfl rfl
    · exact en 1 1 1 1 _ rfl rfl rfl rfl rfl rfl
  have hq : |f2.b.x * 1| ≤ 64 * ((C : ℝ) * (B * W)) ∧ |f2.b.y * 1| ≤ 64 * ((C : ℝ) * (B * W)) := by
    have h1 := mul_le_mul_of_nonneg_left hBW (by linarith : (0 : ℝ) ≤ C)
    have h2 := FI.abs_le hQ1.1
    have h3 := FI.abs_le hQ1.2
    rw [mul_one, mul_one, hb2]
    constructor <;> linarith
  have hGx : |G.b.x - H.b.x| ≤ C * (B * W) / 2 ^ 39 := by
    have hd : DotEval [(f2.A 0 0, g.b.x), (f2.A 0 1, g.b.y), (f2.b.x, 1)] (mm f2.get3x3matrix g.get3x3matrix 0 2) := hmm f2.get3x3matrix g.get3x3matrix 0 2
    have := FAM.entry_err hd hC1 hBW30 (iA2 0 0) (iA2 0 1) hbx hby eb'.1 eb'.2 hq.1
    rw [mul_one] at this
    rw [hG, hH]
    exact this
  have hGy : |G.b.y - H.b.y| ≤ C * (B * W) / 2 ^ 39 := by
    have hd : DotEval [(f2.A 1 0, g.b.x), (f2.A 1 1, g.b.y), (f2.b.y, 1)] (mm f2.get3x3matrix g.get3x3matrix 1 2) := hmm f2.get3x3matrix g.get3x3matrix 1 2
    have := FAM.entry_err hd hC1 hBW30 (iA2 1 0) (iA2 1 1) hbx hby eb'.1 eb'.2 hq.2
    rw [mul_one] at this
    rw [hG, hH]
    exact this
  have img : ∀ {P Q : Pt}, IntPt B P → H.transform P = Q → |(G.transform P).x - Q.x| ≤ 3 * (C * (B * W)) / 2 ^ 39 ∧ |(G.transform P).y - Q.y| ≤ 3 * (C * (B * W)) / 2 ^ 39 := by
    intro P Q hPi hPQ
    rw [← hPQ]
    unfold Affine.transform
    dsimp only
    have cmp : ∀ {a b c a' b' c' : ℝ}, |a - a'| ≤ C * W / 2 ^ 39 → |b - b'| ≤ C * W / 2 ^ 39 → |c - c'| ≤ C * (B * W) / 2 ^ 39 →
        |a * P.x + b * P.y + c - (a' * P.x + b' * P.y + c')| ≤ 3 * (C * (B * W)) / 2 ^ 39 := by
      intro a b c a' b' c' ha hb hc
      have h1 := FCirc.abs_mul_le ha (FI.abs_le hPi.1)
      have h2 := FCirc.abs_mul_le hb (FI.abs_le hPi.2)
      have e : a * P.x + b * P.y + c - (a' * P.x + b' * P.y + c') = (a - a') * P.x + (b - b') * P.y + (c - c') := by ring
      rw [e]
      have t1 := abs_add_le ((a - a') * P.x + (b - b') * P.y) (c - c')
      have t2 := abs_add_le ((a - a') * P.x) ((b - b') * P.y)
      have e2 : (C : ℝ) * W / 2 ^ 39 * B = C * (B * W) / 2 ^ 39 := by ring
      rw [e2] at h1 h2
      linarith
    exact ⟨cmp (hGA 0 0) (hGA 0 1) hGx, cmp (hGA 1 0) (hGA 1 1) hGy⟩
  refine ⟨H, j1, j2, j3, G, ?_, ?_, ?_, ?_, ?_⟩
  · unfold Affine.from_mappingF
    rw [FAM.col (big hB hP1) (big hB hP2) (big hB hP3), FAM.col (big hC hQ1) (big hC hQ2) (big hC hQ3), Res.ok_bind, if_neg hP, Res.ok_bind, if_neg hQ]
    dsimp only
    rw [u2, u3, x2, x3, ← hf1, ← hf2, hg, Res.ok_bind]
    dsimp only
    rw [← hG]
    rfl
  · rw [← hW]; exact hGA
  · rw [← hW]; exact hGx
  · rw [← hW]; exact hGy
  · rw [← hW]
    intro p hp
    simp only [List.mem_cons, List.not_mem_nil, or_false] at hp
    rcases hp with rfl | rfl | rfl
    · exact img hP1 j1
    · exact img hP2 j2
    · exact img hP3 j3

/-- Products added from the last one to the first one, without fused operations: a matrix product meeting the contract. -/
example : ∃ mm, IsMatmul3 mm := by
  refine ⟨fun A B i j => fl (fl (A i 0 * B 0 j) + fl (fl (A i 1 * B 1 j) + fl (A i 2 * B 2 j))), fun A B i j => ?_⟩
  exact DotEval.add (l := [(A i 0, B 0 j)]) (DotEval.one _) (DotEval.add (l := [(A i 1, B 1 j)]) (DotEval.one _) (DotEval.one _))

/-- (0,0), (1,0), (0,1) to (1,2), (3,1), (2,5): the images are within 10⁻¹⁰, whatever the linear algebra. -/
example (k k' : Lu) {lg ex : ℝ → ℝ} (hle : IsLogExp lg ex) (mm : Matrix (Fin 3) (Fin 3) ℝ → Matrix (Fin 3) (Fin 3) ℝ → Matrix (Fin 3) (Fin 3) ℝ)
    (hmm : IsMatmul3 mm) :
    ∃ g, Affine.from_mappingF k k' lg ex mm ⟨0, 0⟩ ⟨1, 0⟩ ⟨0, 1⟩ ⟨1, 2⟩ ⟨3, 1⟩ ⟨2, 5⟩ = .ok (some g) ∧ |g.A 0 0 - 2| ≤ 1 / 10 ^ 10 ∧ |g.A 1 0 - -1| ≤ 1 / 10 ^ 10 ∧
      |(g.transform ⟨0, 1⟩).x - 2| ≤ 1 / 10 ^ 10 ∧ |(g.transform ⟨0, 1⟩).y - 5| ≤ 1 / 10 ^ 10 := by
  have ip : ∀ (N : ℕ) (m n : ℤ), |m| ≤ N → |n| ≤ N → IntPt N (⟨m, n⟩ : Pt) := fun N m n hm hn => ⟨⟨m, rfl, by exact_mod_cast hm⟩, ⟨n, rfl, by exact_mod_cast hn⟩⟩
  obtain ⟨H, h1, h2, h3, g, hg, hA, -, -, hi⟩ := C132_mapping k k' hle mm hmm (P1 := ⟨0, 0⟩) (P2 := ⟨1, 0⟩) (P3 := ⟨0, 1⟩) (Q1 := ⟨1, 2⟩) (Q2 := ⟨3, 1⟩) (Q3 := ⟨2, 5⟩)
    (B := 1) (C := 5) (by norm_num) (by norm_num) (by simpa using ip 1 0 0 (by norm_num) (by norm_num)) (by simpa using ip 1 1 0 (by norm_num) (by norm_num))
    (by simpa using ip 1 0 1 (by norm_num) (by norm_num)) (by simpa using ip 5 1 2 (by norm_num) (by norm_num)) (by simpa using ip 5 3 1 (by norm_num) (by norm_num))
    (by simpa using ip 5 2 5 (by norm_num) (by norm_num)) (by unfold Spec.Collinear cross; norm_num) (by unfold Spec.Collinear cross; norm_num) 1
    (by unfold cross; simp)
  simp only [Affine.transform, Pt.mk.injEq] at h1 h2 h3
  norm_num at h1 h2 h3
  have q0 := hA 0 0
  have q1 := hA 1 0
  rw [show H.A 0 0 = 2 by linarith] at q0
  rw [show H.A 1 0 = -1 by linarith] at q1
  obtain ⟨q2, q3⟩ := hi (⟨0, 1⟩, ⟨2, 5⟩) (by simp)
  refine ⟨g, hg, q0.trans ?_, q1.trans ?_, q2.trans ?_, q3.trans ?_⟩ <;> norm_num

/-- The third point on the line of the two others. -/
example (k k' : Lu) (lg ex : ℝ → ℝ) (mm : Matrix (Fin 3) (Fin 3) ℝ → Matrix (Fin 3) (Fin 3) ℝ → Matrix (Fin 3) (Fin 3) ℝ) :
    Affine.from_mappingF k k' lg ex mm ⟨0, 0⟩ ⟨1, 0⟩ ⟨0, 1⟩ ⟨1, 1⟩ ⟨2, 3⟩ ⟨3, 5⟩ = .ok none := by
  have ip : ∀ m n : ℤ, |m| ≤ 2 ^ 11 → |n| ≤ 2 ^ 11 → IntPt (2 ^ 11) (⟨m, n⟩ : Pt) := fun m n hm hn => ⟨⟨m, rfl, by exact_mod_cast hm⟩, ⟨n, rfl, by exact_mod_cast hn⟩⟩
  exact C132_collinear k k' lg ex mm (by simpa using ip 0 0 (by norm_num) (by norm_num)) (by simpa using ip 1 0 (by norm_num) (by norm_num))
    (by simpa using ip 0 1 (by norm_num) (by norm_num)) (by simpa using ip 1 1 (by norm_num) (by norm_num)) (by simpa using ip 2 3 (by norm_num) (by norm_num))
    (by simpa using ip 3 5 (by norm_num) (by norm_num)) (Or.inr (by unfold Spec.Collinear cross; norm_num))

/-- A shear after a scaling: (3, 4) goes to (6, 12), then to (18, 12). -/
example (mm : Matrix (Fin 3) (Fin 3) ℝ → Matrix (Fin 3) (Fin 3) ℝ → Matrix (Fin 3) (Fin 3) ℝ) (hmm : IsMatmul3 mm) :
    ((⟨!![2, 0; 0, 3], ⟨0, 0⟩⟩ : Affine).composeF mm ⟨!![1, 1; 0, 1], ⟨0, 0⟩⟩).transform ⟨3, 4⟩ = ⟨18, 12⟩ := by
  have n : ∀ m : ℤ, |m| ≤ 2 ^ 24 → IntB (2 ^ 24) (m : ℝ) := fun m hm => ⟨m, rfl, by exact_mod_cast hm⟩
  have h := (C132_compose mm hmm ⟨!![2, 0; 0, 3], ⟨0, 0⟩⟩ ⟨!![1, 1; 0, 1], ⟨0, 0⟩⟩ (by
      intro i j
      fin_cases i <;> fin_cases j
      · simpa using n 2 (by norm_num)
      · simpa using n 0 (by norm_num)
      · simpa using n 0 (by norm_num)
      · simpa using n 3 (by norm_num)) ⟨by simpa using n 0 (by norm_num), by simpa using n 0 (by norm_num)⟩ (by
      intro i j
      fin_cases i <;> fin_cases j
      · simpa using n 1 (by norm_num)
      · simpa using n 1 (by norm_num)
      · simpa using n 0 (by norm_num)
      · simpa using n 1 (by norm_num)) ⟨by simpa using n 0 (by norm_num), by simpa using n 0 (by norm_num)⟩ ⟨3, 4⟩).1
  rw [h]
  unfold Affine.transform
  apply Pt.ext <;> simp <;> norm_num
