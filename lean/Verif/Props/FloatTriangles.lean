import Verif.Props.FloatCircleLine
import Verif.Props.Triangle

/-!
# C117: triangles with integer vertices in double precision
-/

open Spec Real Classical

namespace FI

/-- The last comparison of `Triangle.contains` is made on the rounded `1 - s`. -/
theorem last_test {s t : ℝ} (ht : IsDouble t) : 0 < _root_.fl (_root_.fl (1 - s) - t) ↔ t < _root_.fl (1 - s) := by
  constructor
  · intro h
    by_contra hc
    have := fl_nonpos (sub_nonpos.2 (not_lt.1 hc))
    linarith
  · intro h
    have h0 := fl_nonneg (sub_nonneg.2 h.le)
    refine lt_of_le_of_ne h0 fun e => ?_
    have := (fl_sub_eq_zero (fl_isDouble _) ht).1 e.symm
    linarith

/-- Barycentric coordinates with denominator `D`, rounded. -/
theorem bary {D : ℝ} {s t : ℝ} (hD : 1 ≤ D) (hD2 : D ≤ 10 ^ 15) (iD : ∃ n : ℤ, D = n) (is : ∃ n : ℤ, s * D = n) (it : ∃ n : ℤ, t * D = n) :
    (0 < s → 0 < t → s + t < 1 → 0 < _root_.fl s ∧ 0 < _root_.fl t ∧ 0 < _root_.fl (_root_.fl (1 - _root_.fl s) - _root_.fl t)) ∧
    (0 < _root_.fl s → 0 < _root_.fl t → 0 < _root_.fl (_root_.fl (1 - _root_.fl s) - _root_.fl t) → 0 < s ∧ 0 < t ∧ s + t ≤ 1) := by
  have hDp : 0 < D := by linarith
  have gap : 1 / 10 ^ 15 ≤ 1 / D := one_div_le_one_div_of_le hDp hD2
  have low : ∀ x, 0 < x → (∃ n : ℤ, x * D = n) → 1 / D ≤ x := by
    rintro x hx ⟨n, hn⟩
    rw [div_le_iff₀ hDp, hn]
    have : 0 < (n : ℝ) := by rw [← hn]; positivity
    exact_mod_cast (by exact_mod_cast this : 0 < n)
  have es := FG.fl_err' s
  have et := FG.fl_err' t
  have ts := tiny_small
  rw [last_test (fl_isDouble t)]
  obtain ⟨m, hm⟩ := is
  obtain ⟨n, hn⟩ := it
  obtain ⟨d, hd⟩ := iD
  constructor
  · intro hs ht hst
    have ls := low s hs ⟨m, hm⟩
    have lt' := low t ht ⟨n, hn⟩
    have lr := low (1 - s - t) (by linarith) ⟨d - m - n, by push_cast; rw [← hd, ← hm, ← hn]; ring⟩
    have e1 := FG.fl_err' (1 - _root_.fl s)
    rw [abs_of_pos hs] at es
    rw [abs_of_pos ht] at et
    rw [_root_.abs_le] at es et
    have hs1 : _root_.fl s < 1 := by norm_num at *; linarith
    rw [abs_of_pos (a := 1 - _root_.fl s) (by linarith), _root_.abs_le] at e1
    norm_num at *
    refine ⟨?_, ?_, ?_⟩ <;> linarith
  · intro hs ht hst
    have ps : 0 < s := by
      by_contra hc
      linarith [fl_nonpos (not_lt.1 hc)]
    have pt : 0 < t := by
      by_contra hc
      linarith [fl_nonpos (not_lt.1 hc)]
    refine ⟨ps, pt, ?_⟩
    by_contra hc
    rw [not_le] at hc
    have f1 : _root_.fl 1 = 1 := fl (A := 1) ⟨1, by norm_num, by norm_num⟩ (by norm_num)
    have s1 : s < 1 := by
      by_contra h1
      have := fl_mono (not_lt.1 h1)
      rw [f1] at this
      linarith [fl_nonpos (x := 1 - _root_.fl s) (by linarith)]
    have t1 : t < 1 := by
      by_contra h1
      have h2 := fl_mono (not_lt.1 h1)
      have h3 := fl_mono (x := 1 - _root_.fl s) (y := 1) (by linarith)
      rw [f1] at h2 h3
      linarith
    have lr := low (s + t - 1) (by linarith) ⟨m + n - d, by push_cast; rw [← hd, ← hm, ← hn]; ring⟩
    rw [abs_of_pos ps, _root_.abs_le] at es
    rw [abs_of_pos pt, _root_.abs_le] at et
    have h5 : 1 - _root_.fl s ≤ _root_.fl t := by norm_num at *; linarith
    have := fl_mono h5
    rw [fl_fl] at this
    linarith

end FI

/-- `M` is on the open segment `BC`. -/
def Spec.BetweenOpen (B C M : Pt) : Prop := ∃ v w : ℝ, 0 < v ∧ 0 < w ∧ v + w = 1 ∧ M = v • B + w • C

namespace FI

/-- The barycentric coordinates of `M`, as computed for integers. -/
theorem contains_iff (T : Triangle) (M : Pt) (hA : IntPt (10 ^ 7) T.A) (hB : IntPt (10 ^ 7) T.B) (hC : IntPt (10 ^ 7) T.C)
    (hM : IntPt (10 ^ 7) M) (h : ¬ Collinear T.A T.B T.C) : ∃ D s t : ℝ, 1 ≤ D ∧ D ≤ 10 ^ 15 ∧ (∃ n : ℤ, D = n) ∧
      (∃ n : ℤ, s * D = n) ∧ (∃ n : ℤ, t * D = n) ∧ M = (1 - s - t) • T.A + s • T.B + t • T.C ∧
      (T.containsF M ↔ 0 < _root_.fl s ∧ 0 < _root_.fl t ∧ 0 < _root_.fl (_root_.fl (1 - _root_.fl s) - _root_.fl t)) := by
  have i1 := mul (neg hB.2) hC.1
  have i2 := add (neg hB.1) hC.1
  have i3 := mul hA.2 i2
  have i4 := sub hB.2 hC.2
  have i5 := mul hA.1 i4
  have i6 := mul hB.1 hC.2
  have i7 := add i1 i3
  have i8 := add i7 i5
  have iD := add i8 i6
  have j1 := mul hA.2 hC.1
  have j2 := mul hA.1 hC.2
  have j3 := sub j1 j2
  have j4 := sub hC.2 hA.2
  have j5 := mul j4 hM.1
  have j6 := sub hA.1 hC.1
  have j7 := mul j6 hM.2
  have j8 := add j3 j5
  have is := add j8 j7
  have k1 := mul hA.1 hB.2
  have k2 := mul hA.2 hB.1
  have k3 := sub k1 k2
  have k4 := sub hA.2 hB.2
  have k5 := mul k4 hM.1
  have k6 := sub hB.1 hA.1
  have k7 := mul k6 hM.2
  have k8 := add k3 k5
  have it := add k8 k7
  obtain ⟨D, hD⟩ : ∃ D, D = -T.B.y * T.C.x + T.A.y * (-T.B.x + T.C.x) + T.A.x * (T.B.y - T.C.y) + T.B.x * T.C.y := ⟨_, rfl⟩
  obtain ⟨S, hS⟩ : ∃ S, S = T.A.y * T.C.x - T.A.x * T.C.y + (T.C.y - T.A.y) * M.x + (T.A.x - T.C.x) * M.y := ⟨_, rfl⟩
  obtain ⟨U, hU⟩ : ∃ U, U = T.A.x * T.B.y - T.A.y * T.B.x + (T.A.y - T.B.y) * M.x + (T.B.x - T.A.x) * M.y := ⟨_, rfl⟩
  have hD0 : D ≠ 0 := by
    intro h0; apply h; unfold Collinear; rw [← h0, hD]; simp only [cross, Pt.sub_x, Pt.sub_y]; ring
  unfold Triangle.containsF
  dsimp only
  rw [fl i1 (by norm_num), fl i2 (by norm_num), fl i3 (by norm_num), fl i4 (by norm_num), fl i5 (by norm_num),
    fl i6 (by norm_num), fl i7 (by norm_num), fl i8 (by norm_num), fl iD (by norm_num),
    fl j1 (by norm_num), fl j2 (by norm_num), fl j3 (by norm_num), fl j4 (by norm_num), fl j5 (by norm_num),
    fl j6 (by norm_num), fl j7 (by norm_num), fl j8 (by norm_num), fl is (by norm_num),
    fl k1 (by norm_num), fl k2 (by norm_num), fl k3 (by norm_num), fl k4 (by norm_num), fl k5 (by norm_num),
    fl k6 (by norm_num), fl k7 (by norm_num), fl k8 (by norm_num), fl it (by norm_num), ← hD, ← hS, ← hU, if_neg hD0]
  rw [← hD] at iD
  rw [← hS] at is
  rw [← hU] at it
  have bD := abs_le iD
  refine ⟨|D|, S / D, U / D, one_le_abs iD hD0, by norm_num at bD ⊢; linarith, ?_, ?_, ?_, ?_, Iff.rfl⟩
  · obtain ⟨d, hd, -⟩ := iD
    exact ⟨|d|, by rw [hd, Int.cast_abs]⟩
  · obtain ⟨m, hm, -⟩ := is
    rcases abs_choice D with e | e
    · exact ⟨m, by rw [e, div_mul_cancel₀ _ hD0, hm]⟩
    · exact ⟨-m, by rw [e, mul_neg, div_mul_cancel₀ _ hD0, hm]; push_cast; ring⟩
  · obtain ⟨m, hm, -⟩ := it
    rcases abs_choice D with e | e
    · exact ⟨m, by rw [e, div_mul_cancel₀ _ hD0, hm]⟩
    · exact ⟨-m, by rw [e, mul_neg, div_mul_cancel₀ _ hD0, hm]; push_cast; ring⟩
  · ext
    · simp only [Pt.add_x, Pt.smul_x]; field_simp; rw [hD, hS, hU]; ring
    · simp only [Pt.add_y, Pt.smul_y]; field_simp; rw [hD, hS, hU]; ring

theorem bary_unique {A B C : Pt} {s t s' t' : ℝ} (h : ¬ Collinear A B C)
    (e : (1 - s - t) • A + s • B + t • C = (1 - s' - t') • A + s' • B + t' • C) : s = s' ∧ t = t' := by
  have h' : (B.x - A.x) * (C.y - A.y) - (B.y - A.y) * (C.x - A.x) ≠ 0 := by
    intro h0
    apply h
    unfold Collinear cross
    simp only [Pt.sub_x, Pt.sub_y]
    linear_combination h0
  have ex := congrArg Pt.x e
  have ey := congrArg Pt.y e
  simp only [Pt.add_x, Pt.smul_x, Pt.add_y, Pt.smul_y] at ex ey
  constructor
  · apply mul_left_cancel₀ h'
    linear_combination (C.y - A.y) * ex - (C.x - A.x) * ey
  · apply mul_left_cancel₀ h'
    linear_combination -(B.y - A.y) * ex + (B.x - A.x) * ey

end FI

/-- C117: on integer data of absolute value at most `10^7`, `contains` accepts every point strictly inside a non-flat triangle, and
accepts no other point except possibly some of the open edge `BC`. -/
theorem C117_contains (T : Triangle) (M : Pt) (hA : IntPt (10 ^ 7) T.A) (hB : IntPt (10 ^ 7) T.B) (hC : IntPt (10 ^ 7) T.C)
    (hM : IntPt (10 ^ 7) M) (h : ¬ Collinear T.A T.B T.C) :
    (InTriangle T.A T.B T.C M → T.containsF M) ∧
    (T.containsF M → InTriangle T.A T.B T.C M ∨ BetweenOpen T.B T.C M) := by
  obtain ⟨D, s, t, h1, h2, iD, is, it, e, hc⟩ := FI.contains_iff T M hA hB hC hM h
  obtain ⟨g1, g2⟩ := FI.bary h1 h2 iD is it
  rw [hc]
  constructor
  · rintro ⟨u, v, w, hu, hv, hw, hs, e2⟩
    have hu' : u = 1 - v - w := by linarith
    rw [hu', e] at e2
    obtain ⟨rfl, rfl⟩ := FI.bary_unique h e2
    exact g1 hv hw (by linarith)
  · rintro ⟨l1, l2, l3⟩
    obtain ⟨ps, pt, pst⟩ := g2 l1 l2 l3
    rcases pst.lt_or_eq with p | p
    · exact Or.inl ⟨_, s, t, by linarith, ps, pt, by ring, e⟩
    · refine Or.inr ⟨s, t, ps, pt, p, ?_⟩
      rw [e, show 1 - s - t = 0 by linarith]
      ext <;> simp

/-- C117: a point of the edge `BC` may be accepted: `(2, 1)` for the triangle `(0, 0), (3, 0), (0, 3)`; the real model says it is not in the
open triangle. -/
theorem C117_edge_counterexample : (⟨⟨0, 0⟩, ⟨3, 0⟩, ⟨0, 3⟩⟩ : Triangle).containsF ⟨2, 1⟩ ∧
    ¬ InTriangle (⟨0, 0⟩ : Pt) ⟨3, 0⟩ ⟨0, 3⟩ ⟨2, 1⟩ := by
  have i : ∀ m : ℤ, |m| ≤ 9 → _root_.fl m = m := fun m hm => FI.fl (A := 9) ⟨m, rfl, hm⟩ (by norm_num)
  have f0 : fl 0 = 0 := fl_zero
  have f3 : fl 3 = 3 := by simpa using i 3 (by norm_num)
  have f3' : fl (-3) = -3 := by simpa using i (-3) (by norm_num)
  have f6 : fl 6 = 6 := by simpa using i 6 (by norm_num)
  have f9 : fl 9 = 9 := by simpa using i 9 (by norm_num)
  have a : fl (2 / 3) = 6004799503160661 / 2 ^ 53 := by
    rw [fl_eval (e := -53) (n := 6004799503160661) (by norm_num) (by norm_num [abs_of_pos]) (by norm_num [abs_of_pos])
      (by norm_num [abs_lt])]
    norm_num
  have b : fl (1 / 3) = 6004799503160661 / 2 ^ 54 := by
    rw [fl_eval (e := -54) (n := 6004799503160661) (by norm_num) (by norm_num [abs_of_pos]) (by norm_num [abs_of_pos])
      (by norm_num [abs_lt])]
    norm_num
  have c : fl (1 - 6004799503160661 / 2 ^ 53) = 6004799503160662 / 2 ^ 54 := by
    rw [fl_eval (e := -54) (n := 6004799503160662) (by norm_num) (by norm_num [abs_of_pos]) (by norm_num [abs_of_pos])
      (by norm_num)]
    norm_num
  constructor
  · unfold Triangle.containsF
    norm_num [f0, f3, f3', f6, f9]
    rw [a, b, FI.last_test (by rw [← b]; exact fl_isDouble _), c]
    norm_num
  · rintro ⟨u, v, w, hu, hv, hw, hs, e⟩
    have ex := congrArg Pt.x e
    have ey := congrArg Pt.y e
    simp at ex ey
    linarith

namespace FI

theorem sort_three {a b c x y z : ℝ} (hp : [x, y, z].Perm [a, b, c]) (h1 : x ≤ y) (h2 : y ≤ z) :
    [a, b, c].mergeSort (fun x y => decide (x ≤ y)) = [x, y, z] := by
  have hsort := List.pairwise_mergeSort (le := fun x y : ℝ => decide (x ≤ y))
    (by intro a b c h1 h2; simp only [decide_eq_true_eq] at *; exact le_trans h1 h2)
    (by intro a b; simp only [Bool.or_eq_true, decide_eq_true_eq]; exact le_total a b) [a, b, c]
  refine List.Perm.eq_of_pairwise (le := fun x y : ℝ => decide (x ≤ y)) ?_ hsort ?_ ((List.mergeSort_perm _ _).trans hp.symm)
  · intro a b _ _ h1 h2
    simp only [decide_eq_true_eq] at h1 h2
    exact le_antisymm h1 h2
  · simp [h1, h2, h1.trans h2]

theorem sq_mono {x y : ℝ} (h0 : 0 ≤ x) (h : x ≤ y) : _root_.fl (x * x) ≤ _root_.fl (y * y) := fl_mono (by nlinarith)

theorem two_le {p q r : ℝ} (hp : 0 ≤ p) (hr : IsDouble r) (h : r ≤ q) : r ≤ _root_.fl (p + q) ∧ r ≤ _root_.fl (q + p) := by
  rw [add_comm q p]
  have := fl_mono (x := r) (y := p + q) (by linarith)
  rw [fl_double hr] at this
  exact ⟨this, this⟩

/-- Sorting the edges amounts to testing the three sums. -/
theorem acute_iff (k : Fma) (T : Triangle) : ∀ a b c : ℝ, a = distanceF k T.B T.C → b = distanceF k T.A T.C → c = distanceF k T.A T.B →
    (T.is_acuteF k ↔ _root_.fl (a * a) ≤ _root_.fl (_root_.fl (b * b) + _root_.fl (c * c)) ∧
      _root_.fl (b * b) ≤ _root_.fl (_root_.fl (c * c) + _root_.fl (a * a)) ∧
      _root_.fl (c * c) ≤ _root_.fl (_root_.fl (a * a) + _root_.fl (b * b))) := by
  intro a b c ha hb hc
  have na : 0 ≤ a := by rw [ha]; exact fl_nonneg (Real.sqrt_nonneg _)
  have nb : 0 ≤ b := by rw [hb]; exact fl_nonneg (Real.sqrt_nonneg _)
  have nc : 0 ≤ c := by rw [hc]; exact fl_nonneg (Real.sqrt_nonneg _)
  have qa : 0 ≤ _root_.fl (a * a) := fl_nonneg (by positivity)
  have qb : 0 ≤ _root_.fl (b * b) := fl_nonneg (by positivity)
  have qc : 0 ≤ _root_.fl (c * c) := fl_nonneg (by positivity)
  have key : ∀ x y z : ℝ, [x, y, z].Perm [a, b, c] → x ≤ y → y ≤ z →
      (T.is_acuteF k ↔ _root_.fl (z * z) ≤ _root_.fl (_root_.fl (x * x) + _root_.fl (y * y))) := by
    intro x y z hp h1 h2
    unfold Triangle.is_acuteF
    rw [← ha, ← hb, ← hc, sort_three hp h1 h2]
  have flip : ∀ x y : ℝ, _root_.fl (x + y) = _root_.fl (y + x) := fun x y => by rw [add_comm]
  have p1 : [a, b, c].Perm [a, b, c] := .refl _
  have p2 : [b, a, c].Perm [a, b, c] := .swap ..
  have p3 : [a, c, b].Perm [a, b, c] := .cons _ (.swap ..)
  have p4 : [c, a, b].Perm [a, b, c] := (List.Perm.swap ..).trans p3
  have p5 : [b, c, a].Perm [a, b, c] := (List.Perm.cons _ (.swap ..)).trans p2
  have p6 : [c, b, a].Perm [a, b, c] := (List.Perm.swap ..).trans p5
  have da := fl_isDouble (a * a)
  have db := fl_isDouble (b * b)
  have dc := fl_isDouble (c * c)
  rcases le_total a b with ab | ab <;> rcases le_total b c with bc | bc <;> rcases le_total a c with ac | ac
  · rw [key _ _ _ p1 ab bc]
    exact ⟨fun h => ⟨(two_le qc da (sq_mono na ab)).2, (two_le qa db (sq_mono nb bc)).2, h⟩, fun h => h.2.2⟩
  · rw [key _ _ _ p1 ab bc]
    exact ⟨fun h => ⟨(two_le qc da (sq_mono na ab)).2, (two_le qa db (sq_mono nb bc)).2, h⟩, fun h => h.2.2⟩
  · rw [key _ _ _ p3 ac bc, flip (_root_.fl (a * a))]
    exact ⟨fun h => ⟨(two_le qc da (sq_mono na ab)).2, h, (two_le qa dc (sq_mono nc bc)).1⟩, fun h => h.2.1⟩
  · rw [key _ _ _ p4 ac ab]
    exact ⟨fun h => ⟨(two_le qc da (sq_mono na ab)).2, h, (two_le qa dc (sq_mono nc bc)).1⟩, fun h => h.2.1⟩
  · rw [key _ _ _ p2 ab ac, flip (_root_.fl (b * b))]
    exact ⟨fun h => ⟨(two_le qb da (sq_mono na ac)).1, (two_le qa db (sq_mono nb bc)).2, h⟩, fun h => h.2.2⟩
  · rw [key _ _ _ p5 bc ac]
    exact ⟨fun h => ⟨h, (two_le qa db (sq_mono nb bc)).2, (two_le qb dc (sq_mono nc ac)).2⟩, fun h => h.1⟩
  · rw [key _ _ _ p6 bc ab, flip (_root_.fl (c * c))]
    exact ⟨fun h => ⟨h, (two_le qc db (sq_mono nb ab)).1, (two_le qa dc (sq_mono nc bc)).1⟩, fun h => h.1⟩
  · rw [key _ _ _ p6 bc ab, flip (_root_.fl (c * c))]
    exact ⟨fun h => ⟨h, (two_le qc db (sq_mono nb ab)).1, (two_le qb dc (sq_mono nc ac)).2⟩, fun h => h.1⟩

/-- The square of the rounded square root of an integer. -/
theorem sq_sqrt_err {B : ℕ} {N : ℝ} (hN : IntB B N) (h0 : 0 ≤ N) :
    |_root_.fl (_root_.fl √N * _root_.fl √N) - N| ≤ N / 2 ^ 51 := by
  rcases h0.lt_or_eq with hp | hp
  swap
  · rw [← hp]; simp [fl_zero]
  have h1 := one_le hN hp
  have hs : 1 ≤ √N := Real.one_le_sqrt.2 h1
  have hsq : √N * √N = N := Real.mul_self_sqrt h0
  have e1 := FG.fl_err' √N
  have ts := tiny_small
  have e2 := FG.fl_err' (_root_.fl √N * _root_.fl √N)
  have hn : 0 ≤ _root_.fl √N := fl_nonneg (by linarith)
  rw [abs_of_nonneg (a := √N) (by linarith), _root_.abs_le] at e1
  rw [abs_of_nonneg (a := _root_.fl √N * _root_.fl √N) (by positivity)] at e2
  have u1 : _root_.fl √N ≤ √N * (1 + 11 / 10 / 2 ^ 53) := by
    norm_num at e1 ts ⊢; linarith
  have l1 : √N * (1 - 11 / 10 / 2 ^ 53) ≤ _root_.fl √N := by
    norm_num at e1 ts ⊢; linarith
  have u2 : _root_.fl √N * _root_.fl √N ≤ N * (1 + 11 / 10 / 2 ^ 53) ^ 2 := by
    calc _ ≤ (√N * (1 + 11 / 10 / 2 ^ 53)) * (√N * (1 + 11 / 10 / 2 ^ 53)) := mul_le_mul u1 u1 hn (hn.trans u1)
      _ = √N * √N * (1 + 11 / 10 / 2 ^ 53) ^ 2 := by ring
      _ = _ := by rw [hsq]
  have l2 : N * (1 - 11 / 10 / 2 ^ 53) ^ 2 ≤ _root_.fl √N * _root_.fl √N := by
    calc _ = √N * √N * (1 - 11 / 10 / 2 ^ 53) ^ 2 := by rw [hsq]
      _ = (√N * (1 - 11 / 10 / 2 ^ 53)) * (√N * (1 - 11 / 10 / 2 ^ 53)) := by ring
      _ ≤ _ := mul_le_mul l1 l1 (by norm_num) hn
  rw [_root_.abs_le] at e2 ⊢
  generalize _root_.fl √N * _root_.fl √N = q at *
  norm_num at *
  constructor <;> linarith

/-- One of the three comparisons. -/
theorem acute_test {B : ℕ} {x y z : ℝ} (ix : IntB B x) (iy : IntB B y) (iz : IntB B z) (hx : 0 ≤ x) (hy : 0 ≤ y) (hz : 0 ≤ z)
    (bx : x ≤ 2 ^ 49) (by' : y ≤ 2 ^ 49) (bz : z ≤ 2 ^ 49) (hne : 2 ≤ |y + z - x|) :
    _root_.fl (_root_.fl √x * _root_.fl √x) ≤ _root_.fl (_root_.fl (_root_.fl √y * _root_.fl √y) + _root_.fl (_root_.fl √z * _root_.fl √z)) ↔
      x < y + z := by
  have ex := sq_sqrt_err ix hx
  have ey := sq_sqrt_err iy hy
  have ez := sq_sqrt_err iz hz
  have e := fl_add_err (fl_isDouble (_root_.fl √y * _root_.fl √y)) (fl_isDouble (_root_.fl √z * _root_.fl √z))
  have ny : 0 ≤ _root_.fl (_root_.fl √y * _root_.fl √y) := fl_nonneg (mul_self_nonneg _)
  have nz : 0 ≤ _root_.fl (_root_.fl √z * _root_.fl √z) := fl_nonneg (mul_self_nonneg _)
  generalize _root_.fl (_root_.fl √x * _root_.fl √x) = p at *
  generalize _root_.fl (_root_.fl √y * _root_.fl √y) = q at *
  generalize _root_.fl (_root_.fl √z * _root_.fl √z) = r at *
  rw [abs_of_nonneg (a := q + r) (by linarith), _root_.abs_le] at e
  rw [_root_.abs_le] at ex ey ez
  generalize _root_.fl (q + r) = w at *
  rcases le_abs.1 hne with h | h
  · norm_num at *
    constructor
    · intro; linarith
    · intro; linarith
  · norm_num at *
    constructor
    · intro; linarith
    · intro; linarith

end FI

/-- C117: for a triangle with integer vertices of absolute value at most `2^23` and no right angle, `is_acute` is exact: it says whether
the three angles are acute. -/
theorem C117_is_acute (k : Fma) (T : Triangle) (hA : IntPt (2 ^ 23) T.A) (hB : IntPt (2 ^ 23) T.B) (hC : IntPt (2 ^ 23) T.C)
    (nA : ¬ Perp (T.B - T.A) (T.C - T.A)) (nB : ¬ Perp (T.C - T.B) (T.A - T.B)) (nC : ¬ Perp (T.A - T.C) (T.B - T.C)) :
    T.is_acuteF k ↔ 0 < dot (T.B - T.A) (T.C - T.A) ∧ 0 < dot (T.C - T.B) (T.A - T.B) ∧ 0 < dot (T.A - T.C) (T.B - T.C) := by
  obtain ⟨ea, ia⟩ := FI.sqd k hC hB (by norm_num)
  obtain ⟨eb, ib⟩ := FI.sqd k hC hA (by norm_num)
  obtain ⟨ec, ic⟩ := FI.sqd k hB hA (by norm_num)
  have test : ∀ P Q R : Pt, IntPt (2 ^ 23) P → IntPt (2 ^ 23) Q → IntPt (2 ^ 23) R → ¬ Perp (Q - P) (R - P) →
      2 ≤ |2 * dot (Q - P) (R - P)| := by
    intro P Q R hP hQ hR hn
    have i := FI.add (FI.mul (FI.sub hQ.1 hP.1) (FI.sub hR.1 hP.1)) (FI.mul (FI.sub hQ.2 hP.2) (FI.sub hR.2 hP.2))
    have := FI.one_le_abs i (by
      intro h0; apply hn; unfold Perp dot; simp only [Pt.sub_x, Pt.sub_y]; linarith)
    rw [abs_mul, abs_two]
    unfold dot
    simp only [Pt.sub_x, Pt.sub_y]
    linarith
  have tA := test _ _ _ hA hB hC nA
  have tB := test _ _ _ hB hC hA nB
  have tC := test _ _ _ hC hA hB nC
  have ba := FI.abs_le ia
  have bb := FI.abs_le ib
  have bc := FI.abs_le ic
  have na := sqDist_nonneg T.C T.B
  have nb := sqDist_nonneg T.C T.A
  have nc := sqDist_nonneg T.B T.A
  rw [abs_of_nonneg na] at ba
  rw [abs_of_nonneg nb] at bb
  rw [abs_of_nonneg nc] at bc
  have dA : 2 * dot (T.B - T.A) (T.C - T.A) = sqDist T.C T.A + sqDist T.B T.A - sqDist T.C T.B := by
    unfold dot sqDist; simp only [Pt.sub_x, Pt.sub_y]; ring
  have dB : 2 * dot (T.C - T.B) (T.A - T.B) = sqDist T.B T.A + sqDist T.C T.B - sqDist T.C T.A := by
    unfold dot sqDist; simp only [Pt.sub_x, Pt.sub_y]; ring
  have dC : 2 * dot (T.A - T.C) (T.B - T.C) = sqDist T.C T.B + sqDist T.C T.A - sqDist T.B T.A := by
    unfold dot sqDist; simp only [Pt.sub_x, Pt.sub_y]; ring
  rw [dA] at tA
  rw [dB] at tB
  rw [dC] at tC
  rw [FI.acute_iff k T _ _ _ rfl rfl rfl]
  unfold distanceF
  rw [ea, eb, ec]
  norm_num at ba bb bc
  rw [FI.acute_test ia ib ic na nb nc (by norm_num; linarith) (by norm_num; linarith) (by norm_num; linarith) tA,
    FI.acute_test ib ic ia nb nc na (by norm_num; linarith) (by norm_num; linarith) (by norm_num; linarith) tB,
    FI.acute_test ic ia ib nc na nb (by norm_num; linarith) (by norm_num; linarith) (by norm_num; linarith) tC]
  constructor
  · rintro ⟨h1, h2, h3⟩
    refine ⟨?_, ?_, ?_⟩ <;> linarith
  · rintro ⟨h1, h2, h3⟩
    refine ⟨?_, ?_, ?_⟩ <;> linarith

/-- C117: for a right triangle the answer may be either: the triangle of sides 3, 4, 5 is found acute, the one of sides 1, 1, `√2` is not. -/
theorem C117_right_counterexample (k : Fma) : (⟨⟨0, 0⟩, ⟨3, 0⟩, ⟨0, 4⟩⟩ : Triangle).is_acuteF k ∧
    ¬ (⟨⟨0, 0⟩, ⟨1, 0⟩, ⟨0, 1⟩⟩ : Triangle).is_acuteF k := by
  have i : ∀ m : ℤ, |m| ≤ 30 → IntB 30 m := fun m hm => ⟨m, rfl, hm⟩
  have f : ∀ m : ℤ, |m| ≤ 30 → fl m = m := fun m hm => FI.fl (i m hm) (by norm_num)
  have f1 : fl 1 = 1 := by simpa using f 1 (by norm_num)
  have f2 : fl 2 = 2 := by simpa using f 2 (by norm_num)
  have f3 : fl 3 = 3 := by simpa using f 3 (by norm_num)
  have f4 : fl 4 = 4 := by simpa using f 4 (by norm_num)
  have f5 : fl 5 = 5 := by simpa using f 5 (by norm_num)
  have f9 : fl 9 = 9 := by simpa using f 9 (by norm_num)
  have f16 : fl 16 = 16 := by simpa using f 16 (by norm_num)
  have f25 : fl 25 = 25 := by simpa using f 25 (by norm_num)
  have i0 : IntB 30 0 := by simpa using i 0 (by norm_num)
  have i1 : IntB 30 1 := by simpa using i 1 (by norm_num)
  have i3 : IntB 30 3 := by simpa using i 3 (by norm_num)
  have i4 : IntB 30 4 := by simpa using i 4 (by norm_num)
  have d : ∀ P Q : Pt, IntPt 30 P → IntPt 30 Q → ∀ x : ℝ, 0 ≤ x → sqDist Q P = x ^ 2 → distanceF k P Q = fl x := by
    intro P Q hP hQ x hx h
    unfold distanceF
    rw [(FI.sqd k hQ hP (by norm_num)).1, h, Real.sqrt_sq hx]
  constructor
  · rw [FI.acute_iff k _ 5 4 3]
    · norm_num [f9, f16, f25]
      have : fl 41 = 41 := FI.fl (A := 41) ⟨41, by norm_num, by norm_num⟩ (by norm_num)
      have h34 : fl 34 = 34 := FI.fl (A := 41) ⟨34, by norm_num, by norm_num⟩ (by norm_num)
      rw [this, h34]
      norm_num
    · rw [d _ _ ⟨i3, i0⟩ ⟨i0, i4⟩ 5 (by norm_num) (by norm_num [sqDist]), f5]
    · rw [d _ _ ⟨i0, i0⟩ ⟨i0, i4⟩ 4 (by norm_num) (by norm_num [sqDist]), f4]
    · rw [d _ _ ⟨i0, i0⟩ ⟨i3, i0⟩ 3 (by norm_num) (by norm_num [sqDist]), f3]
  · have h2 : fl √2 = 6369051672525773 / 2 ^ 52 := by
      have u : √2 < 63690516725257735 / 10 / 2 ^ 52 := by
        rw [Real.sqrt_lt' (by norm_num)]; norm_num
      have l : 63690516725257725 / 10 / 2 ^ 52 < √2 := by
        rw [Real.lt_sqrt (by norm_num)]; norm_num
      rw [fl_eval (e := -52) (n := 6369051672525773) (by norm_num)]
      · norm_num
      · rw [abs_of_nonneg (Real.sqrt_nonneg _)]; norm_num at l ⊢
      · rw [abs_of_nonneg (Real.sqrt_nonneg _)]; norm_num at u ⊢
      · rw [abs_lt]; norm_num at u l ⊢; constructor <;> linarith
    have q : 2 < fl (6369051672525773 / 2 ^ 52 * (6369051672525773 / 2 ^ 52)) := by
      rw [fl_eval (e := -51) (n := 4503599627370497) (by norm_num) (by norm_num [abs_of_pos]) (by norm_num [abs_of_pos])
        (by norm_num [abs_lt])]
      norm_num
    rw [FI.acute_iff k _ (6369051672525773 / 2 ^ 52) 1 1]
    · rintro ⟨h, -⟩
      norm_num [f1, f2] at h
      norm_num at q
      linarith
    · rw [d _ _ ⟨i1, i0⟩ ⟨i0, i1⟩ √2 (Real.sqrt_nonneg _) (by norm_num [sqDist]), h2]
    · rw [d _ _ ⟨i0, i0⟩ ⟨i0, i1⟩ 1 (by norm_num) (by norm_num [sqDist]), f1]
    · rw [d _ _ ⟨i0, i0⟩ ⟨i1, i0⟩ 1 (by norm_num) (by norm_num [sqDist]), f1]

/-- `(2, 1)` is inside the triangle `(0, 0), (4, 0), (1, 5)`, `(4, 1)` is not, and the triangle is acute. -/
example (k : Fma) : (⟨⟨0, 0⟩, ⟨4, 0⟩, ⟨1, 5⟩⟩ : Triangle).containsF ⟨2, 1⟩ ∧
    ¬ (⟨⟨0, 0⟩, ⟨4, 0⟩, ⟨1, 5⟩⟩ : Triangle).containsF ⟨4, 1⟩ ∧ (⟨⟨0, 0⟩, ⟨4, 0⟩, ⟨1, 5⟩⟩ : Triangle).is_acuteF k := by
  have i : ∀ m : ℤ, |m| ≤ 5 → IntB 5 m := fun m hm => ⟨m, rfl, hm⟩
  have i0 : IntB 5 0 := by simpa using i 0 (by norm_num)
  have i1 : IntB 5 1 := by simpa using i 1 (by norm_num)
  have i2 : IntB 5 2 := by simpa using i 2 (by norm_num)
  have i4 : IntB 5 4 := by simpa using i 4 (by norm_num)
  have i5 : IntB 5 5 := by simpa using i 5 (by norm_num)
  have up : ∀ {P : Pt} {B : ℕ}, 5 ≤ B → IntPt 5 P → IntPt B P := fun hB h => ⟨FI.mono h.1 hB, FI.mono h.2 hB⟩
  have hc : ¬ Collinear (⟨0, 0⟩ : Pt) ⟨4, 0⟩ ⟨1, 5⟩ := by norm_num [Collinear, cross]
  refine ⟨(C117_contains _ _ (up (by norm_num) ⟨i0, i0⟩) (up (by norm_num) ⟨i4, i0⟩) (up (by norm_num) ⟨i1, i5⟩)
    (up (by norm_num) ⟨i2, i1⟩) hc).1 ⟨7 / 20, 9 / 20, 1 / 5, by norm_num, by norm_num, by norm_num, by norm_num, ?_⟩, fun h => ?_,
    (C117_is_acute k _ (up (by norm_num) ⟨i0, i0⟩) (up (by norm_num) ⟨i4, i0⟩) (up (by norm_num) ⟨i1, i5⟩) ?_ ?_ ?_).2 ?_⟩
  · ext <;> norm_num
  · rcases (C117_contains _ _ (up (by norm_num) ⟨i0, i0⟩) (up (by norm_num) ⟨i4, i0⟩) (up (by norm_num) ⟨i1, i5⟩)
      (up (by norm_num) ⟨i4, i1⟩) hc).2 h with ⟨u, v, w, hu, hv, hw, hs, e⟩ | ⟨v, w, hv, hw, hs, e⟩
    · have ex := congrArg Pt.x e
      simp at ex
      linarith
    · have ex := congrArg Pt.x e
      simp at ex
      linarith
  · norm_num [Perp, dot]
  · norm_num [Perp, dot]
  · norm_num [Perp, dot]
  · norm_num [dot]
