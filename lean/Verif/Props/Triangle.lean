import Verif.Model.Triangle
import Verif.Lemmas.Triangle
import Mathlib.Tactic.Linarith

/-!
# C33 - C42: triangles
-/

open Spec Real Classical

/-! ## C33 -/

theorem flatness_den (T : Triangle) (h1 : T.A ≠ T.B) (h2 : T.A ≠ T.C) :
    0 < dot (T.B - T.A) (T.C - T.A) ^ 2 + cross (T.B - T.A) (T.C - T.A) ^ 2 := by
  have : dot (T.B - T.A) (T.C - T.A) ^ 2 + cross (T.B - T.A) (T.C - T.A) ^ 2 = sqDist T.A T.B * sqDist T.A T.C := by
    simp only [dot, cross, sqDist, Pt.sub_x, Pt.sub_y]; ring
  rw [this]
  exact mul_pos (sqDist_pos h1) (sqDist_pos h2)

theorem flatness_eq (T : Triangle) (h1 : T.A ≠ T.B) (h2 : T.A ≠ T.C) :
    T.flatness = .ok (dot (T.B - T.A) (T.C - T.A) ^ 2 /
      (dot (T.B - T.A) (T.C - T.A) ^ 2 + cross (T.B - T.A) (T.C - T.A) ^ 2)) := by
  have := flatness_den T h1 h2
  unfold Triangle.flatness pyDiv
  simp only [← pow_two]
  exact if_neg this.ne'

theorem flatness_one_iff (T : Triangle) (h1 : T.A ≠ T.B) (h2 : T.A ≠ T.C) :
    T.flatness = .ok 1 ↔ Collinear T.A T.B T.C := by
  have := flatness_den T h1 h2
  rw [flatness_eq T h1 h2, Except.ok.injEq, div_eq_one_iff_eq this.ne']
  unfold Collinear
  constructor
  · intro h
    have : cross (T.B - T.A) (T.C - T.A) ^ 2 = 0 := by linarith
    simpa using this
  · intro h; rw [h]; ring

/-- C33: the flatness is in `[0, 1]`, is `1` exactly for collinear vertices, `0` exactly for a right angle at `A`. -/
theorem C33_flatness (T : Triangle) (h1 : T.B ≠ T.A) (h2 : T.C ≠ T.A) :
    ∃ f, T.flatness = .ok f ∧ 0 ≤ f ∧ f ≤ 1 ∧ (f = 1 ↔ Collinear T.A T.B T.C) ∧
      (f = 0 ↔ Perp (T.B - T.A) (T.C - T.A)) := by
  have hp := flatness_den T h1.symm h2.symm
  have e := flatness_eq T h1.symm h2.symm
  refine ⟨_, e, by positivity, ?_, ?_, ?_⟩
  · rw [div_le_one hp]; nlinarith [sq_nonneg (cross (T.B - T.A) (T.C - T.A))]
  · rw [← flatness_one_iff T h1.symm h2.symm, e, Except.ok.injEq]
  · rw [div_eq_zero_iff]
    constructor
    · rintro (h | h)
      · simpa [Perp] using h
      · exact absurd h hp.ne'
    · intro h; left; unfold Perp at h; rw [h]; ring

/-- C33: with `B = A` or `C = A` the property raises `ZeroDivisionError`. -/
theorem C33_flatness_raises (T : Triangle) (h : T.B = T.A ∨ T.C = T.A) : T.flatness = .error .zeroDivision := by
  unfold Triangle.flatness pyDiv
  dsimp only
  apply if_pos
  rcases h with h | h <;> rw [h] <;> simp

/-- A right angle at the first vertex has flatness 0, three points of a line have flatness 1. -/
example : (⟨⟨0, 0⟩, ⟨4, 0⟩, ⟨0, 3⟩⟩ : Triangle).flatness = .ok 0 ∧
    (⟨⟨0, 0⟩, ⟨1, 1⟩, ⟨3, 3⟩⟩ : Triangle).flatness = .ok 1 := by
  obtain ⟨f, h, -, -, -, h0⟩ := C33_flatness ⟨⟨0, 0⟩, ⟨4, 0⟩, ⟨0, 3⟩⟩ (by simp) (by simp)
  obtain ⟨f', h', -, -, h1, -⟩ := C33_flatness ⟨⟨0, 0⟩, ⟨1, 1⟩, ⟨3, 3⟩⟩ (by simp) (by simp)
  rw [h, h', h0.2 (by norm_num [Perp, dot]), h1.2 (by norm_num [Collinear, cross])]
  exact ⟨rfl, rfl⟩

/-- The hypotheses of `C33_flatness` hold for a triangle of flatness 1/2. -/
example : (⟨⟨0, 0⟩, ⟨1, 0⟩, ⟨1, 1⟩⟩ : Triangle).flatness = .ok (1 / 2) := by
  rw [flatness_eq] <;> norm_num [dot, cross]

/-! ## C34 -/

theorem orientation_cross (T : Triangle) :
    (T.B.y - T.A.y) * (T.C.x - T.B.x) - (T.B.x - T.A.x) * (T.C.y - T.B.y) = - cross (T.B - T.A) (T.C - T.A) := by
  simp only [cross, Pt.sub_x, Pt.sub_y]; ring

/-- C34, partial: the orientation separates the three cases, but with signs opposite to the documentation:
counterclockwise triangles get `-1` and clockwise triangles get `1`. -/
theorem C34_orientation_partial (T : Triangle) :
    (T.orientation = 0 ↔ Collinear T.A T.B T.C) ∧
    (T.orientation = -1 ↔ 0 < cross (T.B - T.A) (T.C - T.A)) ∧
    (T.orientation = 1 ↔ cross (T.B - T.A) (T.C - T.A) < 0) := by
  unfold Triangle.orientation
  dsimp only
  rw [orientation_cross]
  unfold Collinear
  rcases lt_trichotomy (cross (T.B - T.A) (T.C - T.A)) 0 with h | h | h
  · rw [if_neg (by simpa using h.ne), if_pos (by linarith)]
    refine ⟨?_, ?_, ?_⟩ <;> simp [h.ne, h, h.le]
  · rw [h]; simp
  · rw [if_neg (by simpa using h.ne'), if_neg (by linarith)]
    refine ⟨?_, ?_, ?_⟩ <;> simp [h.ne', h, h.le]

/-- C34, failure of the documented convention: a counterclockwise triangle has orientation `-1`. -/
theorem C34_orientation_counterexample :
    0 < cross ((⟨1, 0⟩ : Pt) - ⟨0, 0⟩) ((⟨0, 1⟩ : Pt) - ⟨0, 0⟩) ∧
      (⟨⟨0, 0⟩, ⟨1, 0⟩, ⟨0, 1⟩⟩ : Triangle).orientation = -1 := by
  constructor
  · norm_num [cross]
  · norm_num [Triangle.orientation]

/-- The three values. -/
example : (⟨⟨0, 0⟩, ⟨4, 0⟩, ⟨1, 3⟩⟩ : Triangle).orientation = -1 ∧ (⟨⟨0, 0⟩, ⟨1, 3⟩, ⟨4, 0⟩⟩ : Triangle).orientation = 1 ∧
    (⟨⟨0, 0⟩, ⟨1, 3⟩, ⟨2, 6⟩⟩ : Triangle).orientation = 0 :=
  ⟨(C34_orientation_partial _).2.1.2 (by norm_num [cross]), (C34_orientation_partial _).2.2.2 (by norm_num [cross]),
    (C34_orientation_partial _).1.2 (by norm_num [Collinear, cross])⟩

/-! ## C35 -/

/-- C35: for a non-flat triangle, `contains` is membership in the open triangle. -/
theorem C35_contains (T : Triangle) (h : ¬ Collinear T.A T.B T.C) (M : Pt) :
    T.contains M ↔ InTriangle T.A T.B T.C M := by
  obtain ⟨D, hD⟩ : ∃ D, D = -T.B.y * T.C.x + T.A.y * (-T.B.x + T.C.x) + T.A.x * (T.B.y - T.C.y) + T.B.x * T.C.y := ⟨_, rfl⟩
  have hD0 : D ≠ 0 := by
    intro h0; apply h; unfold Collinear; rw [← h0, hD]; simp only [cross, Pt.sub_x, Pt.sub_y]; ring
  unfold Triangle.contains
  dsimp only
  rw [← hD, if_neg hD0]
  constructor
  · rintro ⟨h1, h2, h3⟩
    refine ⟨_, _, _, h3, h1, h2, by ring, ?_⟩
    ext
    · simp only [Pt.add_x, Pt.smul_x]; field_simp; rw [hD]; ring
    · simp only [Pt.add_y, Pt.smul_y]; field_simp; rw [hD]; ring
  · rintro ⟨u, v, w, hu, hv, hw, hs, rfl⟩
    have hu' : u = 1 - v - w := by linarith
    have e1 : (T.A.y * T.C.x - T.A.x * T.C.y + (T.C.y - T.A.y) * (u • T.A + v • T.B + w • T.C).x +
        (T.A.x - T.C.x) * (u • T.A + v • T.B + w • T.C).y) / D = v := by
      simp only [Pt.add_x, Pt.smul_x, Pt.add_y, Pt.smul_y]; field_simp; rw [hD, hu']; ring
    have e2 : (T.A.x * T.B.y - T.A.y * T.B.x + (T.A.y - T.B.y) * (u • T.A + v • T.B + w • T.C).x +
        (T.B.x - T.A.x) * (u • T.A + v • T.B + w • T.C).y) / D = w := by
      simp only [Pt.add_x, Pt.smul_x, Pt.add_y, Pt.smul_y]; field_simp; rw [hD, hu']; ring
    rw [e1, e2]
    exact ⟨hv, hw, by linarith⟩

/-- C35: a flat triangle contains no point. -/
theorem C35_contains_flat (T : Triangle) (h : Collinear T.A T.B T.C) (M : Pt) : ¬ T.contains M := by
  unfold Triangle.contains
  dsimp only
  rw [if_pos]
  · exact not_false
  · unfold Collinear at h; simp only [cross, Pt.sub_x, Pt.sub_y] at h; linarith

example : (⟨⟨0, 0⟩, ⟨1, 0⟩, ⟨0, 1⟩⟩ : Triangle).contains ⟨1 / 4, 1 / 4⟩ := by
  rw [C35_contains _ (by norm_num [Collinear, cross])]
  exact ⟨1 / 2, 1 / 4, 1 / 4, by norm_num, by norm_num, by norm_num, by norm_num, by ext <;> norm_num⟩

/-! ## C36 -/

theorem is_acute_iff (T : Triangle) :
    T.is_acute ↔ T.a ^ 2 ≤ T.b ^ 2 + T.c ^ 2 ∧ T.b ^ 2 ≤ T.c ^ 2 + T.a ^ 2 ∧ T.c ^ 2 ≤ T.a ^ 2 + T.b ^ 2 := by
  have na : 0 ≤ T.a := Real.sqrt_nonneg _
  have nb : 0 ≤ T.b := Real.sqrt_nonneg _
  have nc : 0 ≤ T.c := Real.sqrt_nonneg _
  have hperm := List.mergeSort_perm [T.a, T.b, T.c] (fun x y => decide (x ≤ y))
  have hsort := List.pairwise_mergeSort (le := fun x y : ℝ => decide (x ≤ y))
    (by intro a b c h1 h2; simp only [decide_eq_true_eq] at *; exact le_trans h1 h2)
    (by intro a b; simp only [Bool.or_eq_true, decide_eq_true_eq]; exact le_total a b) [T.a, T.b, T.c]
  unfold Triangle.is_acute
  have hlen := hperm.length_eq
  match hl : [T.a, T.b, T.c].mergeSort (fun x y => decide (x ≤ y)) with
  | [e0, e1, e2] =>
    rw [hl] at hperm hsort
    simp only [List.pairwise_cons, List.mem_cons, List.not_mem_nil, or_false, forall_eq_or_imp, forall_eq,
      decide_eq_true_eq, List.Pairwise.nil, and_true, IsEmpty.forall_iff, implies_true] at hsort
    obtain ⟨⟨h01, h02⟩, h12⟩ := hsort
    have hsum : e0 ^ 2 + e1 ^ 2 + e2 ^ 2 = T.a ^ 2 + T.b ^ 2 + T.c ^ 2 := by
      have := (hperm.map (fun x : ℝ => x ^ 2)).sum_eq
      simp only [List.map_cons, List.map_nil, List.sum_cons, List.sum_nil] at this
      linarith
    have hmem : ∀ x, x ∈ [e0, e1, e2] ↔ x ∈ [T.a, T.b, T.c] := fun x => hperm.mem_iff
    have h0 : 0 ≤ e0 := by
      have := (hmem e0).1 (by simp)
      simp at this
      rcases this with h | h | h <;> rw [h] <;> assumption
    have hle : ∀ x ∈ [T.a, T.b, T.c], x ≤ e2 := by
      intro x hx
      have := (hmem x).2 hx
      simp at this
      rcases this with h | h | h <;> linarith
    have hin := (hmem e2).1 (by simp)
    simp at hin hle
    obtain ⟨l1, l2, l3⟩ := hle
    dsimp only
    constructor
    · intro h
      refine ⟨?_, ?_, ?_⟩ <;> nlinarith
    · rintro ⟨k1, k2, k3⟩
      rcases hin with h | h | h <;> rw [← h] at k1 k2 k3 hsum <;> nlinarith
  | [] => rw [hl] at hlen; simp at hlen
  | [_] => rw [hl] at hlen; simp at hlen
  | [_, _] => rw [hl] at hlen; simp at hlen
  | _ :: _ :: _ :: _ :: _ => rw [hl] at hlen; simp at hlen

/-- C36, partial: `is_acute` holds exactly when no angle is obtuse; so it is the acuteness of the triangle except that
right triangles (and triangles with two equal vertices) are also accepted. -/
theorem C36_is_acute_partial (T : Triangle) :
    T.is_acute ↔ 0 ≤ dot (T.B - T.A) (T.C - T.A) ∧ 0 ≤ dot (T.C - T.B) (T.A - T.B) ∧ 0 ≤ dot (T.A - T.C) (T.B - T.C) := by
  rw [is_acute_iff]
  unfold Triangle.a Triangle.b Triangle.c
  rw [distance_eq, distance_eq, distance_eq, dist_sq, dist_sq, dist_sq]
  simp only [dot, sqDist, Pt.sub_x, Pt.sub_y]
  constructor
  · rintro ⟨h1, h2, h3⟩; refine ⟨?_, ?_, ?_⟩ <;> nlinarith
  · rintro ⟨h1, h2, h3⟩; refine ⟨?_, ?_, ?_⟩ <;> nlinarith

/-- C36: a triangle without right angle is reported acute exactly when its three angles are acute. -/
theorem C36_is_acute_no_right_angle_partial (T : Triangle) (h1 : ¬ Perp (T.B - T.A) (T.C - T.A))
    (h2 : ¬ Perp (T.C - T.B) (T.A - T.B)) (h3 : ¬ Perp (T.A - T.C) (T.B - T.C)) :
    T.is_acute ↔ 0 < dot (T.B - T.A) (T.C - T.A) ∧ 0 < dot (T.C - T.B) (T.A - T.B) ∧ 0 < dot (T.A - T.C) (T.B - T.C) := by
  rw [C36_is_acute_partial]
  unfold Perp at *
  constructor
  · rintro ⟨k1, k2, k3⟩
    exact ⟨lt_of_le_of_ne k1 (Ne.symm h1), lt_of_le_of_ne k2 (Ne.symm h2), lt_of_le_of_ne k3 (Ne.symm h3)⟩
  · rintro ⟨k1, k2, k3⟩; exact ⟨k1.le, k2.le, k3.le⟩

/-- C36, failure: a right triangle is reported acute. -/
theorem C36_right_triangle_counterexample :
    (⟨⟨0, 0⟩, ⟨1, 0⟩, ⟨0, 1⟩⟩ : Triangle).is_acute ∧ Perp ((⟨1, 0⟩ : Pt) - ⟨0, 0⟩) ((⟨0, 1⟩ : Pt) - ⟨0, 0⟩) := by
  rw [C36_is_acute_partial]
  norm_num [dot, Perp]

/-- An acute and an obtuse triangle. -/
example : (⟨⟨0, 0⟩, ⟨4, 0⟩, ⟨2, 3⟩⟩ : Triangle).is_acute ∧ ¬ (⟨⟨0, 0⟩, ⟨4, 0⟩, ⟨5, 1⟩⟩ : Triangle).is_acute := by
  constructor
  · rw [C36_is_acute_no_right_angle_partial] <;> norm_num [Perp, dot]
  · rw [C36_is_acute_partial]; norm_num [dot]

/-! ## C37 -/

/-- The angle at `P`, in coordinates. -/
noncomputable def angleAt (Q P R : Pt) : ℝ := Real.arccos (dot (Q - P) (R - P) / (Spec.dist P Q * Spec.dist P R))

theorem cos_bound (u v : ℝ) (P Q R : Pt) (h1 : P ≠ Q) (h2 : P ≠ R) (hu : u = Spec.dist P Q) (hv : v = Spec.dist P R) :
    -1 ≤ dot (Q - P) (R - P) / (u * v) ∧ dot (Q - P) (R - P) / (u * v) ≤ 1 := by
  have p1 := dist_pos_of_ne h1
  have p2 := dist_pos_of_ne h2
  have e1 := dist_sq P Q
  have e2 := dist_sq P R
  rw [← hu] at p1 e1
  rw [← hv] at p2 e2
  have hp : 0 < u * v := mul_pos p1 p2
  have key : dot (Q - P) (R - P) ^ 2 ≤ (u * v) ^ 2 := by
    rw [mul_pow, e1, e2]
    simp only [dot, sqDist, Pt.sub_x, Pt.sub_y]
    nlinarith [sq_nonneg ((Q.x - P.x) * (R.y - P.y) - (Q.y - P.y) * (R.x - P.x))]
  have := abs_le_of_sq_le_sq' key hp.le
  constructor
  · rw [le_div_iff₀ hp]; linarith [this.1]
  · rw [div_le_one hp]; exact this.2

theorem vlength_sub (P Q : Pt) : vlength_ (Q - P) = Spec.dist P Q := distance_eq P Q

theorem angle_aux (P Q R : Pt) (h1 : P ≠ Q) (h2 : P ≠ R) :
    (do let q ← npDiv (dot_ (R - P) (Q - P)) (vlength_ (R - P))
        let q ← npDiv q (vlength_ (Q - P))
        pyAcos q) = .ok (angleAt Q P R) := by
  have p1 := dist_pos_of_ne h1
  have p2 := dist_pos_of_ne h2
  have e : dot_ (R - P) (Q - P) / Spec.dist P R / Spec.dist P Q = dot (Q - P) (R - P) / (Spec.dist P Q * Spec.dist P R) := by
    unfold dot_ dot; field_simp
  rw [vlength_sub, vlength_sub, npDiv, if_neg p2.ne', Res.ok_bind, npDiv, if_neg p1.ne', Res.ok_bind, e]
  unfold pyAcos
  have := cos_bound _ _ P Q R h1 h2 rfl rfl
  rw [if_neg (by push Not; exact ⟨this.1, this.2⟩)];
  rfl

theorem law_of_cosines (P Q R : Pt) (h1 : P ≠ Q) (h2 : P ≠ R) :
    Spec.dist Q R ^ 2 = Spec.dist P Q ^ 2 + Spec.dist P R ^ 2 -
      2 * Spec.dist P Q * Spec.dist P R * cos (angleAt Q P R) := by
  have p1 := dist_pos_of_ne h1
  have p2 := dist_pos_of_ne h2
  have := cos_bound _ _ P Q R h1 h2 rfl rfl
  unfold angleAt; rw [Real.cos_arccos this.1 this.2]
  have := dot_of_sides P Q R
  field_simp
  linarith

theorem angleAt_comm (Q P R : Pt) : angleAt Q P R = angleAt R P Q := by
  unfold angleAt dot; congr 2 <;> ring

theorem cos_angleAt (Q P R : Pt) (h1 : P ≠ Q) (h2 : P ≠ R) :
    cos (angleAt Q P R) = dot (Q - P) (R - P) / (Spec.dist P Q * Spec.dist P R) := by
  have := cos_bound _ _ P Q R h1 h2 rfl rfl
  exact Real.cos_arccos this.1 this.2

theorem sin_angleAt (Q P R : Pt) (h1 : P ≠ Q) (h2 : P ≠ R) :
    sin (angleAt Q P R) = |cross (Q - P) (R - P)| / (Spec.dist P Q * Spec.dist P R) := by
  have p1 := dist_pos_of_ne h1
  have p2 := dist_pos_of_ne h2
  unfold angleAt
  rw [Real.sin_arccos]
  have e1 := dist_sq P Q
  have e2 := dist_sq P R
  have : 1 - (dot (Q - P) (R - P) / (Spec.dist P Q * Spec.dist P R)) ^ 2 =
      (|cross (Q - P) (R - P)| / (Spec.dist P Q * Spec.dist P R)) ^ 2 := by
    rw [div_pow, div_pow, sq_abs, mul_pow, eq_div_iff (by positivity), sub_mul, div_mul_cancel₀ _ (by positivity), e1, e2]
    simp only [dot, cross, sqDist, Pt.sub_x, Pt.sub_y]; ring
  rw [this, Real.sqrt_sq (by positivity)]

theorem angleAt_sum (A B C : Pt) (h1 : A ≠ B) (h2 : A ≠ C) (h3 : B ≠ C) :
    angleAt B A C + angleAt A B C + angleAt A C B = π := by
  have pc := dist_pos_of_ne h1
  have pb := dist_pos_of_ne h2
  have pa := dist_pos_of_ne h3
  have ca := cos_angleAt B A C h1 h2
  have cb := cos_angleAt A B C h1.symm h3
  have cc := cos_angleAt A C B h2.symm h3.symm
  have sa := sin_angleAt B A C h1 h2
  have sb := sin_angleAt A B C h1.symm h3
  have sc := sin_angleAt A C B h2.symm h3.symm
  rw [dist_comm B A] at cb sb
  rw [dist_comm C A, dist_comm C B] at cc sc
  have xB : |cross (A - B) (C - B)| = |cross (B - A) (C - A)| := by
    rw [← abs_neg]; congr 1; simp only [cross, Pt.sub_x, Pt.sub_y]; ring
  have xC : |cross (A - C) (B - C)| = |cross (B - A) (C - A)| := by
    congr 1; simp only [cross, Pt.sub_x, Pt.sub_y]; ring
  rw [xB] at sb; rw [xC] at sc
  have a2 := dist_sq B C
  have b2 := dist_sq A C
  have c2 := dist_sq A B
  have S2 := sq_abs (cross (B - A) (C - A))
  have hS : 0 ≤ |cross (B - A) (C - A)| := abs_nonneg _
  have hA := dot_of_sides A B C
  have hB := dot_of_sides B A C
  have hC := dot_of_sides C A B
  rw [dist_comm B A] at hB
  rw [dist_comm C A, dist_comm C B] at hC
  have hSS : 4 * cross (B - A) (C - A) ^ 2 = 2 * sqDist B C * sqDist A C + 2 * sqDist A C * sqDist A B +
      2 * sqDist A B * sqDist B C - sqDist B C ^ 2 - sqDist A C ^ 2 - sqDist A B ^ 2 := by
    simp only [cross, sqDist, Pt.sub_x, Pt.sub_y]; ring
  rw [← a2, ← b2, ← c2, ← S2] at hSS
  obtain ⟨S, eS⟩ : ∃ S, S = |cross (B - A) (C - A)| := ⟨_, rfl⟩
  obtain ⟨a, ea⟩ : ∃ a, a = Spec.dist B C := ⟨_, rfl⟩
  obtain ⟨b, eb⟩ : ∃ b, b = Spec.dist A C := ⟨_, rfl⟩
  obtain ⟨c, ec⟩ : ∃ c, c = Spec.dist A B := ⟨_, rfl⟩
  obtain ⟨dA, edA⟩ : ∃ d, d = dot (B - A) (C - A) := ⟨_, rfl⟩
  obtain ⟨dB, edB⟩ : ∃ d, d = dot (A - B) (C - B) := ⟨_, rfl⟩
  obtain ⟨dC, edC⟩ : ∃ d, d = dot (A - C) (B - C) := ⟨_, rfl⟩
  rw [← eS] at sa sb sc hS hSS
  rw [← ea] at pa sb sc cb cc hA hB hC hSS
  rw [← eb] at pb sa sc ca cc hA hB hC hSS
  rw [← ec] at pc sa sb ca cb hA hB hC hSS
  rw [← edA] at ca hA
  rw [← edB] at cb hB
  rw [← edC] at cc hC
  have e1 : cos (angleAt B A C + angleAt A B C) = - cos (angleAt A C B) := by
    rw [cos_add, ca, cb, cc, sa, sb]
    have hA' : dA = (b ^ 2 + c ^ 2 - a ^ 2) / 2 := by linarith
    have hB' : dB = (a ^ 2 + c ^ 2 - b ^ 2) / 2 := by linarith
    have hC' : dC = (b ^ 2 + a ^ 2 - c ^ 2) / 2 := by linarith
    field_simp
    rw [hA', hB', hC']
    linear_combination (-1 / 4) * hSS
  have e2 : sin (angleAt B A C + angleAt A B C) = sin (angleAt A C B) := by
    rw [sin_add, ca, cb, sc, sa, sb]
    have : dA + dB = c ^ 2 := by linarith
    field_simp
    linear_combination S * this
  have e3 : cos (angleAt B A C + angleAt A B C + angleAt A C B) = -1 := by
    rw [cos_add, e1, e2]
    linear_combination -(sin_sq_add_cos_sq (angleAt A C B))
  have r1 : 0 ≤ angleAt B A C ∧ angleAt B A C ≤ π := ⟨arccos_nonneg _, arccos_le_pi _⟩
  have r2 : 0 ≤ angleAt A B C ∧ angleAt A B C ≤ π := ⟨arccos_nonneg _, arccos_le_pi _⟩
  have r3 : 0 ≤ angleAt A C B ∧ angleAt A C B ≤ π := ⟨arccos_nonneg _, arccos_le_pi _⟩
  -- the sum is not `3π`
  have hlt : angleAt B A C + angleAt A B C + angleAt A C B < 3 * π := by
    by_contra hge
    have k1 : angleAt B A C = π := by linarith
    have k2 : angleAt A B C = π := by linarith
    rw [k1, cos_pi] at ca
    rw [k2, cos_pi] at cb
    have hp1 := mul_pos pc pb
    have hp2 := mul_pos pc pa
    have : dA = -(c * b) := by field_simp at ca; linarith
    have : dB = -(c * a) := by field_simp at cb; linarith
    have : dA + dB = c ^ 2 := by linarith
    nlinarith
  have e4 : cos (angleAt B A C + angleAt A B C + angleAt A C B - π) = 1 := by
    rw [cos_sub_pi, e3]; norm_num
  have := (cos_eq_one_iff_of_lt_of_lt (x := angleAt B A C + angleAt A B C + angleAt A C B - π)
    (by linarith [pi_pos]) (by linarith)).1 e4
  linarith

/-- C37: for distinct vertices the three angles are returned, lie in `[0, π]`, sum to `π` and satisfy the law of
cosines with the side lengths `a`, `b`, `c`. -/
theorem C37_angles (T : Triangle) (h1 : T.A ≠ T.B) (h2 : T.A ≠ T.C) (h3 : T.B ≠ T.C) :
    ∃ α β γ, T.angleA = .ok α ∧ T.angleB = .ok β ∧ T.angleC = .ok γ ∧
      (0 ≤ α ∧ α ≤ π) ∧ (0 ≤ β ∧ β ≤ π) ∧ (0 ≤ γ ∧ γ ≤ π) ∧ α + β + γ = π ∧
      T.a ^ 2 = T.b ^ 2 + T.c ^ 2 - 2 * T.b * T.c * cos α ∧
      T.b ^ 2 = T.c ^ 2 + T.a ^ 2 - 2 * T.c * T.a * cos β ∧
      T.c ^ 2 = T.a ^ 2 + T.b ^ 2 - 2 * T.a * T.b * cos γ := by
  refine ⟨angleAt T.B T.A T.C, angleAt T.A T.B T.C, angleAt T.A T.C T.B, ?_, ?_, ?_, ⟨arccos_nonneg _, arccos_le_pi _⟩,
    ⟨arccos_nonneg _, arccos_le_pi _⟩, ⟨arccos_nonneg _, arccos_le_pi _⟩, angleAt_sum _ _ _ h1 h2 h3, ?_, ?_, ?_⟩
  · exact angle_aux T.A T.B T.C h1 h2
  · exact angle_aux T.B T.A T.C h1.symm h3
  · have e : dot_ (T.A - T.C) (T.B - T.C) = dot_ (T.B - T.C) (T.A - T.C) := by unfold dot_; ring
    unfold Triangle.angleC
    dsimp only
    rw [e]
    exact angle_aux T.C T.A T.B h2.symm h3.symm
  all_goals unfold Triangle.a Triangle.b Triangle.c; rw [distance_eq, distance_eq, distance_eq]
  · have := law_of_cosines T.A T.B T.C h1 h2
    linarith
  · have := law_of_cosines T.B T.A T.C h1.symm h3
    rw [dist_comm T.B T.A] at this
    linarith
  · have := law_of_cosines T.C T.A T.B h2.symm h3.symm
    rw [dist_comm T.C T.A, dist_comm T.C T.B] at this
    linarith

example : (⟨⟨0, 0⟩, ⟨1, 0⟩, ⟨0, 1⟩⟩ : Triangle).A ≠ (⟨⟨0, 0⟩, ⟨1, 0⟩, ⟨0, 1⟩⟩ : Triangle).B ∧
    (⟨⟨0, 0⟩, ⟨1, 0⟩, ⟨0, 1⟩⟩ : Triangle).A ≠ (⟨⟨0, 0⟩, ⟨1, 0⟩, ⟨0, 1⟩⟩ : Triangle).C ∧
    (⟨⟨0, 0⟩, ⟨1, 0⟩, ⟨0, 1⟩⟩ : Triangle).B ≠ (⟨⟨0, 0⟩, ⟨1, 0⟩, ⟨0, 1⟩⟩ : Triangle).C := by
  simp [Pt.ext_iff]

/-! ## C38 -/

theorem heron_sqrt {A B C : Pt} {x y z : ℝ} (hx : 0 < x) (hy : 0 < y) (hz : 0 < z)
    (hS : cross (B - A) (C - A) ^ 2 = 4 * (x * y * z * (x + y + z))) :
    pySqrt ((y + z + (z + x) + (x + y)) / 2 * ((y + z + (z + x) + (x + y)) / 2 - (y + z)) *
      ((y + z + (z + x) + (x + y)) / 2 - (z + x)) * ((y + z + (z + x) + (x + y)) / 2 - (x + y))) =
      .ok (|cross (B - A) (C - A)| / 2) := by
  have e : (y + z + (z + x) + (x + y)) / 2 * ((y + z + (z + x) + (x + y)) / 2 - (y + z)) *
      ((y + z + (z + x) + (x + y)) / 2 - (z + x)) * ((y + z + (z + x) + (x + y)) / 2 - (x + y)) =
      (|cross (B - A) (C - A)| / 2) ^ 2 := by
    rw [div_pow, sq_abs, hS]; ring
  rw [e]
  unfold pySqrt
  rw [if_neg (not_lt.2 (sq_nonneg _)), Real.sqrt_sq (by positivity)]

/-- C38: the circle returned for a non-flat triangle has its center strictly inside and touches the three side
lines. -/
theorem C38_incircle (T : Triangle) (h : ¬ Collinear T.A T.B T.C) :
    ∃ c, T.incircle = .ok c ∧ 0 < c.radius ∧ InTriangle T.A T.B T.C c.center ∧
      TangentLine c.center c.radius T.B T.C ∧ TangentLine c.center c.radius T.C T.A ∧
      TangentLine c.center c.radius T.A T.B := by
  obtain ⟨x, y, z, hx, hy, hz, ha, hb, hc, hS⟩ := ravi h
  have hS0 : 0 < |cross (T.B - T.A) (T.C - T.A)| := abs_pos.2 h
  unfold Triangle.incircle
  dsimp only
  rw [distance_eq, distance_eq, distance_eq, dist_comm T.B T.A, ha, hb, hc, heron_sqrt hx hy hz hS, Res.ok_bind,
    if_neg (by positivity), mkCircle_pos (by positivity)]
  refine ⟨_, rfl, by dsimp only; positivity, ?_, ?_⟩
  · refine ⟨(y + z) / (y + z + (z + x) + (x + y)), (z + x) / (y + z + (z + x) + (x + y)),
      (x + y) / (y + z + (z + x) + (x + y)), by positivity, by positivity, by positivity, by field_simp, ?_⟩
    ext
    · simp only [Pt.add_x, Pt.smul_x, Pt.div_x]; field_simp
    · simp only [Pt.add_y, Pt.smul_y, Pt.div_y]; field_simp
  · apply tangent_sides h (by positivity) rfl rfl
    all_goals
      try rw [ha]
      try rw [hb]
      try rw [hc]
      rw [div_pow, div_pow, sq_abs]; field_simp

/-- C38: a flat triangle whose vertices are not all equal is rejected with `ValueError`. -/
theorem C38_incircle_flat_partial (T : Triangle) (h : Collinear T.A T.B T.C) (hne : T.A ≠ T.B ∨ T.A ≠ T.C) :
    T.incircle = .error (.valueError "`radius` is not positive.") := by
  unfold Triangle.incircle
  dsimp only
  rw [distance_eq, distance_eq, distance_eq, dist_comm T.B T.A]
  have a2 := dist_sq T.B T.C
  have b2 := dist_sq T.A T.C
  have c2 := dist_sq T.A T.B
  have na := dist_nonneg T.B T.C
  have nb := dist_nonneg T.A T.C
  have nc := dist_nonneg T.A T.B
  have hp : 0 < Spec.dist T.B T.C + Spec.dist T.A T.C + Spec.dist T.A T.B := by
    rcases hne with h' | h' <;> have := dist_pos_of_ne h' <;> linarith
  obtain ⟨a, ea⟩ : ∃ a, a = Spec.dist T.B T.C := ⟨_, rfl⟩
  obtain ⟨b, eb⟩ : ∃ b, b = Spec.dist T.A T.C := ⟨_, rfl⟩
  obtain ⟨c, ec⟩ : ∃ c, c = Spec.dist T.A T.B := ⟨_, rfl⟩
  rw [← ea] at a2 na hp ⊢; rw [← eb] at b2 nb hp ⊢; rw [← ec] at c2 nc hp ⊢
  have e : (a + b + c) / 2 * ((a + b + c) / 2 - a) * ((a + b + c) / 2 - b) * ((a + b + c) / 2 - c) = 0 := by
    have : (a + b + c) / 2 * ((a + b + c) / 2 - a) * ((a + b + c) / 2 - b) * ((a + b + c) / 2 - c) =
      (2 * a ^ 2 * b ^ 2 + 2 * b ^ 2 * c ^ 2 + 2 * c ^ 2 * a ^ 2 - (a ^ 2) ^ 2 - (b ^ 2) ^ 2 - (c ^ 2) ^ 2) / 16 := by ring
    rw [this, a2, b2, c2]
    have h2 : cross (T.B - T.A) (T.C - T.A) ^ 2 = 0 := by rw [show cross (T.B - T.A) (T.C - T.A) = 0 from h]; ring
    have h3 : (2 * sqDist T.B T.C * sqDist T.A T.C + 2 * sqDist T.A T.C * sqDist T.A T.B +
        2 * sqDist T.A T.B * sqDist T.B T.C - sqDist T.B T.C ^ 2 - sqDist T.A T.C ^ 2 - sqDist T.A T.B ^ 2) / 16 =
        cross (T.B - T.A) (T.C - T.A) ^ 2 / 4 := by
      simp only [sqDist, cross, Pt.sub_x, Pt.sub_y]; ring
    rw [h3, h2]; ring
  rw [e]
  unfold pySqrt
  rw [if_neg (lt_irrefl _), Res.ok_bind, if_neg hp.ne', Real.sqrt_zero]
  unfold mkCircle
  rw [if_pos (by simp)]

/-- C38, failure: the triangle with three equal vertices is not rejected; the code divides by zero and builds a circle
with `nan` radius. -/
theorem C38_point_triangle_counterexample (P : Pt) : (⟨P, P, P⟩ : Triangle).incircle = .error .nonFinite := by
  unfold Triangle.incircle
  dsimp only
  have : Spec.dist P P = 0 := by simp [Spec.dist, sqDist]
  rw [distance_eq, this]
  norm_num [pySqrt, Res.ok_bind]

/-- Three points of a line raise an exception; the center of the circle for the triangle `(0, 0), (4, 0), (0, 3)` is
in the triangle. -/
example : (⟨⟨0, 0⟩, ⟨1, 1⟩, ⟨3, 3⟩⟩ : Triangle).incircle = .error (.valueError "`radius` is not positive.") ∧
    ∃ c, (⟨⟨0, 0⟩, ⟨4, 0⟩, ⟨0, 3⟩⟩ : Triangle).incircle = .ok c ∧ InTriangle ⟨0, 0⟩ ⟨4, 0⟩ ⟨0, 3⟩ c.center := by
  refine ⟨C38_incircle_flat_partial _ (by norm_num [Collinear, cross]) (Or.inl (by simp)), ?_⟩
  obtain ⟨c, h, -, h2, -⟩ := C38_incircle ⟨⟨0, 0⟩, ⟨4, 0⟩, ⟨0, 3⟩⟩ (by norm_num [Collinear, cross])
  exact ⟨c, h, h2⟩

example : ¬ Collinear (⟨0, 0⟩ : Pt) ⟨4, 0⟩ ⟨0, 3⟩ := by norm_num [Collinear, cross]

/-- The incircle of the 3-4-5 triangle. -/
example : (⟨⟨0, 0⟩, ⟨4, 0⟩, ⟨0, 3⟩⟩ : Triangle).incircle = .ok ⟨⟨1, 1⟩, 1⟩ := by
  have e1 : Spec.dist (⟨4, 0⟩ : Pt) ⟨0, 3⟩ = 5 := by rw [dist_eq_iff (by norm_num)]; norm_num [sqDist]
  have e2 : Spec.dist (⟨0, 0⟩ : Pt) ⟨0, 3⟩ = 3 := by rw [dist_eq_iff (by norm_num)]; norm_num [sqDist]
  have e3 : Spec.dist (⟨4, 0⟩ : Pt) ⟨0, 0⟩ = 4 := by rw [dist_eq_iff (by norm_num)]; norm_num [sqDist]
  unfold Triangle.incircle
  dsimp only
  rw [distance_eq, distance_eq, distance_eq, e1, e2, e3]
  have : Real.sqrt 36 = 6 := by rw [show (36 : ℝ) = 6 ^ 2 by norm_num]; exact Real.sqrt_sq (by norm_num)
  norm_num [pySqrt, Res.ok_bind, this, mkCircle, Pt.ext_iff]

/-! ## C39 -/

/-- C39: the three excircles of a non-flat triangle touch the three side lines, and each center is on the other side of
the corresponding side. -/
theorem C39_excircles (T : Triangle) (h : ¬ Collinear T.A T.B T.C) :
    ∃ cA cB cC, T.excircles = .ok (cA, cB, cC) ∧
      (∀ c ∈ [cA, cB, cC], 0 < c.radius ∧ TangentLine c.center c.radius T.B T.C ∧
        TangentLine c.center c.radius T.C T.A ∧ TangentLine c.center c.radius T.A T.B) ∧
      OppositeSides T.B T.C T.A cA.center ∧ OppositeSides T.C T.A T.B cB.center ∧
      OppositeSides T.A T.B T.C cC.center := by
  obtain ⟨x, y, z, hx, hy, hz, ha, hb, hc, hS⟩ := ravi h
  have hS0 : 0 < |cross (T.B - T.A) (T.C - T.A)| := abs_pos.2 h
  have hS2 : 0 < cross (T.B - T.A) (T.C - T.A) ^ 2 := by rw [hS]; positivity
  unfold Triangle.excircles
  dsimp only
  rw [distance_eq, distance_eq, distance_eq, dist_comm T.B T.A, ha, hb, hc]
  rw [show -(y + z) + (z + x) + (x + y) = 2 * x by ring, show y + z - (z + x) + (x + y) = 2 * y by ring,
    show y + z + (z + x) - (x + y) = 2 * z by ring, show (y + z + (z + x) + (x + y)) / 2 = x + y + z by ring,
    show x + y + z - (y + z) = x by ring, show x + y + z - (z + x) = y by ring, show x + y + z - (x + y) = z by ring,
    if_neg (by push Not; exact ⟨by positivity, by positivity, by positivity⟩)]
  obtain ⟨S, eS⟩ : ∃ S, S = |cross (T.B - T.A) (T.C - T.A)| := ⟨_, rfl⟩
  have hS' : S ^ 2 = 4 * (x * y * z * (x + y + z)) := by rw [eS, sq_abs, hS]
  rw [← eS] at hS0
  have s1 : pySqrt ((x + y + z) * y * z / x) = .ok (S / (2 * x)) := by
    rw [show (x + y + z) * y * z / x = (S / (2 * x)) ^ 2 by rw [div_pow, hS']; field_simp; ring]
    unfold pySqrt
    rw [if_neg (not_lt.2 (sq_nonneg _)), Real.sqrt_sq (by positivity)]
  have s2 : pySqrt ((x + y + z) * x * z / y) = .ok (S / (2 * y)) := by
    rw [show (x + y + z) * x * z / y = (S / (2 * y)) ^ 2 by rw [div_pow, hS']; field_simp; ring]
    unfold pySqrt
    rw [if_neg (not_lt.2 (sq_nonneg _)), Real.sqrt_sq (by positivity)]
  have s3 : pySqrt ((x + y + z) * x * y / z) = .ok (S / (2 * z)) := by
    rw [show (x + y + z) * x * y / z = (S / (2 * z)) ^ 2 by rw [div_pow, hS']; field_simp; ring]
    unfold pySqrt
    rw [if_neg (not_lt.2 (sq_nonneg _)), Real.sqrt_sq (by positivity)]
  rw [s1, s2, s3]
  simp only [Res.ok_bind]
  rw [mkCircle_pos (by positivity), mkCircle_pos (by positivity), mkCircle_pos (by positivity)]
  simp only [Res.ok_bind]
  have hJA : ((-(y + z)) • T.A + (z + x) • T.B + (x + y) • T.C) / (2 * x) =
      ((-(y + z)) • T.A + (z + x) • T.B + (x + y) • T.C) / (2 * x) := rfl
  have hJB : ((y + z) • T.A - (z + x) • T.B + (x + y) • T.C) / (2 * y) =
      ((y + z) • T.A + (-(z + x)) • T.B + (x + y) • T.C) / (2 * y) := by
    ext <;> simp <;> ring
  have hJC : ((y + z) • T.A + (z + x) • T.B - (x + y) • T.C) / (2 * z) =
      ((y + z) • T.A + (z + x) • T.B + (-(x + y)) • T.C) / (2 * z) := by
    ext <;> simp <;> ring
  have dA : -(y + z) + (z + x) + (x + y) = 2 * x := by ring
  have dB : (y + z) + (-(z + x)) + (x + y) = 2 * y := by ring
  have dC : (y + z) + (z + x) + (-(x + y)) = 2 * z := by ring
  have nx : (2 * x) ≠ 0 := by positivity
  have ny : (2 * y) ≠ 0 := by positivity
  have nz : (2 * z) ≠ 0 := by positivity
  refine ⟨_, _, _, rfl, ?_, ?_, ?_, ?_⟩
  · intro c hc'
    simp only [List.mem_cons, List.not_mem_nil, or_false] at hc'
    rcases hc' with rfl | rfl | rfl
    · refine ⟨by dsimp only; positivity, ?_⟩
      apply tangent_sides h nx dA hJA
      all_goals
        try rw [ha]
        try rw [hb]
        try rw [hc]
        rw [← sq_abs (cross _ _), ← eS, div_pow]; field_simp
    · refine ⟨by dsimp only; positivity, ?_⟩
      apply tangent_sides h ny dB hJB
      all_goals
        try rw [ha]
        try rw [hb]
        try rw [hc]
        rw [← sq_abs (cross _ _), ← eS, div_pow]; field_simp
    · refine ⟨by dsimp only; positivity, ?_⟩
      apply tangent_sides h nz dC hJC
      all_goals
        try rw [ha]
        try rw [hb]
        try rw [hc]
        rw [← sq_abs (cross _ _), ← eS, div_pow]; field_simp
  · unfold OppositeSides
    rw [bary_cross_BC nx dA hJA, show cross (T.C - T.B) (T.A - T.B) = cross (T.B - T.A) (T.C - T.A) by
      simp only [cross, Pt.sub_x, Pt.sub_y]; ring]
    have : cross (T.B - T.A) (T.C - T.A) * (-(y + z) / (2 * x) * cross (T.B - T.A) (T.C - T.A)) =
      - ((y + z) / (2 * x) * cross (T.B - T.A) (T.C - T.A) ^ 2) := by ring
    rw [this, neg_lt_zero]; positivity
  · unfold OppositeSides
    dsimp only
    rw [bary_cross_CA ny dB hJB, show cross (T.A - T.C) (T.B - T.C) = cross (T.B - T.A) (T.C - T.A) by
      simp only [cross, Pt.sub_x, Pt.sub_y]; ring]
    have : cross (T.B - T.A) (T.C - T.A) * (-(z + x) / (2 * y) * cross (T.B - T.A) (T.C - T.A)) =
      - ((z + x) / (2 * y) * cross (T.B - T.A) (T.C - T.A) ^ 2) := by ring
    rw [this, neg_lt_zero]; positivity
  · unfold OppositeSides
    dsimp only
    rw [bary_cross_AB nz dC hJC]
    have : cross (T.B - T.A) (T.C - T.A) * (-(x + y) / (2 * z) * cross (T.B - T.A) (T.C - T.A)) =
      - ((x + y) / (2 * z) * cross (T.B - T.A) (T.C - T.A) ^ 2) := by ring
    rw [this, neg_lt_zero]; positivity

/-- The excircles of the 3-4-5 triangle; the first touches the line through `(4, 0)` and `(0, 3)` from the other side. -/
example : (⟨⟨0, 0⟩, ⟨4, 0⟩, ⟨0, 3⟩⟩ : Triangle).excircles = .ok (⟨⟨6, 6⟩, 6⟩, ⟨⟨-2, 2⟩, 2⟩, ⟨⟨3, -3⟩, 3⟩) ∧
    TangentLine ⟨6, 6⟩ 6 ⟨4, 0⟩ ⟨0, 3⟩ ∧ OppositeSides ⟨4, 0⟩ ⟨0, 3⟩ ⟨0, 0⟩ ⟨6, 6⟩ := by
  have h : (⟨⟨0, 0⟩, ⟨4, 0⟩, ⟨0, 3⟩⟩ : Triangle).excircles = .ok (⟨⟨6, 6⟩, 6⟩, ⟨⟨-2, 2⟩, 2⟩, ⟨⟨3, -3⟩, 3⟩) := by
    have e1 : Spec.dist (⟨4, 0⟩ : Pt) ⟨0, 3⟩ = 5 := by rw [dist_eq_iff (by norm_num)]; norm_num [sqDist]
    have e2 : Spec.dist (⟨0, 0⟩ : Pt) ⟨0, 3⟩ = 3 := by rw [dist_eq_iff (by norm_num)]; norm_num [sqDist]
    have e3 : Spec.dist (⟨4, 0⟩ : Pt) ⟨0, 0⟩ = 4 := by rw [dist_eq_iff (by norm_num)]; norm_num [sqDist]
    unfold Triangle.excircles
    dsimp only
    rw [distance_eq, distance_eq, distance_eq, e1, e2, e3]
    have s1 : Real.sqrt 36 = 6 := by rw [show (36 : ℝ) = 6 ^ 2 by norm_num]; exact Real.sqrt_sq (by norm_num)
    have s2 : Real.sqrt 4 = 2 := by rw [show (4 : ℝ) = 2 ^ 2 by norm_num]; exact Real.sqrt_sq (by norm_num)
    have s3 : Real.sqrt 9 = 3 := by rw [show (9 : ℝ) = 3 ^ 2 by norm_num]; exact Real.sqrt_sq (by norm_num)
    norm_num [pySqrt, Res.ok_bind, s1, s2, s3, mkCircle, Pt.ext_iff]
  obtain ⟨cA, cB, cC, h', ht, ho, -⟩ := C39_excircles ⟨⟨0, 0⟩, ⟨4, 0⟩, ⟨0, 3⟩⟩ (by norm_num [Collinear, cross])
  rw [h] at h'
  cases h'
  exact ⟨h, (ht ⟨⟨6, 6⟩, 6⟩ (by simp)).2.1, ho⟩

/-! ## C40 -/

/-- C40: the circumcircle of a non-flat triangle passes through the vertices and is the only circle doing so. -/
theorem C40_circumcircle (T : Triangle) (h : ¬ Collinear T.A T.B T.C) :
    ∃ c, T.circumcircle = .ok (some c) ∧ 0 < c.radius ∧ OnCircle c.center c.radius T.A ∧
      OnCircle c.center c.radius T.B ∧ OnCircle c.center c.radius T.C ∧
      ∀ O r, 0 < r → OnCircle O r T.A → OnCircle O r T.B → OnCircle O r T.C → O = c.center ∧ r = c.radius := by
  obtain ⟨h1, h2, h3⟩ := ne_of_not_collinear h
  have hf := flatness_eq T h1 h2
  have hf1 : dot (T.B - T.A) (T.C - T.A) ^ 2 /
      (dot (T.B - T.A) (T.C - T.A) ^ 2 + cross (T.B - T.A) (T.C - T.A) ^ 2) ≠ 1 := by
    intro e; rw [e] at hf; exact h ((flatness_one_iff T h1 h2).1 hf)
  obtain ⟨D, hD⟩ : ∃ D, D = T.A.x * (T.B.y - T.C.y) - T.A.y * (T.B.x - T.C.x) + (T.B.x * T.C.y - T.B.y * T.C.x) := ⟨_, rfl⟩
  have hD0 : D ≠ 0 := by
    intro h0; apply h; unfold Collinear; rw [← h0, hD]; simp only [cross, Pt.sub_x, Pt.sub_y]; ring
  have d1 : Matrix.det !![T.A.x, T.A.y, 1; T.B.x, T.B.y, 1; T.C.x, T.C.y, 1] = D := by
    rw [Matrix.det_fin_three, hD]; simp; ring
  obtain ⟨c, hc⟩ : ∃ c : Pt, c = (⟨Matrix.det !![dot1_ T.A, T.A.y, 1; dot1_ T.B, T.B.y, 1; dot1_ T.C, T.C.y, 1],
      -Matrix.det !![dot1_ T.A, T.A.x, 1; dot1_ T.B, T.B.x, 1; dot1_ T.C, T.C.x, 1]⟩ : Pt) / D / (2 : ℝ) := ⟨_, rfl⟩
  have cx : 2 * c.x * D = (T.A.x ^ 2 + T.A.y ^ 2) * (T.B.y - T.C.y) + (T.B.x ^ 2 + T.B.y ^ 2) * (T.C.y - T.A.y) +
      (T.C.x ^ 2 + T.C.y ^ 2) * (T.A.y - T.B.y) := by
    rw [hc]; simp only [Pt.div_x]; field_simp; rw [Matrix.det_fin_three]; simp [dot1_, dot_]; ring
  have cy : 2 * c.y * D = -((T.A.x ^ 2 + T.A.y ^ 2) * (T.B.x - T.C.x) + (T.B.x ^ 2 + T.B.y ^ 2) * (T.C.x - T.A.x) +
      (T.C.x ^ 2 + T.C.y ^ 2) * (T.A.x - T.B.x)) := by
    rw [hc]; simp only [Pt.div_y]; field_simp; rw [Matrix.det_fin_three]; simp [dot1_, dot_]; ring
  have oB : sqDist T.B c = sqDist T.A c := by
    have : (sqDist T.B c - sqDist T.A c) * D = 0 := by
      simp only [sqDist]
      have : ((T.B.x - c.x) ^ 2 + (T.B.y - c.y) ^ 2 - ((T.A.x - c.x) ^ 2 + (T.A.y - c.y) ^ 2)) * D =
        ((T.B.x ^ 2 + T.B.y ^ 2) - (T.A.x ^ 2 + T.A.y ^ 2)) * D - (T.B.x - T.A.x) * (2 * c.x * D) - (T.B.y - T.A.y) * (2 * c.y * D) := by ring
      rw [this, cx, cy, hD]; ring
    linarith [(mul_eq_zero.1 this).resolve_right hD0]
  have oC : sqDist T.C c = sqDist T.A c := by
    have : (sqDist T.C c - sqDist T.A c) * D = 0 := by
      simp only [sqDist]
      have : ((T.C.x - c.x) ^ 2 + (T.C.y - c.y) ^ 2 - ((T.A.x - c.x) ^ 2 + (T.A.y - c.y) ^ 2)) * D =
        ((T.C.x ^ 2 + T.C.y ^ 2) - (T.A.x ^ 2 + T.A.y ^ 2)) * D - (T.C.x - T.A.x) * (2 * c.x * D) - (T.C.y - T.A.y) * (2 * c.y * D) := by ring
      rw [this, cx, cy, hD]; ring
    linarith [(mul_eq_zero.1 this).resolve_right hD0]
  have hcA : c ≠ T.A := by
    intro e
    rw [e] at oB
    have : sqDist T.B T.A = 0 := by rw [oB]; simp [sqDist]
    exact h1 (sqDist_eq_zero.1 this).symm
  have hpos := dist_pos_of_ne hcA
  have hrun : T.circumcircle = .ok (some ⟨c, Spec.dist c T.A⟩) := by
    unfold Triangle.circumcircle
    rw [hf, Res.ok_bind]
    dsimp only
    rw [if_neg hf1, d1, if_neg hD0, ← hc, distance_eq, mkCircle_pos hpos]
    rfl
  refine ⟨_, hrun, hpos, ?_, ?_, ?_, ?_⟩
  · unfold OnCircle; rw [dist_sq, sqDist_comm]
  · unfold OnCircle; rw [dist_sq, oB, sqDist_comm]
  · unfold OnCircle; rw [dist_sq, oC, sqDist_comm]
  · intro O r hr oA' oB' oC'
    have hO : O = c := by
      unfold OnCircle sqDist at oA' oB' oC'
      have k1 : 2 * (T.B.x - T.A.x) * O.x + 2 * (T.B.y - T.A.y) * O.y = T.B.x ^ 2 + T.B.y ^ 2 - (T.A.x ^ 2 + T.A.y ^ 2) := by
        linear_combination oA' - oB'
      have k2 : 2 * (T.C.x - T.A.x) * O.x + 2 * (T.C.y - T.A.y) * O.y = T.C.x ^ 2 + T.C.y ^ 2 - (T.A.x ^ 2 + T.A.y ^ 2) := by
        linear_combination oA' - oC'
      ext
      · apply mul_right_cancel₀ hD0
        have : 2 * O.x * D = 2 * c.x * D := by
          rw [cx, hD]
          linear_combination (T.C.y - T.A.y) * k1 - (T.B.y - T.A.y) * k2
        linarith
      · apply mul_right_cancel₀ hD0
        have : 2 * O.y * D = 2 * c.y * D := by
          rw [cy, hD]
          linear_combination -(T.C.x - T.A.x) * k1 + (T.B.x - T.A.x) * k2
        linarith
    refine ⟨hO, ?_⟩
    rw [hO] at oA'
    dsimp only
    rw [eq_comm, dist_eq_iff hr.le, sqDist_comm]; exact oA'

/-- C40: a flat triangle with distinct vertices has no circumcircle: the result is `None`. -/
theorem C40_circumcircle_flat (T : Triangle) (h : Collinear T.A T.B T.C) (h1 : T.A ≠ T.B) (h2 : T.A ≠ T.C) :
    T.circumcircle = .ok none := by
  unfold Triangle.circumcircle
  rw [(flatness_one_iff T h1 h2).2 h, Res.ok_bind, if_pos rfl]
  rfl

example : ∃ c, (⟨⟨0, 0⟩, ⟨4, 0⟩, ⟨0, 3⟩⟩ : Triangle).circumcircle = .ok (some c) ∧ c.center = ⟨2, 3 / 2⟩ := by
  obtain ⟨c, h1, h2, h3, h4, h5, h6⟩ := C40_circumcircle ⟨⟨0, 0⟩, ⟨4, 0⟩, ⟨0, 3⟩⟩ (by norm_num [Collinear, cross])
  refine ⟨c, h1, ?_⟩
  rw [← (h6 ⟨2, 3 / 2⟩ (5 / 2) (by norm_num) (by norm_num [OnCircle, sqDist]) (by norm_num [OnCircle, sqDist])
    (by norm_num [OnCircle, sqDist])).1]

/-! ## C41 -/

/-- C41: for distinct vertices (flat or not) the vertices of the orthic triangle are the feet of the altitudes. -/
theorem C41_orthic (T : Triangle) (h1 : T.A ≠ T.B) (h2 : T.A ≠ T.C) (h3 : T.B ≠ T.C) :
    ∃ H, T.orthic_triangle = .ok H ∧
      OnLine T.B T.C H.A ∧ Perp (H.A - T.A) (T.C - T.B) ∧
      OnLine T.C T.A H.B ∧ Perp (H.B - T.B) (T.A - T.C) ∧
      OnLine T.A T.B H.C ∧ Perp (H.C - T.C) (T.B - T.A) := by
  have pa := dist_pos_of_ne h3
  have pb := dist_pos_of_ne h2
  have pc := dist_pos_of_ne h1
  have a2 := dist_sq T.B T.C
  have b2 := dist_sq T.A T.C
  have c2 := dist_sq T.A T.B
  unfold Triangle.orthic_triangle
  dsimp only
  rw [distance_eq, distance_eq, distance_eq, dist_comm T.B T.A]
  obtain ⟨a, ea⟩ : ∃ a, a = Spec.dist T.B T.C := ⟨_, rfl⟩
  obtain ⟨b, eb⟩ : ∃ b, b = Spec.dist T.A T.C := ⟨_, rfl⟩
  obtain ⟨c, ec⟩ : ∃ c, c = Spec.dist T.A T.B := ⟨_, rfl⟩
  rw [← ea] at a2 pa ⊢; rw [← eb] at b2 pb ⊢; rw [← ec] at c2 pc ⊢
  obtain ⟨dA, edA⟩ : ∃ d, d = dot_ (T.C - T.A) (T.B - T.A) := ⟨_, rfl⟩
  obtain ⟨dB, edB⟩ : ∃ d, d = dot_ (T.C - T.B) (T.A - T.B) := ⟨_, rfl⟩
  obtain ⟨dC, edC⟩ : ∃ d, d = dot_ (T.A - T.C) (T.B - T.C) := ⟨_, rfl⟩
  rw [← edA, ← edB, ← edC]
  have sA : dB + dC = a ^ 2 := by
    rw [a2, edB, edC]; simp only [dot_, sqDist, Pt.sub_x, Pt.sub_y]; ring
  have sB : dA + dC = b ^ 2 := by
    rw [b2, edA, edC]; simp only [dot_, sqDist, Pt.sub_x, Pt.sub_y]; ring
  have sC : dA + dB = c ^ 2 := by
    rw [c2, edA, edB]; simp only [dot_, sqDist, Pt.sub_x, Pt.sub_y]; ring
  have w1 : b * (dC / a / b) = dC / a := by field_simp
  have w2 : c * (dB / a / c) = dB / a := by field_simp
  have w3 : a * (dC / a / b) = dC / b := by field_simp
  have w4 : c * (dA / b / c) = dA / b := by field_simp
  have w5 : a * (dB / a / c) = dB / c := by field_simp
  have w6 : b * (dA / b / c) = dA / c := by field_simp
  have t1 : dC / a + dB / a = a := by field_simp; linarith
  have t2 : dC / b + dA / b = b := by field_simp; linarith
  have t3 : dB / c + dA / c = c := by field_simp; linarith
  rw [w1, w2, w3, w4, w5, w6, t1, t2, t3, if_neg (by push Not; exact ⟨pa.ne', pb.ne', pc.ne'⟩),
    if_neg (by push Not; exact ⟨pa.ne', pb.ne', pc.ne'⟩)]
  refine ⟨_, rfl, ?_, ?_, ?_, ?_, ?_, ?_⟩
  · refine ⟨dB / a ^ 2, ?_⟩
    have : dC = a ^ 2 - dB := by linarith
    ext <;> simp only [Pt.div_x, Pt.div_y, Pt.add_x, Pt.add_y, Pt.smul_x, Pt.smul_y, Pt.sub_x, Pt.sub_y] <;> rw [this] <;> field_simp <;> ring
  · have hC : dC = a ^ 2 - dB := by linarith
    unfold Perp dot
    simp only [Pt.div_x, Pt.div_y, Pt.add_x, Pt.add_y, Pt.smul_x, Pt.smul_y, Pt.sub_x, Pt.sub_y]
    rw [hC]; field_simp; rw [a2, edB]; simp only [dot_, sqDist, Pt.sub_x, Pt.sub_y]; ring
  · refine ⟨dC / b ^ 2, ?_⟩
    have : dA = b ^ 2 - dC := by linarith
    ext <;> simp only [Pt.div_x, Pt.div_y, Pt.add_x, Pt.add_y, Pt.smul_x, Pt.smul_y, Pt.sub_x, Pt.sub_y] <;> rw [this] <;> field_simp <;> ring
  · have hA : dA = b ^ 2 - dC := by linarith
    unfold Perp dot
    simp only [Pt.div_x, Pt.div_y, Pt.add_x, Pt.add_y, Pt.smul_x, Pt.smul_y, Pt.sub_x, Pt.sub_y]
    rw [hA]; field_simp; rw [b2, edC]; simp only [dot_, sqDist, Pt.sub_x, Pt.sub_y]; ring
  · refine ⟨dA / c ^ 2, ?_⟩
    have : dB = c ^ 2 - dA := by linarith
    ext <;> simp only [Pt.div_x, Pt.div_y, Pt.add_x, Pt.add_y, Pt.smul_x, Pt.smul_y, Pt.sub_x, Pt.sub_y] <;> rw [this] <;> field_simp <;> ring
  · have hB : dB = c ^ 2 - dA := by linarith
    unfold Perp dot
    simp only [Pt.div_x, Pt.div_y, Pt.add_x, Pt.add_y, Pt.smul_x, Pt.smul_y, Pt.sub_x, Pt.sub_y]
    rw [hB]; field_simp; rw [c2, edA]; simp only [dot_, sqDist, Pt.sub_x, Pt.sub_y]; ring

/-- The foot of the altitude from the right angle of the 3-4-5 triangle is not a vertex. -/
example : OnLine (⟨4, 0⟩ : Pt) ⟨0, 3⟩ ⟨36 / 25, 48 / 25⟩ ∧
    Perp ((⟨36 / 25, 48 / 25⟩ : Pt) - ⟨0, 0⟩) ((⟨0, 3⟩ : Pt) - ⟨4, 0⟩) :=
  ⟨⟨16 / 25, by ext <;> norm_num⟩, by norm_num [Perp, dot]⟩

/-! ## C42 -/

/-- Distance from a vertex to a point given by weights. -/
theorem bary_dist {A B C : Pt} {u v w n a b c : ℝ} (hn : n ≠ 0) (h : u + v + w = n)
    (ha : sqDist B C = a ^ 2) (hb : sqDist A C = b ^ 2) (hc : sqDist A B = c ^ 2) :
    n ^ 2 * sqDist A ((u • A + v • B + w • C) / n) = v ^ 2 * c ^ 2 + w ^ 2 * b ^ 2 + v * w * (b ^ 2 + c ^ 2 - a ^ 2) := by
  rw [← ha, ← hb, ← hc]
  simp only [sqDist, Pt.div_x, Pt.div_y, Pt.add_x, Pt.add_y, Pt.smul_x, Pt.smul_y]
  have : ∀ p q : ℝ, n ^ 2 * ((p - q / n) ^ 2) = (n * p - q) ^ 2 := by intro p q; field_simp
  rw [mul_add, this, this, ← h]; ring

/-- The distance from a vertex to the equal detour point is `Δ/W + x`. -/
theorem detour_dist {A B C : Pt} {x y z S : ℝ} (hx : 0 < x) (hy : 0 < y) (hz : 0 < z) (hS0 : 0 < S)
    (ha : sqDist B C = (y + z) ^ 2) (hb : sqDist A C = (z + x) ^ 2) (hc : sqDist A B = (x + y) ^ 2)
    (hS : S ^ 2 = x * y * z * (x + y + z)) {u v w : ℝ} (hu : u = y + z + S / x) (hv : v = z + x + S / y)
    (hw : w = x + y + S / z) :
    Spec.dist A ((u • A + v • B + w • C) / (u + v + w)) = S / (u + v + w) + x := by
  have hn : 0 < u + v + w := by rw [hu, hv, hw]; positivity
  rw [dist_eq_iff (by positivity)]
  have e := bary_dist (u := u) (v := v) (w := w) hn.ne' rfl ha hb hc
  have e2 : v ^ 2 * (x + y) ^ 2 + w ^ 2 * (z + x) ^ 2 + v * w * ((z + x) ^ 2 + (x + y) ^ 2 - (y + z) ^ 2) =
      (S + x * (u + v + w)) ^ 2 := by
    have hv' : v * y = (z + x) * y + S := by rw [hv]; field_simp
    have hw' : w * z = (x + y) * z + S := by rw [hw]; field_simp
    have hu' : u * x = (y + z) * x + S := by rw [hu]; field_simp
    have hyz : (0 : ℝ) < (y * z) ^ 2 := by positivity
    apply mul_left_cancel₀ hyz.ne'
    have l : (y * z) ^ 2 * (v ^ 2 * (x + y) ^ 2 + w ^ 2 * (z + x) ^ 2 + v * w * ((z + x) ^ 2 + (x + y) ^ 2 - (y + z) ^ 2)) =
      (v * y) ^ 2 * z ^ 2 * (x + y) ^ 2 + (w * z) ^ 2 * y ^ 2 * (z + x) ^ 2 +
        (v * y) * (w * z) * (y * z) * ((z + x) ^ 2 + (x + y) ^ 2 - (y + z) ^ 2) := by ring
    have r : (y * z) ^ 2 * (S + x * (u + v + w)) ^ 2 = (y * z * S + y * z * (u * x) + x * z * (v * y) + x * y * (w * z)) ^ 2 := by ring
    rw [l, r, hv', hw', hu']
    linear_combination (z ^ 2 * (x + y) ^ 2 + y ^ 2 * (z + x) ^ 2 + y * z * ((z + x) ^ 2 + (x + y) ^ 2 - (y + z) ^ 2) -
      (2 * y * z + x * z + x * y) ^ 2) * hS
  rw [e2] at e
  have : (u + v + w) ^ 2 * (S / (u + v + w) + x) ^ 2 = (S + x * (u + v + w)) ^ 2 := by
    rw [← mul_pow]; congr 1; field_simp
  rw [← this] at e
  exact mul_left_cancel₀ (by positivity) e

/-- C42: the point returned for a non-flat triangle has the same detour for the three sides, namely the returned
number. -/
theorem C42_equal_detour (T : Triangle) (h : ¬ Collinear T.A T.B T.C) :
    ∃ P d, T.equal_detour_point = .ok (P, d) ∧ Spec.dist P T.A + Spec.dist P T.B - T.c = d ∧
      Spec.dist P T.B + Spec.dist P T.C - T.a = d ∧ Spec.dist P T.C + Spec.dist P T.A - T.b = d := by
  obtain ⟨x, y, z, hx, hy, hz, ha, hb, hc, hS⟩ := ravi h
  have hS0 : 0 < |cross (T.B - T.A) (T.C - T.A)| := abs_pos.2 h
  obtain ⟨S, eS⟩ : ∃ S, S = |cross (T.B - T.A) (T.C - T.A)| / 2 := ⟨_, rfl⟩
  have hS' : S ^ 2 = x * y * z * (x + y + z) := by rw [eS, div_pow, sq_abs, hS]; ring
  have hSp : 0 < S := by rw [eS]; positivity
  unfold Triangle.equal_detour_point Triangle.a Triangle.b Triangle.c
  dsimp only
  simp only [distance_eq]
  rw [dist_comm T.B T.A, ha, hb, hc, heron_sqrt hx hy hz hS, Res.ok_bind, ← eS]
  rw [show z + x + (x + y) - (y + z) = 2 * x by ring, show x + y + (y + z) - (z + x) = 2 * y by ring,
    show y + z + (z + x) - (x + y) = 2 * z by ring, mul_div_mul_left _ _ two_ne_zero, mul_div_mul_left _ _ two_ne_zero,
    mul_div_mul_left _ _ two_ne_zero, if_neg (by push Not; exact ⟨by positivity, by positivity, by positivity⟩),
    if_neg (by positivity)]
  obtain ⟨u, hu⟩ : ∃ u, u = y + z + S / x := ⟨_, rfl⟩
  obtain ⟨v, hv⟩ : ∃ v, v = z + x + S / y := ⟨_, rfl⟩
  obtain ⟨w, hw⟩ : ∃ w, w = x + y + S / z := ⟨_, rfl⟩
  rw [← hu, ← hv, ← hw]
  have a2 : sqDist T.B T.C = (y + z) ^ 2 := by rw [← dist_sq, ha]
  have b2 : sqDist T.A T.C = (z + x) ^ 2 := by rw [← dist_sq, hb]
  have c2 : sqDist T.A T.B = (x + y) ^ 2 := by rw [← dist_sq, hc]
  have kA := detour_dist hx hy hz hSp a2 b2 c2 hS' hu hv hw
  have kB : Spec.dist T.B ((u • T.A + v • T.B + w • T.C) / (u + v + w)) = S / (u + v + w) + y := by
    have := detour_dist (A := T.B) (B := T.C) (C := T.A) hy hz hx hSp
      (by rw [sqDist_comm, b2]) (by rw [sqDist_comm, c2]) (by rw [a2]) (by rw [hS']; ring) hv hw hu
    rw [show u + v + w = v + w + u by ring, ← this]
    congr 2
    ext <;> simp <;> ring
  have kC : Spec.dist T.C ((u • T.A + v • T.B + w • T.C) / (u + v + w)) = S / (u + v + w) + z := by
    have := detour_dist (A := T.C) (B := T.A) (C := T.B) hz hx hy hSp
      (by rw [c2]) (by rw [sqDist_comm, a2]) (by rw [sqDist_comm, b2]) (by rw [hS']; ring) hw hu hv
    rw [show u + v + w = w + u + v by ring, ← this]
    congr 2
    ext <;> simp <;> ring
  refine ⟨_, _, rfl, ?_, ?_, ?_⟩
  · rw [kA, kB, dist_comm _ T.A, dist_comm _ T.B, kA, kB]
  · rw [kA, kB, dist_comm _ T.B, dist_comm _ T.C, kB, kC]; ring
  · rw [kA, kB, dist_comm _ T.A, dist_comm _ T.C, kA, kC]; ring

/-- For the triangle `(0, 0), (4, 0), (0, 3)`: the three detours are the same. -/
example : ∃ P d, (⟨⟨0, 0⟩, ⟨4, 0⟩, ⟨0, 3⟩⟩ : Triangle).equal_detour_point = .ok (P, d) ∧
    Spec.dist P ⟨0, 0⟩ + Spec.dist P ⟨4, 0⟩ - 4 = d ∧ Spec.dist P ⟨4, 0⟩ + Spec.dist P ⟨0, 3⟩ - 5 = d ∧
    Spec.dist P ⟨0, 3⟩ + Spec.dist P ⟨0, 0⟩ - 3 = d := by
  obtain ⟨P, d, h, h1, h2, h3⟩ := C42_equal_detour ⟨⟨0, 0⟩, ⟨4, 0⟩, ⟨0, 3⟩⟩ (by norm_num [Collinear, cross])
  have ec : (⟨⟨0, 0⟩, ⟨4, 0⟩, ⟨0, 3⟩⟩ : Triangle).c = 4 := by
    unfold Triangle.c; rw [distance_eq, dist_eq_iff (by norm_num)]; norm_num [sqDist]
  have ea : (⟨⟨0, 0⟩, ⟨4, 0⟩, ⟨0, 3⟩⟩ : Triangle).a = 5 := by
    unfold Triangle.a; rw [distance_eq, dist_eq_iff (by norm_num)]; norm_num [sqDist]
  have eb : (⟨⟨0, 0⟩, ⟨4, 0⟩, ⟨0, 3⟩⟩ : Triangle).b = 3 := by
    unfold Triangle.b; rw [distance_eq, dist_eq_iff (by norm_num)]; norm_num [sqDist]
  rw [ec] at h1
  rw [ea] at h2
  rw [eb] at h3
  exact ⟨P, d, h, h1, h2, h3⟩
