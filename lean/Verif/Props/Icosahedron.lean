import Verif.Props.IcosahedralRun

/-!
# C109: the icosahedron of `ApollonianIcosahedralGasket.py`
-/

open Spec Real Classical TriGasket Icosahedral

namespace Icosahedral

theorem forall_faces {P : Fin 12 × Fin 12 × Fin 12 → Prop} (h : P (0, 2, 8) ∧ P (0, 8, 4) ∧ P (0, 4, 6) ∧ P (0, 6, 9) ∧ P (0, 9, 2) ∧ P (3, 11, 1) ∧
    P (3, 1, 10) ∧ P (3, 10, 5) ∧ P (3, 5, 7) ∧ P (3, 7, 11) ∧ P (8, 2, 5) ∧ P (4, 8, 10) ∧ P (6, 4, 1) ∧ P (9, 6, 11) ∧ P (2, 9, 7) ∧ P (1, 11, 6) ∧
    P (10, 1, 4) ∧ P (5, 10, 8) ∧ P (7, 5, 2) ∧ P (11, 7, 9)) : ∀ f ∈ faces, P f := by
  unfold faces
  simpa using h

/-- The lengths of the sides. -/
theorem side_lengths (t : ℝ) : ∀ f ∈ faces, ∀ e ∈ sides f, sqDist3 (vertices t e.1) (vertices t e.2) = 4 * t ^ 2 ∨
    sqDist3 (vertices t e.1) (vertices t e.2) = 2 - 2 * t + 2 * t ^ 2 := by
  have key : ∀ i j, (i, j) ∈ faces.flatMap sides → sqDist3 (vertices t i) (vertices t j) = 4 * t ^ 2 ∨
      sqDist3 (vertices t i) (vertices t j) = 2 - 2 * t + 2 * t ^ 2 := by
    intro i j h
    fin_cases i <;> fin_cases j <;> first | exact absurd h (by decide) | skip
    all_goals
      simp only [sqDist3, vertices]
      dsimp
      first | (left; ring; done) | (right; ring; done)
  intro f hf e he
  exact key e.1 e.2 (List.mem_flatMap.2 ⟨f, hf, he⟩)

theorem convex_faces {t : ℝ} (h0 : 0 < t) (h1 : t < 1) : ∀ f ∈ faces, ∀ i, i ≠ f.1 → i ≠ f.2.1 → i ≠ f.2.2 →
    vol3 (vertices t f.2.1 - vertices t f.1) (vertices t f.2.2 - vertices t f.1) (vertices t i - vertices t f.1) < 0 := by
  have p1 : 0 < t * t := by positivity
  have p2 : 0 < t * (1 - t) := mul_pos h0 (by linarith)
  have p3 : 0 < t * t * (1 - t) := mul_pos p1 (by linarith)
  have p4 : 0 < t * (1 - t) * (1 - t) := mul_pos p2 (by linarith)
  have p5 : 0 < (1 - t) * (1 - t) * (1 - t) := by have : 0 < 1 - t := by linarith
                                                  positivity
  have p6 : 0 < (1 - t) * (1 - t) := by have : 0 < 1 - t := by linarith
                                        positivity
  have p7 : 0 < t * t * t := by positivity
  intro f hf i
  revert f
  apply forall_faces
  fin_cases i
  all_goals
    refine ⟨?_, ?_, ?_, ?_, ?_, ?_, ?_, ?_, ?_, ?_, ?_, ?_, ?_, ?_, ?_, ?_, ?_, ?_, ?_, ?_⟩
  all_goals
    intro n1 n2 n3
    first | exact absurd rfl n1 | exact absurd rfl n2 | exact absurd rfl n3 | skip
  all_goals
    simp only [vol3, vertices, Pt3.sub_x, Pt3.sub_y, Pt3.sub_z]
    dsimp
    linarith

end Icosahedral

/-- C109: for every number between 0 and 1 in place of `0.618033988749895`, the vertices and the faces of the script are a convex polyhedron, the icosahedron. -/
theorem C109_icosahedron (t : ℝ) (h0 : 0 < t) (h1 : t < 1) : IsIcosahedron (vertices t) faces :=
  ⟨rfl, by decide +kernel, by decide +kernel, by decide +kernel, convex_faces h0 h1⟩

/-- The golden number is between `0` and `1`. -/
example : IsIcosahedron (vertices ((√5 - 1) / 2)) faces := by
  have h1 : √5 < 3 := by rw [Real.sqrt_lt' (by norm_num)]; norm_num
  have h2 : 1 < √5 := by rw [Real.lt_sqrt (by norm_num)]; norm_num
  exact C109_icosahedron _ (by linarith) (by linarith)

/-- C109: the faces are equilateral exactly for the golden number; the sides have then length `2 t`. -/
theorem C109_regular (t : ℝ) (h0 : 0 < t) : (∀ e ∈ faces.flatMap sides, ∀ e' ∈ faces.flatMap sides,
    sqDist3 (vertices t e.1) (vertices t e.2) = sqDist3 (vertices t e'.1) (vertices t e'.2)) ↔ t = (√5 - 1) / 2 := by
  have s5 : √5 ^ 2 = 5 := Real.sq_sqrt (by norm_num)
  have s0 : 0 ≤ √5 := Real.sqrt_nonneg 5
  constructor
  · intro h
    have e := h (0, 2) (by decide) (0, 8) (by decide)
    unfold sqDist3 vertices at e
    dsimp at e
    have : (t - (√5 - 1) / 2) * (t + (√5 + 1) / 2) = 0 := by linear_combination e / 2 - s5 / 4
    rcases mul_eq_zero.1 this with k | k
    · linarith
    · exfalso
      linarith
  · intro ht
    have t2 : t ^ 2 = 1 - t := by rw [ht]; linear_combination s5 / 4
    have key : ∀ e ∈ faces.flatMap sides, sqDist3 (vertices t e.1) (vertices t e.2) = 4 * t ^ 2 := by
      intro e he
      obtain ⟨f, hf, he⟩ := List.mem_flatMap.1 he
      rcases side_lengths t f hf e he with k | k
      · exact k
      · rw [k]; linarith
    intro e he e' he'
    rw [key e he, key e' he']

/-- With `1/2` in place of the golden number the faces are not equilateral. -/
example : ¬ ∀ e ∈ faces.flatMap sides, ∀ e' ∈ faces.flatMap sides,
    sqDist3 (vertices (1 / 2) e.1) (vertices (1 / 2) e.2) = sqDist3 (vertices (1 / 2) e'.1) (vertices (1 / 2) e'.2) := by
  rw [C109_regular (1 / 2) (by norm_num)]
  intro h
  have h5 : √5 = 2 := by linarith
  have := Real.sq_sqrt (show (0 : ℝ) ≤ 5 by norm_num)
  rw [h5] at this
  norm_num at this

/-- C109, the faces of the script are not equilateral (the golden number is rounded), but the squares of the sides differ by less than `1e-14`. -/
theorem C109_regular_counterexample : (∃ e ∈ faces.flatMap sides, ∃ e' ∈ faces.flatMap sides,
      sqDist3 (vertices 0.618033988749895 e.1) (vertices 0.618033988749895 e.2) ≠ sqDist3 (vertices 0.618033988749895 e'.1) (vertices 0.618033988749895 e'.2)) ∧
    ∀ e ∈ faces.flatMap sides, ∀ e' ∈ faces.flatMap sides,
      |sqDist3 (vertices 0.618033988749895 e.1) (vertices 0.618033988749895 e.2) - sqDist3 (vertices 0.618033988749895 e'.1) (vertices 0.618033988749895 e'.2)| <
        1 / 10 ^ 14 := by
  constructor
  · refine ⟨(0, 2), by decide, (0, 8), by decide, ?_⟩
    unfold sqDist3 vertices
    dsimp
    norm_num
  · intro e he e' he'
    obtain ⟨f, hf, he⟩ := List.mem_flatMap.1 he
    obtain ⟨f', hf', he'⟩ := List.mem_flatMap.1 he'
    rw [abs_lt]
    rcases side_lengths 0.618033988749895 f hf e he with k | k <;> rcases side_lengths 0.618033988749895 f' hf' e' he' with k' | k' <;>
      rw [k, k'] <;> constructor <;> norm_num

/-- C109: on a triangle of space with sides between `m` and `1.01 m`, not too small, the drawing finishes for at most five passes. -/
theorem C109_finishes (h : ℝ) (A B C : Pt3) (m : ℝ) (hm : 1 / 10 ≤ m) (hs : ∀ e ∈ [(A, B), (B, C), (C, A)],
    m ^ 2 ≤ sqDist3 e.1 e.2 ∧ sqDist3 e.1 e.2 ≤ (1.01 * m) ^ 2) (hn : ¬ Collinear3 A B C) (depth : ℕ) (hd : depth ≤ 5) :
    ∃ L, drawFace h A B C depth = .ok L := by
  simp only [List.mem_cons, List.not_mem_nil, or_false, forall_eq_or_imp, forall_eq] at hs
  obtain ⟨⟨c1, c2⟩, ⟨a1, a2⟩, ⟨b1, b2⟩⟩ := hs
  obtain ⟨p, q, n, a, b, c, f, ha, hc, hB, hC, e⟩ := transfo_ok hn
  have m0 : 0 < m := by linarith
  have e0 : at3 A p q n (flat3 ⟨0, 0⟩) = A := at3_zero
  have e1 : at3 A p q n (flat3 ⟨a, 0⟩) = B := by rw [hB]; unfold at3 flat3; ext <;> simp
  have e2 : at3 A p q n (flat3 ⟨b, c⟩) = C := by rw [hC]; unfold at3 flat3; ext <;> simp
  have fl : ∀ P Q : Pt, sqDist3 (flat3 P) (flat3 Q) = sqDist P Q := by intro P Q; unfold sqDist3 flat3 sqDist; ring
  have d1 : sqDist3 A B = sqDist ⟨0, 0⟩ ⟨a, 0⟩ := by rw [← fl, ← at3_sqDist (A := A) f (flat3 ⟨0, 0⟩) (flat3 ⟨a, 0⟩), e0, e1]
  have d2 : sqDist3 B C = sqDist ⟨a, 0⟩ ⟨b, c⟩ := by rw [← fl, ← at3_sqDist (A := A) f (flat3 ⟨a, 0⟩) (flat3 ⟨b, c⟩), e1, e2]
  have d3 : sqDist3 C A = sqDist ⟨0, 0⟩ ⟨b, c⟩ := by rw [sqDist_comm, ← fl, ← at3_sqDist (A := A) f (flat3 ⟨b, c⟩) (flat3 ⟨0, 0⟩), e0, e2]
  rw [d1] at c1 c2
  rw [d2] at a1 a2
  rw [d3] at b1 b2
  have root : ∀ {P Q : Pt}, m ^ 2 ≤ sqDist P Q → sqDist P Q ≤ (1.01 * m) ^ 2 → m ≤ Spec.dist P Q ∧ Spec.dist P Q ≤ 1.01 * m := by
    intro P Q k1 k2
    unfold Spec.dist
    exact ⟨Real.le_sqrt_of_sq_le k1, (Real.sqrt_le_left (by linarith)).2 k2⟩
  have coord : ∀ {x y : ℝ}, x ^ 2 + y ^ 2 ≤ (1.01 * m) ^ 2 → |x| ≤ 2 * m ∧ |y| ≤ 2 * m := by
    intro x y k
    constructor
    · exact abs_le_of_sq_le_sq (by nlinarith [sq_nonneg y]) (by linarith)
    · exact abs_le_of_sq_le_sq (by nlinarith [sq_nonneg x]) (by linarith)
  obtain ⟨L, hL⟩ := C101_near_equilateral ⟨0, 0⟩ ⟨a, 0⟩ ⟨b, c⟩ m hm (root c1 c2).1 (root c1 c2).2 (root a1 a2).1 (root a1 a2).2 (root b1 b2).1
    (root b1 b2).2 (by
      rintro X (rfl | rfl | rfl)
      · simp only [abs_zero]; constructor <;> linarith
      · exact coord (by unfold sqDist at c2; dsimp only at c2; linarith)
      · exact coord (by unfold sqDist at b2; dsimp only at b2; linarith)) depth hd
  unfold drawFace
  rw [e, Res.ok_bind]
  dsimp only
  rw [hL, Res.ok_bind]
  exact ⟨_, rfl⟩

/-- The face with the vertices `e₁`, `e₂`, `e₃`. -/
example : ∃ L, drawFace 1 ⟨1, 0, 0⟩ ⟨0, 1, 0⟩ ⟨0, 0, 1⟩ 5 = .ok L := by
  refine C109_finishes 1 _ _ _ 1.41 (by norm_num) ?_ ?_ 5 (le_refl _)
  · intro e he
    simp only [List.mem_cons, List.not_mem_nil, or_false] at he
    rcases he with rfl | rfl | rfl <;> norm_num [sqDist3]
  · rintro (h | ⟨t, h⟩)
    · norm_num at h
    · have := congrArg Pt3.z h
      norm_num at this

theorem Icosahedral.vol3_normal {b c n x : Pt3} (nn : dot3 n n = 1) (nb : dot3 n b = 0) (nc : dot3 n c = 0) : vol3 b c x = vol3 b c n * dot3 n x := by
  unfold dot3 at *
  unfold vol3
  linear_combination (-(b.x * (c.y * x.z - c.z * x.y) - b.y * (c.x * x.z - c.z * x.x) + b.z * (c.x * x.y - c.y * x.x))) * nn +
    (b.x * (n.y * x.z - n.z * x.y) + b.y * (n.z * x.x - n.x * x.z) + b.z * (n.x * x.y - n.y * x.x)) * nc -
    (c.x * (n.y * x.z - n.z * x.y) + c.y * (n.z * x.x - n.x * x.z) + c.z * (n.x * x.y - n.y * x.x)) * nb

/-- C109, the script: with at most five passes (it makes one) it draws the twenty faces; the surfaces drawn on each of them are a packing of the face by
flattened balls, around its normal vector that points to the outside. -/
theorem C109_script (h : ℝ) (hh : 0 < h) (depth : ℕ) (hd : depth ≤ 5) : ∃ LL, script h 0.618033988749895 depth = .ok LL ∧
    List.Forall₂ (fun f L => ∃ n, UnitNormal (vertices 0.618033988749895 f.1) (vertices 0.618033988749895 f.2.1) (vertices 0.618033988749895 f.2.2) n ∧
      (∀ i, dot3 n (vertices 0.618033988749895 i - vertices 0.618033988749895 f.1) ≤ 0) ∧
      ∃ S : List (Pt3 × ℝ), L = (S.map fun c => (lens c.1 c.2 n h).edge) ∧
      LensPacking (vertices 0.618033988749895 f.1) (vertices 0.618033988749895 f.2.1) (vertices 0.618033988749895 f.2.2) n h S ∧
      2 * L.length + 1 = 7 * 3 ^ (depth + 1)) faces LL := by
  obtain ⟨t, ht⟩ : ∃ t : ℝ, t = 0.618033988749895 := ⟨_, rfl⟩
  rw [← ht]
  have cv := convex_faces (t := t) (by rw [ht]; norm_num) (by rw [ht]; norm_num)
  have sl := side_lengths t
  have nc : ∀ f ∈ faces, ¬ Collinear3 (vertices t f.1) (vertices t f.2.1) (vertices t f.2.2) := by
    intro f hf hcol
    obtain ⟨i, i1, i2, i3⟩ : ∃ i, i ≠ f.1 ∧ i ≠ f.2.1 ∧ i ≠ f.2.2 := by
      have : ∀ f ∈ faces, ∃ i, i ≠ f.1 ∧ i ≠ f.2.1 ∧ i ≠ f.2.2 := by decide +kernel
      exact this f hf
    have := cv f hf i i1 i2 i3
    rcases hcol with k | ⟨s, k⟩
    · rw [k] at this
      unfold vol3 at this
      simp at this
    · rw [k] at this
      unfold vol3 at this
      simp only [Pt3.add_x, Pt3.add_y, Pt3.add_z, Pt3.smul_x, Pt3.smul_y, Pt3.smul_z, Pt3.sub_x, Pt3.sub_y, Pt3.sub_z] at this
      apply absurd this
      rw [not_lt]
      apply le_of_eq
      ring
  have fin : ∀ f ∈ faces, ∃ L, drawFace h (vertices t f.1) (vertices t f.2.1) (vertices t f.2.2) depth = .ok L := by
    intro f hf
    refine C109_finishes h _ _ _ 1.236 (by norm_num) ?_ (nc f hf) depth hd
    intro e he
    simp only [List.mem_cons, List.not_mem_nil, or_false] at he
    have key : ∀ i j, (i, j) ∈ sides f → 1.236 ^ 2 ≤ sqDist3 (vertices t i) (vertices t j) ∧ sqDist3 (vertices t i) (vertices t j) ≤ (1.01 * 1.236) ^ 2 := by
      intro i j hij
      rcases sl f hf (i, j) hij with k | k <;> dsimp only at k <;> rw [k, ht] <;> constructor <;> norm_num
    rcases he with rfl | rfl | rfl
    · exact key f.1 f.2.1 (by simp [sides])
    · exact key f.2.1 f.2.2 (by simp [sides])
    · exact key f.2.2 f.1 (by simp [sides])
  choose! g hg using fin
  refine ⟨faces.map g, mapM_ok _ g faces hg, ?_⟩
  rw [List.forall₂_map_right_iff, List.forall₂_same]
  intro f hf
  obtain ⟨n, un, S, e1, e2, e3⟩ := C109_face h hh _ _ _ (nc f hf) depth (g f) (hg f hf)
  refine ⟨n, un, ?_, S, e1, e2, e3⟩
  intro i
  obtain ⟨u1, u2, u3, u4⟩ := un
  by_cases i1 : i = f.1
  · rw [i1]; unfold dot3; simp
  by_cases i2 : i = f.2.1
  · rw [i2, u2]
  by_cases i3 : i = f.2.2
  · rw [i3, u3]
  have neg := cv f hf i i1 i2 i3
  rw [vol3_normal u1 u2 u3] at neg
  by_contra hc
  push Not at hc
  linarith [mul_pos u4 hc]

/-- One pass, as in the script: 20 faces, 31 bodies on each of them. -/
example : ∃ LL, script 0.3 0.618033988749895 1 = .ok LL ∧ LL.length = 20 ∧ ∀ L ∈ LL, L.length = 31 := by
  obtain ⟨LL, h1, h2⟩ := C109_script 0.3 (by norm_num) 1 (by norm_num)
  refine ⟨LL, h1, h2.length_eq.symm.trans rfl, ?_⟩
  intro L hL
  rw [List.forall₂_iff_get] at h2
  obtain ⟨i, hi, rfl⟩ := List.getElem_of_mem hL
  obtain ⟨n, -, -, S, -, -, hc⟩ := h2.2 i (by rw [h2.1]; exact hi) hi
  simp only [List.get_eq_getElem] at hc
  omega

/-- The points of lines 37-39 of the script, and three points of a line. -/
example : (∃ tm, transfoMatrix ⟨0, 0, 1⟩ ⟨10, 2, 0⟩ ⟨5, 10, 3⟩ = .ok tm ∧ applyMat tm.Mat (flat3 tm.Q) = ⟨5, 10, 3⟩) ∧
    transfoMatrix ⟨0, 0, 1⟩ ⟨1, 2, 3⟩ ⟨2, 4, 5⟩ = .error .nonFinite := by
  constructor
  · obtain ⟨tm, h1, -, -, -, -, h2, -⟩ := C109_frame ⟨0, 0, 1⟩ ⟨10, 2, 0⟩ ⟨5, 10, 3⟩ (by
      rw [collinear3_iff]
      unfold npCross
      rw [Pt3.ext_iff]
      simp
      norm_num)
    exact ⟨tm, h1, h2⟩
  · apply C109_flat
    right
    refine ⟨2, ?_⟩
    ext <;> simp <;> norm_num
