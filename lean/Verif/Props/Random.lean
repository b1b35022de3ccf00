import Verif.Model.Random
import Verif.Props.Ellipse
import Verif.Props.Steiner

/-!
# C72: random points are where they should be, whatever the random generator returns
-/

open Spec Real Classical

/-- `P` is in the closed disk. -/
def Spec.InDisk (O : Pt) (r : ℝ) (P : Pt) : Prop := sqDist P O ≤ r ^ 2

/-- `M` is in the closed triangle `ABC`. -/
def Spec.InClosedTriangle (A B C M : Pt) : Prop :=
  ∃ u v w : ℝ, 0 ≤ u ∧ 0 ≤ v ∧ 0 ≤ w ∧ u + v + w = 1 ∧ M = u • A + v • B + w • C

/-- The generator never draws the zero vector (an event of probability zero, which gives NaN coordinates). -/
def Gen.NonZero (g : Gen) : Prop := ∀ n j, g.normal n j ≠ ⟨0, 0⟩

/-- `l` is a list of `n` points satisfying `S`. -/
def Spec.PointsIn (S : Pt → Prop) (n : ℤ) (l : List Pt) : Prop := (l.length : ℤ) = n ∧ ∀ P ∈ l, S P

theorem rowsPlus_points {n : ℤ} (hn : 0 < n) (out : Fin n.toNat → Pt) (O : Pt) (S : Pt → Prop) (h : ∀ j, S (out j + O)) :
    PointsIn S n (rowsPlus out O) := by
  unfold rowsPlus PointsIn
  constructor
  · rw [List.length_ofFn, Int.toNat_of_nonneg hn.le]
  · intro P hP
    rw [List.mem_ofFn] at hP
    obtain ⟨j, rfl⟩ := hP
    exact h j

theorem runif_on_circle_spec (g : Gen) (hz : g.NonZero) (n : ℕ) (r : Fin n → ℝ) :
    ∃ out, runif_on_circle_ g n r = .ok out ∧ ∀ j, (out j).x ^ 2 + (out j).y ^ 2 = r j ^ 2 := by
  have hpos : ∀ j, 0 < (g.normal n j).x * (g.normal n j).x + (g.normal n j).y * (g.normal n j).y := by
    intro j
    by_contra hc
    apply hz n j
    have h1 : (g.normal n j).x = 0 := by nlinarith [sq_nonneg (g.normal n j).x, sq_nonneg (g.normal n j).y]
    have h2 : (g.normal n j).y = 0 := by nlinarith [sq_nonneg (g.normal n j).x, sq_nonneg (g.normal n j).y]
    ext <;> assumption
  have hv : ∀ j, vlength_ (g.normal n j) ≠ 0 := fun j => (Real.sqrt_pos.2 (hpos j)).ne'
  refine ⟨_, by unfold runif_on_circle_; dsimp only; rw [if_neg (by push Not; exact hv)], fun j => ?_⟩
  have hsq : vlength_ (g.normal n j) ^ 2 = (g.normal n j).x * (g.normal n j).x + (g.normal n j).y * (g.normal n j).y := by
    unfold vlength_
    exact Real.sq_sqrt (hpos j).le
  have := hv j
  simp only [Pt.div_x, Pt.div_y, Pt.smul_x, Pt.smul_y]
  field_simp
  linear_combination (-r j ^ 2) * hsq

theorem runif_in_circle_spec (g : Gen) (hg : g.Valid) (hz : g.NonZero) (n : ℕ) (r : ℝ) :
    ∃ out, runif_in_circle_ g n r = .ok out ∧ ∀ j, (out j).x ^ 2 + (out j).y ^ 2 ≤ r ^ 2 := by
  obtain ⟨out, h1, h2⟩ := runif_on_circle_spec g hz n (fun j => sqrt (g.rand n j))
  refine ⟨fun j => r • out j, ?_, fun j => ?_⟩
  · unfold runif_in_circle_
    rw [h1, Res.ok_bind]
    rfl
  · have h3 := h2 j
    obtain ⟨h4, h5⟩ := hg.1 n j
    rw [Real.sq_sqrt h4] at h3
    simp only [Pt.smul_x, Pt.smul_y]
    have : (r * (out j).x) ^ 2 + (r * (out j).y) ^ 2 = r ^ 2 * g.rand n j := by rw [← h3]; ring
    rw [this]
    nlinarith [sq_nonneg r]

/-- C72: `Circle.random_points` with `where="on"` gives `n_points` points of the circle, with `where="in"` points of the
disk; other arguments raise `ValueError`.  Missing: a draw of the zero vector, see `C72_zero_draw_counterexample`. -/
theorem C72_circle_partial (c : Circle) (g : Gen) (hg : g.Valid) (hz : g.NonZero) (n : ℤ) :
    (0 < n → (∃ l, c.random_points g n "on" = .ok l ∧ PointsIn (OnCircle c.center c.radius) n l) ∧
      (∃ l, c.random_points g n "in" = .ok l ∧ PointsIn (InDisk c.center c.radius) n l)) ∧
    (n ≤ 0 → ∀ w, ∃ msg, c.random_points g n w = .error (.valueError msg)) ∧
    (∀ w, w ≠ "on" → w ≠ "in" → ∃ msg, c.random_points g n w = .error (.valueError msg)) := by
  refine ⟨fun hn => ⟨?_, ?_⟩, fun hn w => ?_, fun w h1 h2 => ?_⟩
  · obtain ⟨out, h1, h2⟩ := runif_on_circle_spec g hz n.toNat (fun _ => c.radius)
    refine ⟨rowsPlus out c.center, ?_, rowsPlus_points hn _ _ _ fun j => ?_⟩
    · unfold Circle.random_points
      rw [if_neg (not_le.2 hn), if_neg (by decide), if_pos rfl, h1, Res.ok_bind]
      rfl
    · have := h2 j
      unfold OnCircle sqDist
      simp only [Pt.add_x, Pt.add_y]
      linear_combination this
  · obtain ⟨out, h1, h2⟩ := runif_in_circle_spec g hg hz n.toNat c.radius
    refine ⟨rowsPlus out c.center, ?_, rowsPlus_points hn _ _ _ fun j => ?_⟩
    · unfold Circle.random_points
      rw [if_neg (not_le.2 hn), if_pos rfl, h1, Res.ok_bind]
      rfl
    · have := h2 j
      unfold InDisk sqDist
      simp only [Pt.add_x, Pt.add_y]
      linarith
  · unfold Circle.random_points
    rw [if_pos hn]
    exact ⟨_, rfl⟩
  · unfold Circle.random_points
    rw [if_neg h2, if_neg h1]
    split_ifs <;> exact ⟨_, rfl⟩

/-- The Cholesky factor of a symmetric positive definite matrix. -/
theorem cholesky2_spec {S : Matrix (Fin 2) (Fin 2) ℝ} (hS : PosDef2 S) :
    ∃ L, cholesky2 S = .ok L ∧ Matrix.det L.transpose ≠ 0 ∧
      ∀ x y : Pt, ![y.x, y.y] = L.transpose.mulVec ![x.x, x.y] → quadForm S x = y.x ^ 2 + y.y ^ 2 := by
  obtain ⟨hs, hp⟩ := hS
  have h0 : 0 < S 0 0 := by
    have := hp ⟨1, 0⟩ (by intro h; have := congrArg Pt.x h; norm_num at this)
    unfold quadForm at this
    simpa using this
  obtain ⟨q, hq⟩ : ∃ q, q = sqrt (S 0 0) := ⟨_, rfl⟩
  have hq0 : 0 < q := by rw [hq]; exact Real.sqrt_pos.2 h0
  have hqq : q ^ 2 = S 0 0 := by rw [hq]; exact Real.sq_sqrt h0.le
  have hd : 0 < S 1 1 - S 1 0 / q * (S 1 0 / q) := by
    have := hp ⟨-S 1 0, S 0 0⟩ (by intro h; have := congrArg Pt.y h; simp at this; linarith)
    unfold quadForm at this
    simp only at this
    rw [hs] at this
    have h2 : 0 < S 0 0 * (S 0 0 * S 1 1 - S 1 0 * S 1 0) := by nlinarith
    have h3 : 0 < S 0 0 * S 1 1 - S 1 0 * S 1 0 := (mul_pos_iff_of_pos_left h0).1 h2
    have h4 : S 1 1 - S 1 0 / q * (S 1 0 / q) = (S 0 0 * S 1 1 - S 1 0 * S 1 0) / S 0 0 := by
      rw [← hqq]; field_simp
    rw [h4]; positivity
  obtain ⟨p, hpe⟩ : ∃ p, p = sqrt (S 1 1 - S 1 0 / q * (S 1 0 / q)) := ⟨_, rfl⟩
  have hp0 : 0 < p := by rw [hpe]; exact Real.sqrt_pos.2 hd
  have hpp : p ^ 2 = S 1 1 - S 1 0 / q * (S 1 0 / q) := by rw [hpe]; exact Real.sq_sqrt hd.le
  refine ⟨!![q, 0; S 1 0 / q, p], ?_, ?_, ?_⟩
  · unfold cholesky2
    rw [if_neg (not_le.2 h0)]
    dsimp only
    rw [← hq, if_neg (not_le.2 hd), ← hpe]
  · rw [Matrix.det_transpose, Matrix.det_fin_two]
    simp
    exact ⟨hq0.ne', hp0.ne'⟩
  · intro x y hy
    have y0 := congrFun hy 0
    have y1 := congrFun hy 1
    simp [Matrix.mulVec, dotProduct, Fin.sum_univ_two] at y0 y1
    unfold quadForm
    rw [y0, y1, hs]
    have e1 : q * (S 1 0 / q) = S 1 0 := by field_simp
    linear_combination (-x.x ^ 2) * hqq - x.y ^ 2 * hpp - 2 * x.x * x.y * e1

theorem solveCols_spec {U : Matrix (Fin 2) (Fin 2) ℝ} (hU : Matrix.det U ≠ 0) (n : ℕ) (X : Fin n → Pt) :
    ∃ Y, solveCols U n X = .ok Y ∧ ∀ j, ![(X j).x, (X j).y] = U.mulVec ![(Y j).x, (Y j).y] := by
  refine ⟨_, by unfold solveCols; rw [if_neg hU], fun j => ?_⟩
  have e : ![(U⁻¹.mulVec ![(X j).x, (X j).y]) 0, (U⁻¹.mulVec ![(X j).x, (X j).y]) 1] = U⁻¹.mulVec ![(X j).x, (X j).y] := by
    ext i; fin_cases i <;> rfl
  dsimp only
  rw [e, Matrix.mulVec_mulVec, Matrix.mul_nonsing_inv _ (isUnit_iff_ne_zero.2 hU), Matrix.one_mulVec]

theorem quadForm_smul (S : Matrix (Fin 2) (Fin 2) ℝ) (k : ℝ) (v : Pt) : quadForm S (k • v) = k ^ 2 * quadForm S v := by
  unfold quadForm
  simp only [Pt.smul_x, Pt.smul_y]
  ring

/-- The closed region of the ellipse in terms of the shape matrix. -/
theorem inEllipse_quadForm {e : Ellipse} (he : e.Valid) {S : Matrix (Fin 2) (Fin 2) ℝ} (hS : PosDef2 S)
    (h : ∀ P, OnE e P ↔ quadForm S (P - e.center) = 1) (P : Pt) :
    InEllipse e.center e.rmajor e.rminor e.rad P ↔ quadForm S (P - e.center) ≤ 1 := by
  obtain ⟨ha, hb⟩ := he
  obtain ⟨q, hq⟩ : ∃ q, q = quadForm S (P - e.center) := ⟨_, rfl⟩
  by_cases hv : P - e.center = ⟨0, 0⟩
  · have hx := congrArg Pt.x hv
    have hy := congrArg Pt.y hv
    simp only [Pt.sub_x, Pt.sub_y] at hx hy
    unfold InEllipse axisCoord
    rw [hv, hx, hy]
    unfold quadForm
    simp
  · have hq0 : 0 < q := by rw [hq]; exact hS.2 _ hv
    have hon : OnE e (e.center + (1 / sqrt q) • (P - e.center)) := by
      rw [h]
      have : e.center + (1 / sqrt q) • (P - e.center) - e.center = (1 / sqrt q) • (P - e.center) := by
        ext <;> simp
      rw [this, quadForm_smul, ← hq, div_pow, Real.sq_sqrt hq0.le]
      field_simp
    unfold OnE at hon
    rw [onEllipse_iff ha hb] at hon
    have hsq := Real.sq_sqrt hq0.le
    obtain ⟨s, hs⟩ : ∃ s, s = sqrt q := ⟨_, rfl⟩
    have hs0 : 0 < s := by rw [hs]; exact Real.sqrt_pos.2 hq0
    rw [← hs] at hsq hon
    have key : ((axisCoord e.center e.rad P).x / e.rmajor) ^ 2 + ((axisCoord e.center e.rad P).y / e.rminor) ^ 2 = q := by
      unfold ellVal at hon
      have x1 : (axisCoord e.center e.rad (e.center + (1 / s) • (P - e.center))).x = (axisCoord e.center e.rad P).x / s := by
        unfold axisCoord; simp; ring
      have x2 : (axisCoord e.center e.rad (e.center + (1 / s) • (P - e.center))).y = (axisCoord e.center e.rad P).y / s := by
        unfold axisCoord; simp; ring
      rw [x1, x2] at hon
      rw [← hsq]
      field_simp at hon ⊢
      linear_combination hon
    unfold InEllipse
    rw [key, hq]

/-- C72: `Ellipse.random_points` with `where="on"` gives `n_points` points of the ellipse, with `where="in"` points of the
closed region; other arguments raise `ValueError`.  Missing: a draw of the zero vector, see `C72_zero_draw_counterexample`. -/
theorem C72_ellipse_partial (e : Ellipse) (he : e.Valid) (g : Gen) (hg : g.Valid) (hz : g.NonZero) (n : ℤ) :
    (0 < n → (∃ l, e.random_points g n "on" = .ok l ∧ PointsIn (OnEllipse e.center e.rmajor e.rminor e.rad) n l) ∧
      (∃ l, e.random_points g n "in" = .ok l ∧ PointsIn (InEllipse e.center e.rmajor e.rminor e.rad) n l)) ∧
    (n ≤ 0 → ∀ w, ∃ msg, e.random_points g n w = .error (.valueError msg)) ∧
    (∀ w, w ≠ "on" → w ≠ "in" → ∃ msg, e.random_points g n w = .error (.valueError msg)) := by
  obtain ⟨S, hS, hpd, hon⟩ := C65_shape_matrix e he
  obtain ⟨L, hL, hdet, hLq⟩ := cholesky2_spec hpd
  refine ⟨fun hn => ⟨?_, ?_⟩, fun hn w => ?_, fun w h1 h2 => ?_⟩
  · obtain ⟨X, h1, h2⟩ := runif_on_circle_spec g hz n.toNat (fun _ => 1)
    obtain ⟨Y, h3, h4⟩ := solveCols_spec hdet n.toNat X
    refine ⟨rowsPlus Y e.center, ?_, rowsPlus_points hn _ _ _ fun j => ?_⟩
    · unfold Ellipse.random_points
      rw [if_neg (not_le.2 hn), hS, Res.ok_bind, if_neg (by decide), if_pos rfl]
      unfold runif_on_ellipse_
      simp only [hL, Res.ok_bind, h1, h3]
      rfl
    · change OnE e _
      rw [hon, show Y j + e.center - e.center = Y j by ext <;> simp, hLq (Y j) (X j) (h4 j), h2 j]
      norm_num
  · obtain ⟨X, h1, h2⟩ := runif_in_circle_spec g hg hz n.toNat 1
    obtain ⟨Y, h3, h4⟩ := solveCols_spec hdet n.toNat X
    refine ⟨rowsPlus Y e.center, ?_, rowsPlus_points hn _ _ _ fun j => ?_⟩
    · unfold Ellipse.random_points
      rw [if_neg (not_le.2 hn), hS, Res.ok_bind, if_pos rfl]
      unfold runif_in_ellipse_
      simp only [hL, Res.ok_bind, h1, h3]
      rfl
    · rw [inEllipse_quadForm he hpd hon, show Y j + e.center - e.center = Y j by ext <;> simp, hLq (Y j) (X j) (h4 j)]
      have := h2 j
      linarith
  · unfold Ellipse.random_points
    rw [if_pos hn]
    exact ⟨_, rfl⟩
  · unfold Ellipse.random_points
    rw [hS, Res.ok_bind, if_neg h2, if_neg h1]
    split_ifs <;> exact ⟨_, rfl⟩

theorem smul_comb {A B : Pt} {s t : ℝ} (h : s + t = 1) : s • A + t • B = A + t • (B - A) := by
  ext
  · simp; linear_combination A.x * h
  · simp; linear_combination A.y * h

/-- One row of `runif_on_triangle_`. -/
theorem onTriangleRow_spec {A B C : Pt} (hAB : A ≠ B) {u : ℝ} (h0 : 0 ≤ u)
    (h1 : u ≤ distance_ A B + distance_ B C + distance_ C A) :
    ∃ P, onTriangleRow A B C u = .ok P ∧ (OnSegment A B P ∨ OnSegment B C P ∨ OnSegment C A P) := by
  have p1 : 0 < distance_ A B := by
    rw [distance_eq]; unfold Spec.dist; exact Real.sqrt_pos.2 (sqDist_pos hAB)
  have p2 : 0 ≤ distance_ B C := by rw [distance_eq]; exact Real.sqrt_nonneg _
  have p3 : 0 ≤ distance_ C A := by rw [distance_eq]; exact Real.sqrt_nonneg _
  unfold onTriangleRow npDiv
  dsimp only
  obtain ⟨l1, e1⟩ : ∃ l, l = distance_ A B := ⟨_, rfl⟩
  obtain ⟨l2, e2⟩ : ∃ l, l = distance_ B C := ⟨_, rfl⟩
  obtain ⟨l3, e3⟩ : ∃ l, l = distance_ C A := ⟨_, rfl⟩
  rw [← e1] at p1
  rw [← e2] at p2
  rw [← e3] at p3
  rw [← e1, ← e2, ← e3] at h1 ⊢
  by_cases c1 : u ≤ l1
  · rw [if_pos c1, if_neg p1.ne', if_neg p1.ne', Res.ok_bind, Res.ok_bind]
    refine ⟨_, rfl, Or.inl ⟨u / l1, by positivity, (div_le_one p1).2 c1, smul_comb ?_⟩⟩
    field_simp; ring
  · by_cases c2 : u ≤ l1 + l2
    · have p2' : 0 < l2 := by linarith
      rw [if_neg c1, if_pos c2, if_neg p2'.ne', if_neg p2'.ne', Res.ok_bind, Res.ok_bind]
      refine ⟨_, rfl, Or.inr (Or.inl ⟨(u - l1) / l2, div_nonneg (by linarith) p2, (div_le_one p2').2 (by linarith), smul_comb ?_⟩)⟩
      field_simp; ring
    · have p3' : 0 < l3 := by linarith
      rw [if_neg c1, if_neg c2, if_neg p3'.ne', if_neg p3'.ne', Res.ok_bind, Res.ok_bind]
      refine ⟨_, rfl, Or.inr (Or.inr ⟨(u - l1 - l2) / l3, div_nonneg (by linarith) p3, (div_le_one p3').2 (by linarith), smul_comb ?_⟩)⟩
      field_simp; ring

/-- C72: `Triangle.random_points` with `where="in"` gives `n_points` points of the closed triangle, for every triangle, even
degenerate. -/
theorem C72_triangle_in (t : Triangle) (g : Gen) (hg : g.Valid) (n : ℤ) (hn : 0 < n) :
    ∃ l, t.random_points g n "in" = .ok l ∧ PointsIn (InClosedTriangle t.A t.B t.C) n l := by
  refine ⟨_, by unfold Triangle.random_points; rw [if_neg (not_le.2 hn), if_pos rfl], ?_, ?_⟩
  · rw [List.length_ofFn, Int.toNat_of_nonneg hn.le]
  · intro P hP
    rw [List.mem_ofFn] at hP
    obtain ⟨j, rfl⟩ := hP
    obtain ⟨a1, a2⟩ := hg.1 n.toNat j
    obtain ⟨b1, b2⟩ := hg.2.1 n.toNat j
    have s0 := Real.sqrt_nonneg (g.rand' n.toNat j)
    have s1 : sqrt (g.rand' n.toNat j) ≤ 1 := Real.sqrt_le_one.2 b2.le
    refine ⟨1 - sqrt (g.rand' n.toNat j), sqrt (g.rand' n.toNat j) * (1 - g.rand n.toNat j),
      g.rand n.toNat j * sqrt (g.rand' n.toNat j), by linarith, mul_nonneg s0 (by linarith), mul_nonneg a1 s0, by ring, ?_⟩
    unfold runif_in_triangle_
    ext
    · simp; ring
    · simp; ring

/-- C72: `Triangle.random_points` with `where="on"` gives `n_points` points of the boundary, provided that the first two
vertices differ.  Missing: coinciding first vertices, see `C72_degenerate_counterexample`. -/
theorem C72_triangle_on_partial (t : Triangle) (hAB : t.A ≠ t.B) (g : Gen) (hg : g.Valid) (n : ℤ) (hn : 0 < n) :
    ∃ l, t.random_points g n "on" = .ok l ∧
      PointsIn (fun P => OnSegment t.A t.B P ∨ OnSegment t.B t.C P ∨ OnSegment t.C t.A P) n l := by
  have hL : 0 ≤ distance_ t.A t.B + distance_ t.B t.C + distance_ t.C t.A := by
    rw [distance_eq, distance_eq, distance_eq]
    unfold Spec.dist
    positivity
  have hrow : ∀ j, ∃ P, onTriangleRow t.A t.B t.C (g.uniform 0 (distance_ t.A t.B + distance_ t.B t.C + distance_ t.C t.A)
      n.toNat j) = .ok P ∧ (OnSegment t.A t.B P ∨ OnSegment t.B t.C P ∨ OnSegment t.C t.A P) := by
    intro j
    obtain ⟨u1, u2⟩ := hg.2.2 0 _ n.toNat j hL
    exact onTriangleRow_spec hAB u1 u2
  have hval : ∀ u ∈ List.ofFn (g.uniform 0 (distance_ t.A t.B + distance_ t.B t.C + distance_ t.C t.A) n.toNat),
      onTriangleRow t.A t.B t.C u = .ok (if h : ∃ P, onTriangleRow t.A t.B t.C u = .ok P then choose h else t.A) := by
    intro u hu
    rw [List.mem_ofFn] at hu
    obtain ⟨j, rfl⟩ := hu
    obtain ⟨P, hP, -⟩ := hrow j
    have h : ∃ P, onTriangleRow t.A t.B t.C (g.uniform 0 (distance_ t.A t.B + distance_ t.B t.C + distance_ t.C t.A)
      n.toNat j) = .ok P := ⟨P, hP⟩
    rw [dif_pos h]
    exact choose_spec h
  refine ⟨_, by
    unfold Triangle.random_points
    rw [if_neg (not_le.2 hn), if_neg (by decide), if_pos rfl]
    exact mapM_ok _ _ _ hval, ?_, ?_⟩
  · rw [List.length_map, List.length_ofFn, Int.toNat_of_nonneg hn.le]
  · intro P hP
    rw [List.mem_map] at hP
    obtain ⟨u, hu, rfl⟩ := hP
    have e := hval u hu
    rw [List.mem_ofFn] at hu
    obtain ⟨j, rfl⟩ := hu
    obtain ⟨P, hP, hon⟩ := hrow j
    have e' := Except.ok.inj (hP.symm.trans e)
    rw [← e']
    exact hon

/-- C72: `Triangle.random_points` rejects a nonpositive number of points and an unknown place. -/
theorem C72_triangle_rejects (t : Triangle) (g : Gen) (n : ℤ) :
    (n ≤ 0 → ∀ w, ∃ msg, t.random_points g n w = .error (.valueError msg)) ∧
    (∀ w, w ≠ "on" → w ≠ "in" → ∃ msg, t.random_points g n w = .error (.valueError msg)) := by
  refine ⟨fun hn w => ?_, fun w h1 h2 => ?_⟩
  · unfold Triangle.random_points
    rw [if_pos hn]
    exact ⟨_, rfl⟩
  · unfold Triangle.random_points
    rw [if_neg h2, if_neg h1]
    split_ifs <;> exact ⟨_, rfl⟩

/-- A generator. -/
noncomputable def genHalf : Gen :=
  ⟨fun _ _ => ⟨3, 4⟩, fun _ _ => 1 / 2, fun _ _ => 1 / 4, fun lo hi _ _ => (lo + hi) / 2⟩

/-- The hypotheses on the generator can be met. -/
example : genHalf.Valid ∧ genHalf.NonZero := by
  refine ⟨⟨fun n j => ?_, fun n j => ?_, fun lo hi n j h => ?_⟩, fun n j h => ?_⟩
  · simp only [genHalf]; norm_num
  · simp only [genHalf]; norm_num
  · simp only [genHalf]; constructor <;> linarith
  · have := congrArg Pt.x h
    simp [genHalf] at this

/-- C72 fails for a triangle whose first two vertices coincide, if the generator draws 0. -/
theorem C72_degenerate_counterexample (A C : Pt) (g : Gen) (h : ∀ hi n j, g.uniform 0 hi n j = 0) :
    (⟨A, A, C⟩ : Triangle).random_points g 1 "on" = .error .nonFinite := by
  unfold Triangle.random_points
  rw [if_neg (by norm_num), if_neg (by decide), if_pos rfl]
  unfold runif_on_triangle_
  dsimp only
  have h0 : distance_ A A = 0 := by rw [distance_eq]; unfold Spec.dist sqDist; simp
  have : onTriangleRow A A C 0 = .error .nonFinite := by
    unfold onTriangleRow npDiv
    simp only [h0]
    rw [if_pos (le_refl _), if_pos trivial]
    rfl
  rw [show (1 : ℤ).toNat = 1 from rfl]
  simp only [List.ofFn_succ, List.ofFn_zero, h]
  rw [List.mapM_cons, this]
  rfl

/-- C72 fails if the generator draws the zero vector: the coordinates are NaN. -/
theorem C72_zero_draw_counterexample (c : Circle) (g : Gen) (h : ∀ n j, g.normal n j = ⟨0, 0⟩) :
    c.random_points g 1 "on" = .error .nonFinite := by
  unfold Circle.random_points
  rw [if_neg (by norm_num), if_neg (by decide), if_pos rfl]
  have : runif_on_circle_ g (1 : ℤ).toNat (fun _ => c.radius) = .error .nonFinite := by
    unfold runif_on_circle_
    dsimp only
    rw [if_pos ⟨⟨0, by decide⟩, by rw [h]; unfold vlength_; simp⟩]
  rw [this]
  rfl

theorem Ex.genHalf_valid : genHalf.Valid ∧ genHalf.NonZero := by
  refine ⟨⟨fun n j => ?_, fun n j => ?_, fun lo hi n j h => ?_⟩, fun n j h => ?_⟩
  · simp only [genHalf]; norm_num
  · simp only [genHalf]; norm_num
  · simp only [genHalf]; constructor <;> linarith
  · have := congrArg Pt.x h
    simp only [genHalf] at this
    norm_num at this

/-- Four points of a circle, an error for the number 0, an error for the word "out"; four points in an ellipse. -/
example : (∃ l, (⟨⟨1, 2⟩, 3⟩ : Circle).random_points genHalf 4 "on" = .ok l ∧ PointsIn (OnCircle ⟨1, 2⟩ 3) 4 l) ∧
    (∃ m, (⟨⟨1, 2⟩, 3⟩ : Circle).random_points genHalf 0 "on" = .error (.valueError m)) ∧
    (∃ m, (⟨⟨1, 2⟩, 3⟩ : Circle).random_points genHalf 4 "out" = .error (.valueError m)) ∧
    ∃ l, (⟨⟨1, 2⟩, 3, 1, 0, false⟩ : Ellipse).random_points genHalf 4 "in" = .ok l ∧
      PointsIn (InEllipse ⟨1, 2⟩ 3 1 (⟨⟨1, 2⟩, 3, 1, 0, false⟩ : Ellipse).rad) 4 l := by
  obtain ⟨hg, hz⟩ := Ex.genHalf_valid
  exact ⟨((C72_circle_partial ⟨⟨1, 2⟩, 3⟩ _ hg hz 4).1 (by norm_num)).1,
    (C72_circle_partial ⟨⟨1, 2⟩, 3⟩ _ hg hz 0).2.1 le_rfl "on",
    (C72_circle_partial ⟨⟨1, 2⟩, 3⟩ _ hg hz 4).2.2 "out" (by decide) (by decide),
    ((C72_ellipse_partial ⟨⟨1, 2⟩, 3, 1, 0, false⟩ (by constructor <;> norm_num) _ hg hz 4).1 (by norm_num)).2⟩

/-- Seven points in and on the triangle `(0, 0), (4, 0), (0, 3)`. -/
example : (∃ l, (⟨⟨0, 0⟩, ⟨4, 0⟩, ⟨0, 3⟩⟩ : Triangle).random_points genHalf 7 "in" = .ok l ∧
      PointsIn (InClosedTriangle ⟨0, 0⟩ ⟨4, 0⟩ ⟨0, 3⟩) 7 l) ∧
    ∃ l, (⟨⟨0, 0⟩, ⟨4, 0⟩, ⟨0, 3⟩⟩ : Triangle).random_points genHalf 7 "on" = .ok l ∧
      PointsIn (fun P => OnSegment ⟨0, 0⟩ ⟨4, 0⟩ P ∨ OnSegment ⟨4, 0⟩ ⟨0, 3⟩ P ∨ OnSegment ⟨0, 3⟩ ⟨0, 0⟩ P) 7 l :=
  ⟨C72_triangle_in _ _ Ex.genHalf_valid.1 7 (by norm_num),
    C72_triangle_on_partial _ (by simp [Pt.ext_iff]) _ Ex.genHalf_valid.1 7 (by norm_num)⟩
