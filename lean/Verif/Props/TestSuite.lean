import Verif.Props.Exact
import Verif.Props.Exact3
import Verif.Props.Exact5
import Verif.Props.Methods
import Verif.Props.Equality
import Verif.Props.Transforms2
import Verif.Props.Affine
import Verif.Props.InvCompose
import Verif.Props.Mobius

/-!
# C113: the assertions of the test suite, tests/test_*.py: circles, inversions, transformations of points

Each theorem states the assertions of a test for all the inputs for which they hold; the example after it is the test itself.
-/

open Spec Real Classical

namespace Tests

/-- Two circles with the same points, one point apart. -/
theorem circle_agree {C D O : Pt} {r s : ℝ} (hr : 0 < r) (hs : 0 < s) (h : ∀ Q, Q ≠ O → OnCircle C r Q → OnCircle D s Q) :
    C = D ∧ r = s := by
  have key : ∀ u v : ℝ, u ^ 2 + v ^ 2 = 1 → (⟨C.x + r * u, C.y + r * v⟩ : Pt) ≠ O →
      sqDist C D + 2 * r * (u * (C.x - D.x) + v * (C.y - D.y)) + r ^ 2 - s ^ 2 = 0 := by
    intro u v huv hne
    have := h _ hne (by unfold OnCircle sqDist; dsimp only; linear_combination r ^ 2 * huv)
    unfold OnCircle sqDist at this
    unfold sqDist
    dsimp only at this
    linear_combination this - r ^ 2 * huv
  have hne : ∀ u v u' v' : ℝ, u ≠ u' ∨ v ≠ v' → (⟨C.x + r * u, C.y + r * v⟩ : Pt) = O → (⟨C.x + r * u', C.y + r * v'⟩ : Pt) ≠ O := by
    intro u v u' v' huv h1 h2
    rw [← h2, Pt.ext_iff] at h1
    obtain ⟨e1, e2⟩ := h1
    dsimp only at e1 e2
    rcases huv with h | h
    · exact h (mul_left_cancel₀ hr.ne' (by linarith))
    · exact h (mul_left_cancel₀ hr.ne' (by linarith))
  have hcenter : C = D ∧ sqDist C D + r ^ 2 - s ^ 2 = 0 := by
    by_cases h1 : (⟨C.x + r * 1, C.y + r * 0⟩ : Pt) = O
    · have k2 := key (-1) 0 (by norm_num) (hne _ _ _ _ (Or.inl (by norm_num)) h1)
      have k3 := key 0 1 (by norm_num) (hne _ _ _ _ (Or.inl (by norm_num)) h1)
      have k4 := key 0 (-1) (by norm_num) (hne _ _ _ _ (Or.inl (by norm_num)) h1)
      refine ⟨?_, by linarith⟩
      ext
      · have : r * (C.x - D.x) = 0 := by linarith
        linarith [(mul_eq_zero.1 this).resolve_left hr.ne']
      · have : r * (C.y - D.y) = 0 := by linarith
        linarith [(mul_eq_zero.1 this).resolve_left hr.ne']
    · have k1 := key 1 0 (by norm_num) h1
      by_cases h2 : (⟨C.x + r * (-1), C.y + r * 0⟩ : Pt) = O
      · have k3 := key 0 1 (by norm_num) (hne _ _ _ _ (Or.inl (by norm_num)) h2)
        have k4 := key 0 (-1) (by norm_num) (hne _ _ _ _ (Or.inl (by norm_num)) h2)
        refine ⟨?_, by linarith⟩
        ext
        · have : r * (C.x - D.x) = 0 := by linarith
          linarith [(mul_eq_zero.1 this).resolve_left hr.ne']
        · have : r * (C.y - D.y) = 0 := by linarith
          linarith [(mul_eq_zero.1 this).resolve_left hr.ne']
      · have k2 := key (-1) 0 (by norm_num) h2
        by_cases h3 : (⟨C.x + r * 0, C.y + r * 1⟩ : Pt) = O
        · have k4 := key 0 (-1) (by norm_num) (hne _ _ _ _ (Or.inr (by norm_num)) h3)
          refine ⟨?_, by linarith⟩
          ext
          · have : r * (C.x - D.x) = 0 := by linarith
            linarith [(mul_eq_zero.1 this).resolve_left hr.ne']
          · have : r * (C.y - D.y) = 0 := by linarith
            linarith [(mul_eq_zero.1 this).resolve_left hr.ne']
        · have k3 := key 0 1 (by norm_num) h3
          refine ⟨?_, by linarith⟩
          ext
          · have : r * (C.x - D.x) = 0 := by linarith
            linarith [(mul_eq_zero.1 this).resolve_left hr.ne']
          · have : r * (C.y - D.y) = 0 := by linarith
            linarith [(mul_eq_zero.1 this).resolve_left hr.ne']
  refine ⟨hcenter.1, ?_⟩
  have h0 := hcenter.2
  rw [hcenter.1] at h0
  have : sqDist D D = 0 := by unfold sqDist; ring
  rw [this] at h0
  exact (sq_eq_sq₀ hr.le hs.le).1 (by linarith)

/-- The circle returned by `invert_circle` is the image. -/
theorem invert_circle_eq {i : Inversion} (hk : i.power ≠ 0) {c d : Circle} (hc : c.Valid) (hd : d.Valid)
    (h : InvMapsOnto i.pole i.power (OnCircle c.center c.radius) (OnCircle d.center d.radius))
    (hD : 1 / 2 ^ 26 < |sqDist c.center i.pole - c.radius ^ 2|) : i.invert_circle c = .ok (.circle d) := by
  obtain ⟨c', h1, h2, h3⟩ := C25_invert_circle i hk c hc hD
  obtain ⟨e1, e2⟩ := circle_agree (O := i.pole) h2 hd (fun Q hne hQ => by
    have hinv : IsInverse i.pole i.power (i.pole + (i.power / dot (Q - i.pole) (Q - i.pole)) • (Q - i.pole)) Q :=
      isInverse_symm hk (isInverse_iff.2 ⟨hne, rfl⟩)
    exact (h _ _ hinv).1 ((h3 _ _ hinv).2 hQ))
  rw [h1]
  congr 2
  obtain ⟨c'c, c'r⟩ := c'
  obtain ⟨dc, dr⟩ := d
  dsimp only at e1 e2
  rw [e1, e2]

theorem on_point (c : Circle) (t : ℝ) (d : Bool) : OnCircle c.center c.radius (c.point_from_angle t d) := by
  have key : ∀ s, OnCircle c.center c.radius (circle_point_ s c.center c.radius) := by
    intro s
    unfold OnCircle sqDist circle_point_
    dsimp only
    linear_combination c.radius ^ 2 * sin_sq_add_cos_sq s
  exact key _

theorem cross_ratio_returns {A B C D : Pt} (hd : [A, B, C, D].Nodup) : ∃ z, cross_ratio A B C D = .ok z := by
  cases h : cross_ratio A B C D with
  | ok z => exact ⟨z, rfl⟩
  | error e =>
    exfalso
    have he : cross_ratio A B C D = .error (.valueError "The four points must be distinct.") := by
      unfold cross_ratio at h ⊢
      dsimp only at h ⊢
      split_ifs at h ⊢
      rfl
    rw [C57_error_iff] at he
    simp at hd
    tauto

/-- The pole of the inversion exchanging two circles with different radii. -/
theorem swap_pole {c1 c2 : Circle} {positive : Bool} {i : Inversion} (h : Inversion.from_swapping_two_circles c1 c2 positive = some i)
    (hne : c1.radius ≠ c2.radius) :
    i.pole = c1.center + (c1.radius / c2.radius / (1 + c1.radius / c2.radius)) • (c2.center - c1.center) ∨
    i.pole = c1.center - (c1.radius / c2.radius / (1 - c1.radius / c2.radius)) • (c2.center - c1.center) := by
  unfold Inversion.from_swapping_two_circles at h
  dsimp only at h
  rw [if_neg hne] at h
  split_ifs at h <;> (rw [Option.some.injEq] at h; rw [← h]) <;> simp

end Tests

/-! ## test_Affine.py, test_AxisScaling.py, test_Rotation.py, test_Shear.py -/

/-- C113, test_affine_transform_matrix, test_axisscaling_transform_matrix, test_rotation_transform_matrix, test_shear_transform_matrix: the rows of
the image of a matrix are the images of the rows, for every matrix with two columns. -/
theorem C113_rows (f : Affine) (S : ScalingXY) (R : Rotation) (T : Shear) (hw : T.vector ≠ ⟨0, 0⟩) (hr : T.ratio ≠ 0) (n : ℕ)
    (M : Matrix (Fin n) (Fin 2) ℝ) : ∀ t ∈ [f.transformArr, S.transform, R.rotate, T.transform],
    ∃ N : Matrix (Fin n) (Fin 2) ℝ, t (.mat n 2 M) = .ok (.mat n N) ∧ ∀ i, t (.vec [M i 0, M i 1]) = .ok (.pt ⟨N i 0, N i 1⟩) := by
  intro t ht
  simp only [List.mem_cons, List.not_mem_nil, or_false] at ht
  rcases ht with rfl | rfl | rfl | rfl
  · exact (C63_affine_partial f).1 n M
  · exact (C63_scalingXY S).1 n M
  · exact (C63_rotation R).1 n M
  · exact (C63_shear T hw hr).1 n M

/-- test_affine_from_mapping_three_points -/
example : ∃ f, Affine.from_mapping_three_points ⟨1, 2⟩ ⟨3, 4⟩ ⟨7, 7⟩ ⟨2, 1⟩ ⟨4, 4⟩ ⟨-7, 7⟩ = .ok (some f) ∧
    f.transform ⟨1, 2⟩ = ⟨2, 1⟩ ∧ f.transform ⟨3, 4⟩ = ⟨4, 4⟩ ∧ f.transform ⟨7, 7⟩ = ⟨-7, 7⟩ := by
  obtain ⟨f, h1, h2, h3, h4, -⟩ := (C46_from_mapping_three_points ⟨1, 2⟩ ⟨3, 4⟩ ⟨7, 7⟩ ⟨2, 1⟩ ⟨4, 4⟩ ⟨-7, 7⟩).2
    (by norm_num [GoodTriple, allclose, npClose, Collinear, cross, abs_of_pos, abs_of_neg])
    (by norm_num [GoodTriple, allclose, npClose, Collinear, cross, abs_of_pos, abs_of_neg])
  exact ⟨f, h1, h2, h3, h4⟩

/-! ## test_Circle.py -/

/-- C113, test_orthogonal. -/
theorem C113_orthogonal (c : Circle) (hc : c.Valid) (a1 a2 : ℝ) (h : ∀ n : ℤ, a1 - a2 ≠ n * π) :
    ∃ o, c.orthogonal_through_two_points_on_circle a1 a2 false = .ok (.circle o) ∧ c.is_orthogonal o ∧
      ∃ t, c.angle o = .ok (some t) ∧ isclose t (π / 2) := by
  obtain ⟨o, h1, h2, h3, h4, -⟩ := C17_orthogonal_on_circle c hc a1 a2 h
  have hr := hc
  have hs := h2
  unfold Circle.Valid at hr hs
  have hO := h3
  unfold Orthogonal at hO
  refine ⟨o, h1, ?_, ?_⟩
  · rw [(C93_is_orthogonal c o hc h2).2.1, hO, sub_self, abs_zero, max_self]
    positivity
  · obtain ⟨t, k1, -, -, -, k2⟩ := C20_angle c o hc h2 (by rw [hO]; nlinarith) (by rw [hO]; nlinarith)
    refine ⟨t, k1, ?_⟩
    rw [k2.2 h3]
    unfold isclose
    rw [sub_self, abs_zero]
    positivity

example : ∃ o, (Circle.mk ⟨0, 0⟩ 3).orthogonal_through_two_points_on_circle (1 / 2) 1 false = .ok (.circle o) ∧
    (Circle.mk ⟨0, 0⟩ 3).is_orthogonal o ∧ ∃ t, (Circle.mk ⟨0, 0⟩ 3).angle o = .ok (some t) ∧ isclose t (π / 2) := by
  refine C113_orthogonal _ (by norm_num [Circle.Valid]) _ _ fun n h => ?_
  have h3 := pi_gt_three
  have hn : n < 0 := by
    by_contra hcon
    push Not at hcon
    have : (0 : ℝ) ≤ n := by exact_mod_cast hcon
    nlinarith
  have : (n : ℝ) ≤ -1 := by exact_mod_cast (show n ≤ -1 by omega)
  nlinarith

/-! ## test_CrossRatio.py -/

/-- C113, test_cross_ratio_real. -/
theorem C113_cross_ratio_real (c : Circle) (hc : c.Valid) (A B C D : Pt) (hd : [A, B, C, D].Nodup)
    (h : ∀ P ∈ [A, B, C, D], OnCircle c.center c.radius P) :
    ∃ z, cross_ratio A B C D = .ok z ∧ approx_equal_ z.im 0 := by
  obtain ⟨z, hz⟩ := Tests.cross_ratio_returns hd
  refine ⟨z, hz, ?_⟩
  rw [(C57_real_iff A B C D z hz).2 (Or.inl ⟨c.center, c.radius, hc, h A (by simp), h B (by simp), h C (by simp), h D (by simp)⟩)]
  exact approx_equal_refl _

example : ∃ z, cross_ratio ((Circle.mk ⟨2, 3⟩ 4).point_from_angle 10) ((Circle.mk ⟨2, 3⟩ 4).point_from_angle 90)
    ((Circle.mk ⟨2, 3⟩ 4).point_from_angle 180) ((Circle.mk ⟨2, 3⟩ 4).point_from_angle 270) = .ok z ∧ approx_equal_ z.im 0 := by
  refine C113_cross_ratio_real ⟨⟨2, 3⟩, 4⟩ (by norm_num [Circle.Valid]) _ _ _ _ ?_ ?_
  · have h0 : 0 < cos (10 * (π / 180)) := cos_pos_of_mem_Ioo ⟨by linarith [pi_pos], by linarith [pi_pos]⟩
    have h1 : cos (90 * (π / 180)) = 0 := by rw [show 90 * (π / 180) = π / 2 by ring, cos_pi_div_two]
    have h2 : cos (180 * (π / 180)) = -1 := by rw [show 180 * (π / 180) = π by ring, cos_pi]
    have h3 : cos (270 * (π / 180)) = 0 := by rw [show 270 * (π / 180) = π / 2 + π by ring, cos_add_pi, cos_pi_div_two, neg_zero]
    have h4 : sin (90 * (π / 180)) = 1 := by rw [show 90 * (π / 180) = π / 2 by ring, sin_pi_div_two]
    have h5 : sin (270 * (π / 180)) = -1 := by rw [show 270 * (π / 180) = π / 2 + π by ring, sin_add_pi, sin_pi_div_two]
    have e : ∀ t : ℝ, (Circle.mk ⟨2, 3⟩ 4).point_from_angle t = ⟨2 + 4 * cos (t * (π / 180)), 3 + 4 * sin (t * (π / 180))⟩ := fun t => rfl
    simp only [e, h1, h2, h3, h4, h5, List.nodup_cons, List.mem_cons, List.not_mem_nil, or_false, Pt.ext_iff]
    refine ⟨?_, by norm_num, by norm_num, by simp⟩
    rintro (h | h | h) <;> linarith [h.1]
  · intro P hP
    simp only [List.mem_cons, List.not_mem_nil, or_false] at hP
    rcases hP with rfl | rfl | rfl | rfl <;> exact Tests.on_point _ _ _

/-- C113, test_cross_ratio_Mobius_invariant: the points are not the pole and are different. -/
theorem C113_cross_ratio_invariant (f : Mobius) (h : Matrix.det f.M ≠ 0) (A B C D A' B' C' D' : Pt) (hd : [A, B, C, D].Nodup)
    (hA : f.transform (.fin A) = .ok (.fin A')) (hB : f.transform (.fin B) = .ok (.fin B'))
    (hC : f.transform (.fin C) = .ok (.fin C')) (hD : f.transform (.fin D) = .ok (.fin D')) :
    ∃ z z', cross_ratio A B C D = .ok z ∧ cross_ratio A' B' C' D' = .ok z' ∧ approx_equal_ z.re z'.re ∧ approx_equal_ z.im z'.im := by
  obtain ⟨z, hz⟩ := Tests.cross_ratio_returns hd
  exact ⟨z, z, hz, (C57_invariant f h A B C D A' B' C' D' hA hB hC hD).trans hz, approx_equal_refl _, approx_equal_refl _⟩

/-- The transformation of the test is invertible; its pole `-2i` is not in the unit square from which the points are drawn. -/
example : Matrix.det (!![2 + 3 * Complex.I, Complex.I; -Complex.I, 2] : Matrix (Fin 2) (Fin 2) ℂ) ≠ 0 ∧
    ∀ P : Pt, 0 ≤ P.x → P.x ≤ 1 → 0 ≤ P.y → P.y ≤ 1 →
      ∃ Q, (⟨!![2 + 3 * Complex.I, Complex.I; -Complex.I, 2]⟩ : Mobius).transform (.fin P) = .ok (.fin Q) := by
  constructor
  · rw [Matrix.det_fin_two]
    simp [Complex.ext_iff]
  · intro P _ _ h3 _
    have : -Complex.I * toC P + 2 ≠ 0 := by
      intro h
      have := congrArg Complex.re h
      simp [toC] at this
      linarith
    refine ⟨from_complex_ (((2 + 3 * Complex.I) * toC P + Complex.I) / (-Complex.I * toC P + 2)), ?_⟩
    unfold Mobius.transform
    dsimp only
    rw [if_neg (fun h => this (by
      have e := h.2
      have e' : toC P = -2 / -Complex.I := e
      rw [e']
      field_simp
      norm_num))]
    have hn : npDivC ((2 + 3 * Complex.I) * toC P + Complex.I) (-Complex.I * toC P + 2) = .ok (((2 + 3 * Complex.I) * toC P + Complex.I) / (-Complex.I * toC P + 2)) := by
      unfold npDivC
      rw [if_neg this]
    exact (congrArg (· >>= fun w => pure (XPt.fin (from_complex_ w))) hn)

/-! ## test_Homothety.py -/

/-- C113, test_homothety_transform_circle. -/
theorem C113_homothety (h : Homothety) (hs : h.scale ≠ 0) (c : Circle) (hc : c.Valid) (t : ℝ) (d : Bool) :
    ∃ c' P, h.transform_circle c = .ok c' ∧ h.transformPt (c.point_from_angle t d) = .ok P ∧ c'.includes P := by
  obtain ⟨c', h1, -, h2⟩ := (C61_homothety_circle h c hc).2 hs
  obtain ⟨Q, -, h3, -, h4, -⟩ := C61_homothety h (c.point_from_angle t d) (c.point_from_angle t d)
  exact ⟨c', Q, h1, h3, (C14_includes c' Q).1 ((h2 Q).2 ⟨_, Tests.on_point c t d, h4⟩)⟩

example : ∃ c' P, (Homothety.mk ⟨1, 1⟩ (-3)).transform_circle ⟨⟨2, 0⟩, 4⟩ = .ok c' ∧
    (Homothety.mk ⟨1, 1⟩ (-3)).transformPt ((Circle.mk ⟨2, 0⟩ 4).point_from_angle 20) = .ok P ∧ c'.includes P :=
  C113_homothety _ (by norm_num) _ (by norm_num [Circle.Valid]) _ _

/-! ## test_Inversion.py -/

/-- C113, test_invert_circle. -/
theorem C113_invert_circle (i : Inversion) (hk : i.power ≠ 0) (c : Circle) (hc : c.Valid)
    (hD : 1 / 2 ^ 26 < |sqDist c.center i.pole - c.radius ^ 2|) :
    ∃ c', i.invert_circle c = .ok (.circle c') ∧ ∀ P, OnCircle c.center c.radius P → ¬ allclose i.pole P →
      ∃ Q, i.invert (.fin P) = .fin Q ∧ c'.includes Q := by
  obtain ⟨c', h1, -, h2⟩ := C25_invert_circle i hk c hc hD
  refine ⟨c', h1, fun P hP hn => ?_⟩
  obtain ⟨Q, h3, -, -, h4⟩ := C24_invert i P hn
  exact ⟨Q, h3, (C14_includes c' Q).1 ((h2 P Q h4).1 hP)⟩

example : ∃ c', (Inversion.mk ⟨5, 5⟩ 6).invert_circle ⟨⟨0, 2⟩, 3⟩ = .ok (.circle c') ∧
    ∀ P ∈ [(⟨3, 2⟩ : Pt), ⟨0, 5⟩, ⟨-3, 2⟩], ∃ Q, (Inversion.mk ⟨5, 5⟩ 6).invert (.fin P) = .fin Q ∧ c'.includes Q := by
  obtain ⟨c', h1, h2⟩ := C113_invert_circle ⟨⟨5, 5⟩, 6⟩ (by norm_num) ⟨⟨0, 2⟩, 3⟩ (by norm_num [Circle.Valid]) (by norm_num [sqDist, abs_of_pos])
  refine ⟨c', h1, fun P hP => h2 P ?_ ?_⟩
  · simp only [List.mem_cons, List.not_mem_nil, or_false] at hP
    rcases hP with rfl | rfl | rfl <;> norm_num [OnCircle, sqDist]
  · simp only [List.mem_cons, List.not_mem_nil, or_false] at hP
    rcases hP with rfl | rfl | rfl <;> norm_num [allclose, npClose, abs_of_pos, abs_of_neg]

/-- C113, test_swapping_two_circles: the inversion exchanges the circles, as long as its pole is beyond the tolerance from them. -/
theorem C113_swapping (c1 c2 : Circle) (h1 : c1.Valid) (h2 : c2.Valid) (positive : Bool)
    (hnt : ¬ (c1.radius = c2.radius ∧ Spec.dist c1.center c2.center = c1.radius + c2.radius)) :
    ∃ i, Inversion.from_swapping_two_circles c1 c2 positive = some i ∧
      (1 / 2 ^ 26 < |sqDist c1.center i.pole - c1.radius ^ 2| → i.invert_circle c1 = .ok (.circle c2)) ∧
      (1 / 2 ^ 26 < |sqDist c2.center i.pole - c2.radius ^ 2| → i.invert_circle c2 = .ok (.circle c1)) := by
  obtain ⟨i, hi, ⟨hk, hs1, hs2⟩, -⟩ := C29_swaps c1 c2 h1 h2 positive hnt
  exact ⟨i, hi, fun h => Tests.invert_circle_eq hk h1 h2 hs1 h, fun h => Tests.invert_circle_eq hk h2 h1 hs2 h⟩

/-- C113, test_swapping_two_circles, circles that do not touch: all the assertions. -/
theorem C113_swapping_apart (c1 c2 : Circle) (h1 : c1.Valid) (h2 : c2.Valid) (positive : Bool) (hne : c1.radius ≠ c2.radius)
    (hf : ∀ s : ℝ, s = c1.radius + c2.radius ∨ s = c2.radius - c1.radius →
      1 / 2 ^ 26 < |c1.radius ^ 2 / s ^ 2 * sqDist c1.center c2.center - c1.radius ^ 2| ∧
      1 / 2 ^ 26 < |c2.radius ^ 2 / s ^ 2 * sqDist c1.center c2.center - c2.radius ^ 2|) :
    ∃ i, Inversion.from_swapping_two_circles c1 c2 positive = some i ∧
      i.invert_circle c1 = .ok (.circle c2) ∧ i.invert_circle c2 = .ok (.circle c1) := by
  have q1 := h1
  have q2 := h2
  unfold Circle.Valid at q1 q2
  obtain ⟨i, hi, k1, k2⟩ := C113_swapping c1 c2 h1 h2 positive fun h => hne h.1
  have hp : c1.radius + c2.radius ≠ 0 := by positivity
  have hm : c2.radius - c1.radius ≠ 0 := sub_ne_zero.2 (Ne.symm hne)
  have e1 : c1.radius / c2.radius / (1 + c1.radius / c2.radius) = c1.radius / (c1.radius + c2.radius) := by
    field_simp; ring
  have e2 : c1.radius / c2.radius / (1 - c1.radius / c2.radius) = c1.radius / (c2.radius - c1.radius) := by
    have : 1 - c1.radius / c2.radius ≠ 0 := by
      intro h0
      apply hne
      field_simp at h0
      linarith
    field_simp
  refine ⟨i, hi, k1 ?_, k2 ?_⟩
  · rcases Tests.swap_pole hi hne with h | h <;> rw [h]
    · rw [e1]
      convert (hf _ (Or.inl rfl)).1 using 3
      unfold sqDist
      simp only [Pt.add_x, Pt.add_y, Pt.smul_x, Pt.smul_y, Pt.sub_x, Pt.sub_y]
      field_simp
      ring
    · rw [e2]
      convert (hf _ (Or.inr rfl)).1 using 3
      unfold sqDist
      simp only [Pt.add_x, Pt.add_y, Pt.smul_x, Pt.smul_y, Pt.sub_x, Pt.sub_y]
      field_simp
      ring
  · rcases Tests.swap_pole hi hne with h | h <;> rw [h]
    · rw [e1]
      convert (hf _ (Or.inl rfl)).2 using 3
      unfold sqDist
      simp only [Pt.add_x, Pt.add_y, Pt.smul_x, Pt.smul_y, Pt.sub_x, Pt.sub_y]
      field_simp
      ring
    · rw [e2]
      convert (hf _ (Or.inr rfl)).2 using 3
      unfold sqDist
      simp only [Pt.add_x, Pt.add_y, Pt.smul_x, Pt.smul_y, Pt.sub_x, Pt.sub_y]
      field_simp
      ring

/-- test_swapping_two_circles, the circles that do not touch -/
example : ∀ cs ∈ [(Circle.mk ⟨0, 2⟩ 3, Circle.mk ⟨4, 5⟩ 1), (Circle.mk ⟨4, 5⟩ 1, Circle.mk ⟨0, 2⟩ 3),
      (Circle.mk ⟨0, 0⟩ 3, Circle.mk ⟨7 / 10, 1⟩ (7 / 10)), (Circle.mk ⟨7 / 10, 1⟩ (7 / 10), Circle.mk ⟨0, 0⟩ 3),
      (Circle.mk ⟨5, 4⟩ 2, Circle.mk ⟨8, 5⟩ 3), (Circle.mk ⟨8, 5⟩ 3, Circle.mk ⟨5, 4⟩ 2)], ∀ positive : Bool,
    ∃ i, Inversion.from_swapping_two_circles cs.1 cs.2 positive = some i ∧
      i.invert_circle cs.1 = .ok (.circle cs.2) ∧ i.invert_circle cs.2 = .ok (.circle cs.1) := by
  intro cs hcs positive
  simp only [List.mem_cons, List.not_mem_nil, or_false] at hcs
  rcases hcs with rfl | rfl | rfl | rfl | rfl | rfl <;>
    refine C113_swapping_apart _ _ (by norm_num [Circle.Valid]) (by norm_num [Circle.Valid]) _ (by norm_num) ?_ <;>
    rintro s (rfl | rfl) <;> norm_num [sqDist, lt_abs]

/-- test_swapping_two_circles, the circles that touch -/
example : ∀ cs ∈ [(Circle.mk ⟨5, 4⟩ 2, Circle.mk ⟨8, 4⟩ 1), (Circle.mk ⟨8, 4⟩ 1, Circle.mk ⟨5, 4⟩ 2)], ∀ positive : Bool,
    ∃ i, Inversion.from_swapping_two_circles cs.1 cs.2 positive = some i ∧
      i.invert_circle cs.1 = .ok (.circle cs.2) ∧ i.invert_circle cs.2 = .ok (.circle cs.1) := by
  intro cs hcs positive
  simp only [List.mem_cons, List.not_mem_nil, or_false] at hcs
  have h9 : √(9 : ℝ) = 3 := by rw [show (9 : ℝ) = 3 ^ 2 by norm_num]; exact Real.sqrt_sq (by norm_num)
  rcases hcs with rfl | rfl
  · obtain ⟨i, h1, h2, h3⟩ := C113_swapping ⟨⟨5, 4⟩, 2⟩ ⟨⟨8, 4⟩, 1⟩ (by norm_num [Circle.Valid]) (by norm_num [Circle.Valid]) positive (by norm_num)
    have hi : i.pole = ⟨11, 4⟩ := by
      unfold Inversion.from_swapping_two_circles distance_ vlength_ at h1
      norm_num [h9] at h1
      rw [← h1]
      ext <;> norm_num
    rw [hi] at h2 h3
    exact ⟨i, h1, h2 (by norm_num [sqDist, lt_abs]), h3 (by norm_num [sqDist, lt_abs])⟩
  · obtain ⟨i, h1, h2, h3⟩ := C113_swapping ⟨⟨8, 4⟩, 1⟩ ⟨⟨5, 4⟩, 2⟩ (by norm_num [Circle.Valid]) (by norm_num [Circle.Valid]) positive (by norm_num)
    have hi : i.pole = ⟨11, 4⟩ := by
      unfold Inversion.from_swapping_two_circles distance_ vlength_ at h1
      norm_num [h9] at h1
      rw [← h1]
      ext <;> norm_num
    rw [hi] at h2 h3
    exact ⟨i, h1, h2 (by norm_num [sqDist, lt_abs]), h3 (by norm_num [sqDist, lt_abs])⟩

/-- C113, test_fixing_two_circles: the inversion maps each circle to itself, as long as its pole is beyond the tolerance from them (the power is
the power of the pole). -/
theorem C113_fixing_two (c1 c2 : Circle) (h1 : c1.Valid) (h2 : c2.Valid) (h : c1.center ≠ c2.center) :
    ∃ i, Inversion.from_fixing_two_circles c1 c2 = .ok i ∧ c1.radical_center c2 = .ok i.pole ∧ i.power = sqDist c1.center i.pole - c1.radius ^ 2 ∧
      (1 / 2 ^ 26 < |i.power| → i.invert_circle c1 = .ok (.circle c1) ∧ i.invert_circle c2 = .ok (.circle c2)) := by
  obtain ⟨R, hR, -, he⟩ := C15_radical_center c1 c2 h
  have e1 : c1.power R = sqDist c1.center R - c1.radius ^ 2 := by rw [power_eq, specPower, sqDist_comm]
  have e2 : c1.power R = sqDist c2.center R - c2.radius ^ 2 := by rw [power_eq, he, specPower, sqDist_comm]
  refine ⟨⟨R, c1.power R⟩, by unfold Inversion.from_fixing_two_circles; rw [hR]; rfl, hR, e1, fun hp => ?_⟩
  have hk : c1.power R ≠ 0 := by
    intro h0
    dsimp only at hp
    rw [h0, abs_zero] at hp
    norm_num at hp
  refine ⟨Tests.invert_circle_eq hk h1 h1 (inv_fixes hk (power_eq _ _)) ?_,
    Tests.invert_circle_eq hk h2 h2 (inv_fixes hk (by rw [← he]; exact power_eq _ _)) ?_⟩
  · rwa [← e1]
  · rwa [← e2]

example : ∃ i, Inversion.from_fixing_two_circles ⟨⟨1, 0⟩, 3⟩ ⟨⟨2, 2⟩, 1⟩ = .ok i ∧
    i.invert_circle ⟨⟨1, 0⟩, 3⟩ = .ok (.circle ⟨⟨1, 0⟩, 3⟩) ∧ i.invert_circle ⟨⟨2, 2⟩, 1⟩ = .ok (.circle ⟨⟨2, 2⟩, 1⟩) := by
  obtain ⟨i, h1, h2, h3, h4⟩ := C113_fixing_two ⟨⟨1, 0⟩, 3⟩ ⟨⟨2, 2⟩, 1⟩ (by norm_num [Circle.Valid]) (by norm_num [Circle.Valid]) (by simp [Pt.ext_iff])
  have hp : i.pole = ⟨23 / 10, 13 / 5⟩ := by
    unfold Circle.radical_center dot1_ dot_ at h2
    norm_num at h2
    rw [← h2]
    ext <;> norm_num
  refine ⟨i, h1, h4 ?_⟩
  rw [h3, hp]
  norm_num [sqDist, lt_abs]

/-- C113, test_fixing_three_circles. -/
theorem C113_fixing_three (c1 c2 c3 : Circle) (h1 : c1.Valid) (h2 : c2.Valid) (h3 : c3.Valid) (i : Inversion)
    (h : Inversion.from_fixing_three_circles c1 c2 c3 = .ok i) (hp : 1 / 2 ^ 26 < |i.power|) :
    i.invert_circle c1 = .ok (.circle c1) ∧ i.invert_circle c2 = .ok (.circle c2) ∧ i.invert_circle c3 = .ok (.circle c3) := by
  have hk : i.power ≠ 0 := by
    intro h0
    rw [h0, abs_zero] at hp
    norm_num at hp
  obtain ⟨f1, f2, f3⟩ := C30_fixing_three c1 c2 c3 i h hk
  unfold Inversion.from_fixing_three_circles at h
  simp only [Res.bind_ok] at h
  obtain ⟨o, ho, h⟩ := h
  cases o with
  | none => simp at h
  | some R =>
    simp only [Res.pure_ok] at h
    subst h
    obtain ⟨⟨e1, e2⟩, -⟩ := C16_radical_center_three c1 c2 c3 R ho
    have q : c1.power R = specPower c1.center c1.radius R := power_eq _ _
    dsimp only at hp
    refine ⟨Tests.invert_circle_eq hk h1 h1 f1 ?_, Tests.invert_circle_eq hk h2 h2 f2 ?_, Tests.invert_circle_eq hk h3 h3 f3 ?_⟩
    · rw [q] at hp; rw [sqDist_comm]; exact hp
    · rw [q, e1] at hp; rw [sqDist_comm]; exact hp
    · rw [q, e2] at hp; rw [sqDist_comm]; exact hp

example : ∃ i, Inversion.from_fixing_three_circles ⟨⟨1, 0⟩, 3⟩ ⟨⟨2, 2⟩, 1⟩ ⟨⟨3, 5⟩, 2⟩ = .ok i ∧
    i.invert_circle ⟨⟨1, 0⟩, 3⟩ = .ok (.circle ⟨⟨1, 0⟩, 3⟩) ∧ i.invert_circle ⟨⟨2, 2⟩, 1⟩ = .ok (.circle ⟨⟨2, 2⟩, 1⟩) ∧
    i.invert_circle ⟨⟨3, 5⟩, 2⟩ = .ok (.circle ⟨⟨3, 5⟩, 2⟩) := by
  have h : Inversion.from_fixing_three_circles ⟨⟨1, 0⟩, 3⟩ ⟨⟨2, 2⟩, 1⟩ ⟨⟨3, 5⟩, 2⟩ = .ok ⟨⟨-1 / 2, 4⟩, 37 / 4⟩ := by
    have nc : ∀ A B : Pt, 1 ≤ |A.x - B.x| → |B.x| ≤ 10 → ¬ allclose A B := by
      intro A B h1 h2 h
      have := h.1
      unfold npClose at this
      linarith
    obtain ⟨R, hR⟩ := (C16_exact ⟨⟨1, 0⟩, 3⟩ ⟨⟨2, 2⟩, 1⟩ ⟨⟨3, 5⟩, 2⟩ (by norm_num [Spec.Collinear, cross])).2 (by
      refine ⟨⟨nc _ _ (by norm_num) (by norm_num [abs_le]), fun R hR => ?_⟩, nc _ _ (by norm_num) (by norm_num [abs_le]), fun R hR => ?_⟩
      · unfold Circle.radical_center dot1_ dot_ at hR
        norm_num at hR
        rw [← hR]
        exact nc _ _ (by norm_num [le_abs]) (by norm_num [abs_le])
      · unfold Circle.radical_center dot1_ dot_ at hR
        norm_num at hR
        rw [← hR]
        exact nc _ _ (by norm_num [le_abs]) (by norm_num [abs_le]))
    have e := (C16_radical_center_three _ _ _ R hR).2 ⟨-1 / 2, 4⟩ (by norm_num [specPower, sqDist]) (by norm_num [specPower, sqDist])
    unfold Inversion.from_fixing_three_circles
    rw [hR, ← e, Res.ok_bind]
    change Except.ok _ = _
    rw [power_eq]
    norm_num [specPower, sqDist]
  exact ⟨_, h, C113_fixing_three _ _ _ (by norm_num [Circle.Valid]) (by norm_num [Circle.Valid]) (by norm_num [Circle.Valid]) _ h (by norm_num [lt_abs])⟩

/-- C113, test_compose_inversions: the composition maps a point to the same point as the two inversions, when the points are not rounded to
the poles. -/
theorem C113_compose (iota1 iota2 : Inversion) (h1 : iota1.power ≠ 0) (h2 : iota2.power ≠ 0) (M P : Pt) (hM : ¬ allclose iota2.pole M)
    (hP : iota2.invert (.fin M) = .fin P) (hPn : ¬ allclose iota1.pole P) :
    (iota2.compose iota1).transform (.fin M) = .ok (iota1.invert (iota2.invert (.fin M))) := by
  refine (C28_exact iota2 iota1 h2 h1 (.fin M)).2 ⟨?_, ?_⟩
  · rintro Q hQ hc
    cases hQ
    exact absurd hc hM
  · rintro Q hQ hc
    rw [hP] at hQ
    cases hQ
    exact absurd hc hPn

example : ∀ k : ℝ, k = 4 ∨ k = -4 → ((⟨⟨3, 2⟩, k⟩ : Inversion).compose ⟨⟨1, 1⟩, 2⟩).transform (.fin ⟨4, 5⟩) =
    .ok ((⟨⟨1, 1⟩, 2⟩ : Inversion).invert ((⟨⟨3, 2⟩, k⟩ : Inversion).invert (.fin ⟨4, 5⟩))) := by
  intro k hk
  have e : (⟨⟨3, 2⟩, k⟩ : Inversion).invert (.fin ⟨4, 5⟩) = .fin ⟨3 + k / 10, 2 + 3 * k / 10⟩ := by
    unfold Inversion.invert
    norm_num [allclose, npClose, dot1_, dot_]
    ext <;> norm_num <;> ring
  rcases hk with rfl | rfl
  · exact C113_compose ⟨⟨1, 1⟩, 2⟩ ⟨⟨3, 2⟩, 4⟩ (by norm_num) (by norm_num) ⟨4, 5⟩ _ (by norm_num [allclose, npClose]) e (by norm_num [allclose, npClose])
  · exact C113_compose ⟨⟨1, 1⟩, 2⟩ ⟨⟨3, 2⟩, -4⟩ (by norm_num) (by norm_num) ⟨4, 5⟩ _ (by norm_num [allclose, npClose]) e (by norm_num [allclose, npClose])

/-! ## test_MidCircles.py -/

/-- C113, test_mid_circles, the circles returned: the inversion on each of them exchanges the two circles. -/
theorem C113_mid_circle (c1 c2 : Circle) (h1 : c1.Valid) (h2 : c2.Valid) (res : MidRes) (h : mid_circles c1 c2 = .ok res)
    (hs : 1 / 2 ^ 26 ≤ 4 * c1.radius * c2.radius) (hc : c1.radius = c2.radius → ¬ allclose c1.center c2.center) :
    res.all (fun g => ∀ m, g = .circle m → 1 / 2 ^ 26 < |sqDist c1.center m.center - c1.radius ^ 2| →
      1 / 2 ^ 26 < |sqDist c2.center m.center - c2.radius ^ 2| →
      (Inversion.on_circle m).invert_circle c1 = .ok (.circle c2) ∧ (Inversion.on_circle m).invert_circle c2 = .ok (.circle c1)) := by
  have key := C23_mid_circles_partial c1 c2 h1 h2 hs (fun e h => absurd h (hc e)) res h
  have one : ∀ g, Swaps g c1 c2 → ∀ m, g = .circle m → 1 / 2 ^ 26 < |sqDist c1.center m.center - c1.radius ^ 2| →
      1 / 2 ^ 26 < |sqDist c2.center m.center - c2.radius ^ 2| →
      (Inversion.on_circle m).invert_circle c1 = .ok (.circle c2) ∧ (Inversion.on_circle m).invert_circle c2 = .ok (.circle c1) := by
    rintro g hg m rfl t1 t2
    obtain ⟨hm, s1, s2⟩ := hg
    have hk : (Inversion.on_circle m).power ≠ 0 := (pow_pos hm 2).ne'
    exact ⟨Tests.invert_circle_eq hk h1 h2 s1 t1, Tests.invert_circle_eq hk h2 h1 s2 t2⟩
  cases res with
  | single g => exact one g key
  | pair g g' => exact ⟨one g key.1, one g' key.2⟩

/-- C113, test_mid_circles, congruent circles: the line is returned, with a circle when the two circles cross, and the reflection in it exchanges
the two circles, when the points that are constructed are not rounded together. -/
theorem C113_mid_line (c1 c2 : Circle) (h1 : c1.Valid) (hr : c1.radius = c2.radius) (hc : ¬ allclose c1.center c2.center) (I v : Pt)
    (hI : I = (c1.center + c2.center) / (2 : ℝ)) (hv : v = ⟨c2.center.y - c1.center.y, -(c2.center.x - c1.center.x)⟩)
    (hl : ¬ allclose (I + v) (I - v)) (hn : ∀ O, O = c1.center ∨ O = c2.center → ¬ allclose (I + v) O ∧ ¬ allclose (I - v) O ∧ ¬ allclose I O) :
    mid_circles c1 c2 = .ok (if sqDist c1.center c2.center < (c1.radius + c2.radius) ^ 2 then
        .pair (.circle ⟨I, √|sqDist I c2.center - c2.radius ^ 2|⟩) (.line ⟨I + v, I - v, true, true⟩) else .single (.line ⟨I + v, I - v, true, true⟩)) ∧
    ∃ R, mkReflection ⟨I + v, I - v, true, true⟩ = .ok R ∧ R.reflect_circle c1 = .ok c2 ∧ R.reflect_circle c2 = .ok c1 := by
  have hline : mkLine (I + v) (I - v) true true = .ok ⟨I + v, I - v, true, true⟩ := mkLine_ok.2 ⟨hl, rfl⟩
  have hIx := congrArg Pt.x hI
  have hIy := congrArg Pt.y hI
  have hvx := congrArg Pt.x hv
  have hvy := congrArg Pt.y hv
  simp only [Pt.div_x, Pt.div_y, Pt.add_x, Pt.add_y] at hIx hIy
  dsimp only at hvx hvy
  constructor
  · unfold mid_circles
    dsimp only
    rw [if_pos hr, if_neg hc, dot1_eq, ← hI, show (c2.center - c1.center).y = c2.center.y - c1.center.y from rfl,
      show (c2.center - c1.center).x = c2.center.x - c1.center.x from rfl, ← hv, hline, Res.ok_bind, dot1_eq]
    split_ifs with hd
    · rw [mkCircle_pos]
      · rw [pow_two c2.radius]; rfl
      · refine Real.sqrt_pos.2 (abs_pos.2 ?_)
        have : sqDist I c2.center - c2.radius * c2.radius = (sqDist c1.center c2.center - (c1.radius + c2.radius) ^ 2) / 4 := by
          unfold sqDist
          rw [hIx, hIy, hr]
          ring
        rw [this]
        intro h0
        linarith
    · rfl
  · refine ⟨⟨⟨I + v, I - v, true, true⟩⟩, by unfold mkReflection; dsimp only; rw [hline]; rfl, ?_⟩
    have hval : (⟨⟨I + v, I - v, true, true⟩⟩ : Reflection).line.Valid := hl
    have hne := ne_of_not_allclose hval
    have half : OnLine (I + v) (I - v) I := ⟨1 / 2, by ext <;> simp <;> ring⟩
    have key : ∀ O O' : Pt, (O = c1.center ∧ O' = c2.center) ∨ (O = c2.center ∧ O' = c1.center) → ∀ r, 0 < r →
        (⟨⟨I + v, I - v, true, true⟩⟩ : Reflection).reflect_circle ⟨O, r⟩ = .ok ⟨O', r⟩ := by
      intro O O' hO r hr
      have hp : Perp (O - I) ((I - v) - (I + v)) := by
        unfold Perp dot
        rcases hO with ⟨rfl, rfl⟩ | ⟨rfl, rfl⟩ <;> simp only [Pt.sub_x, Pt.sub_y, Pt.add_x, Pt.add_y, hIx, hIy, hvx, hvy] <;> ring
      have hn' := hn O (by rcases hO with ⟨h, -⟩ | ⟨h, -⟩ <;> simp [h])
      obtain ⟨Q, hQ, hm⟩ := (C09_exact ⟨⟨I + v, I - v, true, true⟩⟩ hval O I half hp).2 (Or.inr hn')
      have hm' : IsMirror (I + v) (I - v) O O' := by
        refine ⟨?_, ?_⟩
        · have : (O + O') / (2 : ℝ) = I := by
            rw [hI]
            rcases hO with ⟨rfl, rfl⟩ | ⟨rfl, rfl⟩ <;> ext <;> simp [add_comm]
          rw [this]
          exact half
        · unfold Perp dot
          rcases hO with ⟨rfl, rfl⟩ | ⟨rfl, rfl⟩ <;> simp only [Pt.sub_x, Pt.sub_y, Pt.add_x, Pt.add_y, hvx, hvy] <;> ring
      have e := mirror_unique hne hm hm'
      unfold Reflection.reflect_circle
      rw [hQ, Res.ok_bind, e, mkCircle_pos hr]
    have k1 := key c1.center c2.center (Or.inl ⟨rfl, rfl⟩) c1.radius h1
    have k2 := key c2.center c1.center (Or.inr ⟨rfl, rfl⟩) c2.radius (hr ▸ h1)
    obtain ⟨O1, r1⟩ := c1
    obtain ⟨O2, r2⟩ := c2
    dsimp only at hr
    subst hr
    exact ⟨k1, k2⟩

/-- test_mid_circles, two congruent circles which do not intersect each other, and two that touch: one line. -/
example : ∀ cs ∈ [(Circle.mk ⟨1, 2⟩ 3, Circle.mk ⟨14, 15⟩ 3), (Circle.mk ⟨1, 2⟩ 3, Circle.mk ⟨7, 2⟩ 3)], ∃ l R,
    mid_circles cs.1 cs.2 = .ok (.single (.line l)) ∧ mkReflection l = .ok R ∧ R.reflect_circle cs.1 = .ok cs.2 ∧ R.reflect_circle cs.2 = .ok cs.1 := by
  intro cs hcs
  simp only [List.mem_cons, List.not_mem_nil, or_false] at hcs
  rcases hcs with rfl | rfl
  · obtain ⟨h, R, hR, h1, h2⟩ := C113_mid_line ⟨⟨1, 2⟩, 3⟩ ⟨⟨14, 15⟩, 3⟩ (by norm_num [Circle.Valid]) rfl (by norm_num [allclose, npClose])
      ⟨15 / 2, 17 / 2⟩ ⟨13, -13⟩ (by ext <;> norm_num) (by ext <;> norm_num) (by norm_num [allclose, npClose])
      (by rintro O (rfl | rfl) <;> norm_num [allclose, npClose])
    rw [if_neg (by norm_num [sqDist])] at h
    exact ⟨_, R, h, hR, h1, h2⟩
  · obtain ⟨h, R, hR, h1, h2⟩ := C113_mid_line ⟨⟨1, 2⟩, 3⟩ ⟨⟨7, 2⟩, 3⟩ (by norm_num [Circle.Valid]) rfl (by norm_num [allclose, npClose])
      ⟨4, 2⟩ ⟨0, -6⟩ (by ext <;> norm_num) (by ext <;> norm_num) (by norm_num [allclose, npClose])
      (by rintro O (rfl | rfl) <;> norm_num [allclose, npClose])
    rw [if_neg (by norm_num [sqDist])] at h
    exact ⟨_, R, h, hR, h1, h2⟩

/-- test_mid_circles, two congruent circles which intersect each other. -/
example : ∃ m l R, mid_circles ⟨⟨1, 2⟩, 3⟩ ⟨⟨2, 2⟩, 3⟩ = .ok (.pair (.circle m) (.line l)) ∧ mkReflection l = .ok R ∧
    R.reflect_circle ⟨⟨1, 2⟩, 3⟩ = .ok ⟨⟨2, 2⟩, 3⟩ ∧ R.reflect_circle ⟨⟨2, 2⟩, 3⟩ = .ok ⟨⟨1, 2⟩, 3⟩ ∧
    (Inversion.on_circle m).invert_circle ⟨⟨1, 2⟩, 3⟩ = .ok (.circle ⟨⟨2, 2⟩, 3⟩) ∧
    (Inversion.on_circle m).invert_circle ⟨⟨2, 2⟩, 3⟩ = .ok (.circle ⟨⟨1, 2⟩, 3⟩) := by
  have hne : ¬ allclose (⟨1, 2⟩ : Pt) ⟨2, 2⟩ := by norm_num [allclose, npClose]
  obtain ⟨h, R, hR, h1, h2⟩ := C113_mid_line ⟨⟨1, 2⟩, 3⟩ ⟨⟨2, 2⟩, 3⟩ (by norm_num [Circle.Valid]) rfl hne
      ⟨3 / 2, 2⟩ ⟨0, -1⟩ (by ext <;> norm_num) (by ext <;> norm_num) (by norm_num [allclose, npClose])
      (by rintro O (rfl | rfl) <;> norm_num [allclose, npClose])
  rw [if_pos (by norm_num [sqDist])] at h
  have k := (C113_mid_circle _ _ (by norm_num [Circle.Valid]) (by norm_num [Circle.Valid]) _ h (by norm_num) (fun _ => hne)).1 _ rfl
    (by norm_num [sqDist, lt_abs]) (by norm_num [sqDist, lt_abs])
  exact ⟨_, _, R, h, hR, h1, h2, k.1, k.2⟩

namespace Tests

theorem mid_single {c1 c2 : Circle} (h1 : c1.Valid) (h2 : c2.Valid) (hne : c1.radius ≠ c2.radius) (hs : 1 / 2 ^ 26 ≤ 4 * c1.radius * c2.radius)
    {m : Circle} (h : mid_circles c1 c2 = .ok (.single (.circle m))) (t1 : 1 / 2 ^ 26 < |sqDist c1.center m.center - c1.radius ^ 2|)
    (t2 : 1 / 2 ^ 26 < |sqDist c2.center m.center - c2.radius ^ 2|) : ∃ m, mid_circles c1 c2 = .ok (.single (.circle m)) ∧
      (Inversion.on_circle m).invert_circle c1 = .ok (.circle c2) ∧ (Inversion.on_circle m).invert_circle c2 = .ok (.circle c1) :=
  ⟨m, h, C113_mid_circle c1 c2 h1 h2 _ h hs (fun e => absurd e hne) m rfl t1 t2⟩

end Tests

/-- test_mid_circles, two circles outside each other, one inside the other, tangent externally, tangent internally: one circle. -/
example : ∀ cs ∈ [(Circle.mk ⟨0, 2⟩ 3, Circle.mk ⟨4, 5⟩ 1), (Circle.mk ⟨0, 0⟩ 3, Circle.mk ⟨7 / 10, 1⟩ (7 / 10)),
      (Circle.mk ⟨5, 4⟩ 2, Circle.mk ⟨8, 4⟩ 1), (Circle.mk ⟨5, 4⟩ 2, Circle.mk ⟨6, 4⟩ 1)], ∃ m,
    mid_circles cs.1 cs.2 = .ok (.single (.circle m)) ∧
      (Inversion.on_circle m).invert_circle cs.1 = .ok (.circle cs.2) ∧ (Inversion.on_circle m).invert_circle cs.2 = .ok (.circle cs.1) := by
  intro cs hcs
  simp only [List.mem_cons, List.not_mem_nil, or_false] at hcs
  rcases hcs with rfl | rfl | rfl | rfl
  · refine Tests.mid_single (by norm_num [Circle.Valid]) (by norm_num [Circle.Valid]) (by norm_num) (by norm_num) (m := ⟨⟨6, 13 / 2⟩, √(63 / 4)⟩) ?_
      (by norm_num [sqDist, lt_abs]) (by norm_num [sqDist, lt_abs])
    unfold mid_circles
    norm_num [dot1_, dot_, sepsilon_]
    rw [mkCircle_pos (by positivity)]
    refine congrArg (fun c => Except.ok (MidRes.single (GCircle.circle (Circle.mk c _)))) ?_
    ext <;> norm_num
  · refine Tests.mid_single (by norm_num [Circle.Valid]) (by norm_num [Circle.Valid]) (by norm_num) (by norm_num) (m := ⟨⟨21 / 37, 30 / 37⟩, √(2562 / 1369)⟩) ?_
      (by norm_num [sqDist, lt_abs]) (by norm_num [sqDist, lt_abs])
    unfold mid_circles
    norm_num [dot1_, dot_, sepsilon_]
    rw [mkCircle_pos (by positivity)]
    refine congrArg (fun c => Except.ok (MidRes.single (GCircle.circle (Circle.mk c _)))) ?_
    ext <;> norm_num
  · refine Tests.mid_single (by norm_num [Circle.Valid]) (by norm_num [Circle.Valid]) (by norm_num) (by norm_num) (m := ⟨⟨11, 4⟩, √16⟩) ?_
      (by norm_num [sqDist, lt_abs]) (by norm_num [sqDist, lt_abs])
    unfold mid_circles
    norm_num [dot1_, dot_, sepsilon_]
    rw [mkCircle_pos (by positivity)]
    refine congrArg (fun c => Except.ok (MidRes.single (GCircle.circle (Circle.mk c _)))) ?_
    ext <;> norm_num
  · refine Tests.mid_single (by norm_num [Circle.Valid]) (by norm_num [Circle.Valid]) (by norm_num) (by norm_num) (m := ⟨⟨17 / 3, 4⟩, √(16 / 9)⟩) ?_
      (by norm_num [sqDist, lt_abs]) (by norm_num [sqDist, lt_abs])
    unfold mid_circles
    norm_num [dot1_, dot_, sepsilon_]
    rw [mkCircle_pos (by positivity)]
    refine congrArg (fun c => Except.ok (MidRes.single (GCircle.circle (Circle.mk c _)))) ?_
    ext <;> norm_num

/-- test_mid_circles, two intersecting circles. -/
example : ∃ m m', mid_circles ⟨⟨5, 4⟩, 2⟩ ⟨⟨8, 5⟩, 3⟩ = .ok (.pair (.circle m) (.circle m')) ∧ ∀ n ∈ [m, m'],
    (Inversion.on_circle n).invert_circle ⟨⟨5, 4⟩, 2⟩ = .ok (.circle ⟨⟨8, 5⟩, 3⟩) ∧
    (Inversion.on_circle n).invert_circle ⟨⟨8, 5⟩, 3⟩ = .ok (.circle ⟨⟨5, 4⟩, 2⟩) := by
  have h : ∃ r r', mid_circles ⟨⟨5, 4⟩, 2⟩ ⟨⟨8, 5⟩, 3⟩ = .ok (.pair (.circle ⟨⟨-1, 2⟩, r⟩) (.circle ⟨⟨31 / 5, 22 / 5⟩, r'⟩)) := by
    unfold mid_circles
    norm_num [dot1_, dot_, sepsilon_]
    rw [mkCircle_pos (by positivity), mkCircle_pos (by positivity)]
    refine ⟨_, _, congrArg₂ (fun c d => Except.ok (MidRes.pair (GCircle.circle (Circle.mk c _)) (GCircle.circle (Circle.mk d _)))) ?_ ?_⟩ <;>
      ext <;> norm_num
  obtain ⟨r, r', h⟩ := h
  obtain ⟨k, k'⟩ := C113_mid_circle _ _ (by norm_num [Circle.Valid]) (by norm_num [Circle.Valid]) _ h (by norm_num) (by norm_num)
  refine ⟨_, _, h, ?_⟩
  intro n hn
  simp only [List.mem_cons, List.not_mem_nil, or_false] at hn
  rcases hn with rfl | rfl
  · exact k _ rfl (by norm_num [sqDist, lt_abs]) (by norm_num [sqDist, lt_abs])
  · exact k' _ rfl (by norm_num [sqDist, lt_abs]) (by norm_num [sqDist, lt_abs])
