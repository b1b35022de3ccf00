import Verif.Props.TestSuite
import Verif.Props.MobiusPower
import Verif.Props.Triangle
import Verif.Props.Malfatti
import Verif.Props.Random
import Verif.Props.Circle2

/-!
# C113, continued: tests/test_Mobius.py, test_Triangle.py, test_intersections.py

As in TestSuite.lean, each theorem states the assertions of a test for all the inputs for which they hold; the example after it is the test itself.
-/

open Spec Real Classical

namespace Tests

/-- Three different points of a circle are not aligned. -/
theorem not_collinear {O : Pt} {r : ℝ} {A B C : Pt} (hA : OnCircle O r A) (hB : OnCircle O r B) (hC : OnCircle O r C) (h1 : A ≠ B) (h2 : A ≠ C)
    (h3 : B ≠ C) : ¬ Collinear A B C := by
  intro h
  obtain ⟨t, rfl⟩ := (onLine_iff_cross h1).2 h
  unfold OnCircle sqDist at hA hB hC
  simp only [Pt.add_x, Pt.add_y, Pt.smul_x, Pt.smul_y, Pt.sub_x, Pt.sub_y] at hC
  have key : t * (1 - t) * sqDist A B = 0 := by
    unfold sqDist
    linear_combination (1 - t) * hA + t * hB - hC
  rcases mul_eq_zero.1 key with h | h
  · rcases mul_eq_zero.1 h with h | h
    · exact h2 (by rw [h]; ext <;> simp)
    · exact h3 (by rw [show t = 1 by linarith]; ext <;> simp)
  · exact (sqDist_pos h1).ne' h

/-- A line through two points of a line is the same line. -/
theorem onLine_same {A B C D : Pt} (h : A ≠ B) (h' : C ≠ D) (hC : OnLine A B C) (hD : OnLine A B D) (X : Pt) : OnLine A B X ↔ OnLine C D X := by
  obtain ⟨s, rfl⟩ := hC
  obtain ⟨t, rfl⟩ := hD
  have hst : t - s ≠ 0 := fun e => h' (by rw [show t = s by linarith])
  constructor
  · rintro ⟨u, rfl⟩
    refine ⟨(u - s) / (t - s), ?_⟩
    ext <;> simp <;> field_simp <;> ring
  · rintro ⟨u, rfl⟩
    refine ⟨s + u * (t - s), ?_⟩
    ext <;> simp <;> ring

/-- The circle found by `circumcircle`. -/
theorem circumcircle_eq {T : Triangle} {c : Circle} (hc : c.Valid) (h1 : T.A ≠ T.B) (h2 : T.A ≠ T.C) (h3 : T.B ≠ T.C)
    (hA : OnCircle c.center c.radius T.A) (hB : OnCircle c.center c.radius T.B) (hC : OnCircle c.center c.radius T.C) :
    T.circumcircle = .ok (some c) := by
  obtain ⟨d, hd, -, -, -, -, hu⟩ := C40_circumcircle T (not_collinear hA hB hC h1 h2 h3)
  obtain ⟨e1, e2⟩ := hu _ _ hc hA hB hC
  rw [hd]
  obtain ⟨cc, cr⟩ := c
  obtain ⟨dc, dr⟩ := d
  dsimp only at e1 e2
  rw [e1, e2]

theorem images_ne {f : Mobius} (h : Matrix.det f.M ≠ 0) {P Q : Pt} {P' Q' : Pt} (hP : f.transform (.fin P) = .ok (.fin P'))
    (hQ : f.transform (.fin Q) = .ok (.fin Q')) (hne : P ≠ Q) : P' ≠ Q' := by
  obtain ⟨e, he⟩ := C49_bijection f h
  rw [he, Except.ok.injEq] at hP hQ
  rintro rfl
  exact hne (by simpa using e.injective (hP.trans hQ.symm))

end Tests

/-! ## test_Mobius.py -/

/-- C113, test_image_circle, the first two cases: the image of a circle that does not go through the pole is the circumscribed circle of the
images of any three of its points. -/
theorem C113_image_circle (f : Mobius) (h : Matrix.det f.M ≠ 0) (c : Circle) (hc : c.Valid)
    (hp : ∀ P, OnCircle c.center c.radius P → f.transform (.fin P) ≠ .ok .inf) (P Q R : Pt) (hPQ : P ≠ Q) (hPR : P ≠ R) (hQR : Q ≠ R)
    (hP : OnCircle c.center c.radius P) (hQ : OnCircle c.center c.radius Q) (hR : OnCircle c.center c.radius R) :
    ∃ P' Q' R' c', f.transform (.fin P) = .ok (.fin P') ∧ f.transform (.fin Q) = .ok (.fin Q') ∧ f.transform (.fin R) = .ok (.fin R') ∧
      f.transform_circle c = .ok (.circle c') ∧ (⟨P', Q', R'⟩ : Triangle).circumcircle = .ok (some c') ∧ c'.is_equal c' := by
  obtain ⟨c', h1, h2, h3⟩ := C53_circle f h c hc hp
  obtain ⟨e, he⟩ := C49_bijection f h
  have fin : ∀ X, OnCircle c.center c.radius X → ∃ X', f.transform (.fin X) = .ok (.fin X') ∧ OnCircle c'.center c'.radius X' := by
    intro X hX
    have := hp X hX
    have k := h3 (.fin X) (e (.fin X)) (he _)
    rw [he] at this ⊢
    cases hX' : e (.fin X) with
    | inf => exact absurd (by rw [hX']) this
    | fin Y => rw [hX'] at k; exact ⟨Y, rfl, k.1 hX⟩
  obtain ⟨P', p1, p2⟩ := fin P hP
  obtain ⟨Q', q1, q2⟩ := fin Q hQ
  obtain ⟨R', r1, r2⟩ := fin R hR
  exact ⟨P', Q', R', c', p1, q1, r1, h1, Tests.circumcircle_eq h2 (Tests.images_ne h p1 q1 hPQ) (Tests.images_ne h p1 r1 hPR) (Tests.images_ne h q1 r1 hQR)
    p2 q2 r2, C75_reflexive.1 c'⟩

/-- C113, test_image_circle, the last case: when the pole is on the circle and a line is returned, it is equal to the line through the images of
any two points, if this line can be built. -/
theorem C113_image_circle_line (f : Mobius) (h : Matrix.det f.M ≠ 0) (c : Circle) (hc : c.Valid) (M : Pt) (hM : OnCircle c.center c.radius M)
    (hi : f.transform (.fin M) = .ok .inf) (g : GCircle) (hg : f.transform_circle c = .ok g) (P Q : Pt)
    (hP : OnCircle c.center c.radius P) (hQ : OnCircle c.center c.radius Q) (P' Q' : Pt) (hP' : f.transform (.fin P) = .ok (.fin P'))
    (hQ' : f.transform (.fin Q) = .ok (.fin Q')) (l : Line) (hl : mkLine P' Q' true true = .ok l) : ∃ l1, g = .line l1 ∧ l1.is_equal l := by
  obtain ⟨l1, rfl, hv, -, -, hs⟩ := C53_line_partial f h c hc M hM hi g hg
  obtain ⟨hne, rfl⟩ := mkLine_ok.1 hl
  refine ⟨l1, rfl, C04_is_equal_complete _ _ hv hne ?_⟩
  have a := (hs _ _ hP').1 hP
  have b := (hs _ _ hQ').1 hQ
  exact fun X => Tests.onLine_same (ne_of_not_allclose hv) (ne_of_not_allclose hne) a b X

namespace Tests

/-- The points of the test at 0, 60, 120 degrees are different. -/
theorem three_angles : (Circle.mk ⟨2, 3⟩ 4).point_from_angle 0 = ⟨6, 3⟩ ∧ (Circle.mk ⟨2, 3⟩ 4).point_from_angle 60 = ⟨4, 3 + 2 * √3⟩ ∧
    (Circle.mk ⟨2, 3⟩ 4).point_from_angle 120 = ⟨0, 3 + 2 * √3⟩ ∧ (Circle.mk ⟨2, 3⟩ 4).point_from_angle 30 = ⟨2 + 2 * √3, 5⟩ := by
  have e : ∀ t : ℝ, (Circle.mk ⟨2, 3⟩ 4).point_from_angle t = ⟨2 + 4 * cos (t * (π / 180)), 3 + 4 * sin (t * (π / 180))⟩ := fun t => rfl
  simp only [e, Pt.mk.injEq]
  rw [show (60 : ℝ) * (π / 180) = π / 3 by ring, show (120 : ℝ) * (π / 180) = π - π / 3 by ring, show (30 : ℝ) * (π / 180) = π / 6 by ring,
    cos_pi_sub, sin_pi_sub, cos_pi_div_three, sin_pi_div_three, cos_pi_div_six, sin_pi_div_six]
  norm_num
  ring

/-- The second index is found. -/
theorem firstIndex_one {p : ℕ → Prop} (h0 : ¬ p 0) (h1 : p 1) : firstIndex p = .ok 1 := by
  unfold firstIndex
  rw [dif_pos ⟨1, h1⟩]
  congr 1
  rw [Nat.find_eq_iff]
  refine ⟨h1, fun n hn => ?_⟩
  rwa [show n = 0 by omega]

end Tests

/-- test_image_circle, the cases with a circle: the assertions on the numbers of the test. -/
example : ∀ M ∈ [(!![1 + Complex.I, 2; 0, 3 - 2 * Complex.I] : Matrix (Fin 2) (Fin 2) ℂ), !![1 + Complex.I, 2; 2 - 3 * Complex.I, 3 - 2 * Complex.I]],
    ∃ P Q R c', (⟨M⟩ : Mobius).transform (.fin ((Circle.mk ⟨2, 3⟩ 4).point_from_angle 0)) = .ok (.fin P) ∧
      (⟨M⟩ : Mobius).transform (.fin ((Circle.mk ⟨2, 3⟩ 4).point_from_angle 60)) = .ok (.fin Q) ∧
      (⟨M⟩ : Mobius).transform (.fin ((Circle.mk ⟨2, 3⟩ 4).point_from_angle 120)) = .ok (.fin R) ∧
      (⟨M⟩ : Mobius).transform_circle ⟨⟨2, 3⟩, 4⟩ = .ok (.circle c') ∧ (⟨P, Q, R⟩ : Triangle).circumcircle = .ok (some c') ∧ c'.is_equal c' := by
  intro M hM
  obtain ⟨e0, e1, e2, -⟩ := Tests.three_angles
  simp only [List.mem_cons, List.not_mem_nil, or_false] at hM
  have hdet : Matrix.det M ≠ 0 := by
    rcases hM with rfl | rfl <;> rw [Matrix.det_fin_two] <;> simp [Complex.ext_iff] <;> norm_num
  refine C113_image_circle ⟨M⟩ hdet ⟨⟨2, 3⟩, 4⟩ (by norm_num [Circle.Valid]) ?_ _ _ _ (by rw [e0, e1]; norm_num [Pt.ext_iff])
    (by rw [e0, e2]; norm_num [Pt.ext_iff]) (by rw [e1, e2]; norm_num [Pt.ext_iff]) (Tests.on_point _ _ _) (Tests.on_point _ _ _) (Tests.on_point _ _ _)
  intro P hP hi
  rw [transform_inf_iff _ hdet] at hi
  unfold OnCircle sqDist at hP
  rcases hM with rfl | rfl
  · have := congrArg Complex.re hi
    simp [Mobius.c, Mobius.d] at this
  · have h1 := congrArg Complex.re hi
    have h2 := congrArg Complex.im hi
    simp [Mobius.c, Mobius.d, cpx] at h1 h2
    have hx : P.x = -12 / 13 := by linarith
    have hy : P.y = -5 / 13 := by linarith
    rw [hx, hy] at hP
    norm_num at hP

namespace Tests

/-- The transformation of the last case of the test. -/
noncomputable def poleOn : Mobius := ⟨!![1 + Complex.I, 2; 1, -6 - 3 * Complex.I]⟩

theorem poleOn_det : Matrix.det poleOn.M ≠ 0 := by
  unfold poleOn
  rw [Matrix.det_fin_two]
  simp [Complex.ext_iff]
  norm_num

theorem poleOn_transform {x y : ℝ} (h : (x - 6) ^ 2 + (y - 3) ^ 2 ≠ 0) : poleOn.transform (.fin ⟨x, y⟩) =
    .ok (.fin ⟨1 + (5 * (x - 6) + 9 * (y - 3)) / ((x - 6) ^ 2 + (y - 3) ^ 2), 1 + (9 * (x - 6) - 5 * (y - 3)) / ((x - 6) ^ 2 + (y - 3) ^ 2)⟩) := by
  rw [C49_transform _ poleOn_det]
  simp only [IsMobImage, num_fin, den_fin, mul_one, poleOn, Mobius.a, Mobius.b, Mobius.c, Mobius.d, cpx]
  apply Complex.ext <;> simp <;> field_simp <;> ring

end Tests

namespace Tests

theorem poleOn_returns : ∃ g, poleOn.transform_circle ⟨⟨2, 3⟩, 4⟩ = .ok g := by
  have hM : OnCircle (⟨2, 3⟩ : Pt) 4 ⟨6, 3⟩ := by norm_num [OnCircle, sqDist]
  have hi : poleOn.transform (.fin ⟨6, 3⟩) = .ok .inf := by
    rw [transform_inf_iff _ poleOn_det]
    apply Complex.ext <;> simp [poleOn, Mobius.c, Mobius.d, cpx]
  obtain ⟨-, -, he⟩ := transform_circle_eval poleOn poleOn_det ⟨⟨2, 3⟩, 4⟩ ⟨6, 3⟩ hM hi
  have e : ∀ t (n : ℕ), Mobius.loopPoint ⟨⟨2, 3⟩, 4⟩ t n = ⟨2 + 4 * cos (t + n * (1 / 10)), 3 + 4 * sin (t + n * (1 / 10))⟩ := fun t n => rfl
  have hs := sin_gt_sub_cube (x := 1 / 10) (by norm_num)
  have hc := one_sub_sq_div_two_le_cos (x := 1 / 10)
  have hs' := sin_le_one (31 / 10)
  have hs'' := neg_one_le_sin (31 / 10)
  have hc' : cos (31 / 10) ≤ 0 := cos_nonpos_of_pi_div_two_le_of_le (by linarith [pi_lt_d2]) (by linarith [pi_gt_d2])
  have hcs := sin_sq_add_cos_sq (1 / 10)
  have hcs' := sin_sq_add_cos_sq (31 / 10)
  have i1 : firstIndex (fun n => ¬ allclose (Mobius.loopPoint ⟨⟨2, 3⟩, 4⟩ 0 n) ⟨6, 3⟩) = .ok 1 := by
    apply firstIndex_one
    · rw [e]
      norm_num [allclose, npClose]
    · rw [e]
      rintro ⟨-, h⟩
      unfold npClose at h
      norm_num at h hs
      rw [abs_of_nonneg (by linarith)] at h
      linarith
  have i2 : firstIndex (fun m => ¬ allclose (Mobius.loopPoint ⟨⟨2, 3⟩, 4⟩ (((1 : ℕ) : ℝ) * (1 / 10) + 3) m) ⟨6, 3⟩) = .ok 0 := by
    apply firstIndex_zero
    rw [e, show ((1 : ℕ) : ℝ) * (1 / 10) + 3 + ((0 : ℕ) : ℝ) * (1 / 10) = 31 / 10 by norm_num]
    rintro ⟨h, -⟩
    unfold npClose at h
    norm_num at h
    rw [abs_of_nonpos (by linarith)] at h
    linarith
  rw [i1, Res.ok_bind, i2, Res.ok_bind, e, e, show (0 : ℝ) + ((1 : ℕ) : ℝ) * (1 / 10) = 1 / 10 by norm_num,
    show ((1 : ℕ) : ℝ) * (1 / 10) + 3 + ((0 : ℕ) : ℝ) * (1 / 10) = 31 / 10 by norm_num] at he
  obtain ⟨c, hce⟩ : ∃ c, c = cos (1 / 10) := ⟨_, rfl⟩
  obtain ⟨c', hce'⟩ : ∃ c, c = cos (31 / 10) := ⟨_, rfl⟩
  obtain ⟨s, hse⟩ : ∃ c, c = sin (1 / 10) := ⟨_, rfl⟩
  obtain ⟨s', hse'⟩ : ∃ c, c = sin (31 / 10) := ⟨_, rfl⟩
  rw [← hce, ← hce', ← hse, ← hse'] at he
  rw [← hse, ← hce] at hcs
  rw [← hse', ← hce'] at hcs'
  rw [← hse] at hs
  rw [← hce] at hc
  rw [← hce'] at hc'
  rw [← hse'] at hs' hs''
  have hc1 : 0 < 1 - c := by nlinarith
  have n1 : (2 + 4 * c - 6) ^ 2 + (3 + 4 * s - 3) ^ 2 = 32 * (1 - c) := by linear_combination 16 * hcs
  have n2 : (2 + 4 * c' - 6) ^ 2 + (3 + 4 * s' - 3) ^ 2 = 32 * (1 - c') := by linear_combination 16 * hcs'
  rw [poleOn_transform (by rw [n1]; positivity), Res.ok_bind, poleOn_transform (by rw [n2]; linarith), Res.ok_bind] at he
  have hne : ¬ allclose
      (⟨1 + (5 * (2 + 4 * c - 6) + 9 * (3 + 4 * s - 3)) / ((2 + 4 * c - 6) ^ 2 + (3 + 4 * s - 3) ^ 2),
        1 + (9 * (2 + 4 * c - 6) - 5 * (3 + 4 * s - 3)) / ((2 + 4 * c - 6) ^ 2 + (3 + 4 * s - 3) ^ 2)⟩ : Pt)
      ⟨1 + (5 * (2 + 4 * c' - 6) + 9 * (3 + 4 * s' - 3)) / ((2 + 4 * c' - 6) ^ 2 + (3 + 4 * s' - 3) ^ 2),
        1 + (9 * (2 + 4 * c' - 6) - 5 * (3 + 4 * s' - 3)) / ((2 + 4 * c' - 6) ^ 2 + (3 + 4 * s' - 3) ^ 2)⟩ := by
    rintro ⟨h, -⟩
    rw [n1, n2] at h
    unfold npClose at h
    dsimp only at h
    have w1 : 20 ≤ (5 * (2 + 4 * c - 6) + 9 * (3 + 4 * s - 3)) / (32 * (1 - c)) := by
      rw [le_div_iff₀ (by positivity)]
      norm_num at hs hc
      linarith
    have w2 : (5 * (2 + 4 * c' - 6) + 9 * (3 + 4 * s' - 3)) / (32 * (1 - c')) ≤ 2 := by
      rw [div_le_iff₀ (by linarith)]
      linarith
    have w3 : -2 ≤ (5 * (2 + 4 * c' - 6) + 9 * (3 + 4 * s' - 3)) / (32 * (1 - c')) := by
      rw [le_div_iff₀ (by linarith)]
      linarith
    obtain ⟨p, hp⟩ : ∃ p, p = (5 * (2 + 4 * c - 6) + 9 * (3 + 4 * s - 3)) / (32 * (1 - c)) := ⟨_, rfl⟩
    obtain ⟨q, hq⟩ : ∃ q, q = (5 * (2 + 4 * c' - 6) + 9 * (3 + 4 * s' - 3)) / (32 * (1 - c')) := ⟨_, rfl⟩
    rw [← hp, ← hq] at h
    rw [← hp] at w1
    rw [← hq] at w2 w3
    have a1 := (abs_le.1 h).2
    have a2 : |1 + q| ≤ 3 := abs_le.2 ⟨by linarith, by linarith⟩
    linarith
  exact ⟨_, he.trans (by unfold mkLineX; dsimp only; rw [mkLine_ok.2 ⟨hne, rfl⟩]; rfl)⟩

end Tests

/-- test_image_circle, the case with the pole `6 + 3i` on the circle. -/
example : ∃ P Q l1 l2, Tests.poleOn.transform_circle ⟨⟨2, 3⟩, 4⟩ = .ok (.line l1) ∧
    Tests.poleOn.transform (.fin ((Circle.mk ⟨2, 3⟩ 4).point_from_angle 30)) = .ok (.fin P) ∧
    Tests.poleOn.transform (.fin ((Circle.mk ⟨2, 3⟩ 4).point_from_angle 60)) = .ok (.fin Q) ∧ mkLine P Q true true = .ok l2 ∧ l1.is_equal l2 := by
  obtain ⟨-, e1, -, e3⟩ := Tests.three_angles
  have hs3 : √3 ^ 2 = 3 := Real.sq_sqrt (by norm_num)
  have s1 : (1.73 : ℝ) < √3 := Real.lt_sqrt_of_sq_lt (by norm_num)
  have s2 : √3 < (1.7321 : ℝ) := (Real.sqrt_lt' (by norm_num)).2 (by norm_num)
  have hM : OnCircle (⟨2, 3⟩ : Pt) 4 ⟨6, 3⟩ := by norm_num [OnCircle, sqDist]
  have hi : Tests.poleOn.transform (.fin ⟨6, 3⟩) = .ok .inf := by
    rw [transform_inf_iff _ Tests.poleOn_det]
    apply Complex.ext <;> simp [Tests.poleOn, Mobius.c, Mobius.d, cpx]
  obtain ⟨g, hg⟩ := Tests.poleOn_returns
  have n1 : (2 + 2 * √3 - 6) ^ 2 + ((5 : ℝ) - 3) ^ 2 = 32 - 16 * √3 := by linear_combination 4 * hs3
  have n2 : ((4 : ℝ) - 6) ^ 2 + (3 + 2 * √3 - 3) ^ 2 = 16 := by linear_combination 4 * hs3
  have hP := Tests.poleOn_transform (x := 2 + 2 * √3) (y := 5) (by rw [n1]; linarith)
  have hQ := Tests.poleOn_transform (x := 4) (y := 3 + 2 * √3) (by rw [n2]; norm_num)
  rw [← e3] at hP
  rw [← e1] at hQ
  rw [n1] at hP
  rw [n2] at hQ
  have hne : ¬ allclose (⟨1 + (5 * (2 + 2 * √3 - 6) + 9 * (5 - 3)) / (32 - 16 * √3), 1 + (9 * (2 + 2 * √3 - 6) - 5 * (5 - 3)) / (32 - 16 * √3)⟩ : Pt)
      ⟨1 + (5 * (4 - 6) + 9 * (3 + 2 * √3 - 3)) / 16, 1 + (9 * (4 - 6) - 5 * (3 + 2 * √3 - 3)) / 16⟩ := by
    rintro ⟨h, -⟩
    unfold npClose at h
    dsimp only at h
    have w : 3 ≤ (5 * (2 + 2 * √3 - 6) + 9 * (5 - 3)) / (32 - 16 * √3) := by
      rw [le_div_iff₀ (by linarith)]
      linarith
    have a1 := (abs_le.1 h).2
    rw [abs_of_pos (by linarith)] at a1
    linarith
  have hl := (mkLine_ok (ea := true) (eb := true)).2 ⟨hne, rfl⟩
  obtain ⟨l1, rfl, h⟩ := C113_image_circle_line Tests.poleOn Tests.poleOn_det ⟨⟨2, 3⟩, 4⟩ (by norm_num [Circle.Valid]) ⟨6, 3⟩ hM hi g hg _ _
    (Tests.on_point _ 30 true) (Tests.on_point _ 60 true) _ _ hP hQ _ hl
  exact ⟨_, _, l1, _, hg, hP, hQ, hl, h⟩

/-- C113, test_image_line: in case `c = 0`, the image is a line when something is returned; otherwise the image of a line far from the pole is the
circumscribed circle of the images of any three of its points. -/
theorem C113_image_line (f : Mobius) (h : Matrix.det f.M ≠ 0) (l : Line) (hl : l.Valid) :
    (f.c = 0 → ∀ g, f.transform_line l = .ok g → ∃ l', g = .line l') ∧
    ∀ M, f.transform (.fin M) = .ok .inf → sepsilon_ * Spec.dist l.A l.B < 2 * ‖f.M 1 0‖ ^ 2 * |cross (l.B - l.A) (M - l.A)| →
      ∀ P Q R, P ≠ Q → P ≠ R → Q ≠ R → OnLine l.A l.B P → OnLine l.A l.B Q → OnLine l.A l.B R →
      ∃ P' Q' R' c', f.transform (.fin P) = .ok (.fin P') ∧ f.transform (.fin Q) = .ok (.fin Q') ∧ f.transform (.fin R) = .ok (.fin R') ∧
        f.transform_line l = .ok (.circle c') ∧ (⟨P', Q', R'⟩ : Triangle).circumcircle = .ok (some c') ∧ c'.is_equal c' := by
  obtain ⟨k1, k2⟩ := C54_transform_line_partial f h l hl
  refine ⟨fun hc g hg => ?_, fun M hM hs P Q R hPQ hPR hQR hP hQ hR => ?_⟩
  · obtain ⟨l', h', -⟩ := k2 (fun M hM => by
      exfalso
      unfold Mobius.transform at hM
      dsimp only at hM
      rw [if_neg (fun h => h.1 hc)] at hM
      simp only [Res.bind_ok, Res.pure_ok] at hM
      obtain ⟨a, -, h⟩ := hM
      cases h) g hg
    exact ⟨l', h'⟩
  · obtain ⟨c', h1, h2, h3⟩ := k1 M hM hs
    obtain ⟨e, he⟩ := C49_bijection f h
    have fin : ∀ X, OnLine l.A l.B X → ∃ X', f.transform (.fin X) = .ok (.fin X') ∧ OnCircle c'.center c'.radius X' := by
      intro X hX
      have k := h3 (.fin X) (e (.fin X)) (he _)
      rw [he]
      cases hX' : e (.fin X) with
      | inf => rw [hX'] at k; exact absurd (k.1 hX) id
      | fin Y => rw [hX'] at k; exact ⟨Y, rfl, k.1 hX⟩
    obtain ⟨P', p1, p2⟩ := fin P hP
    obtain ⟨Q', q1, q2⟩ := fin Q hQ
    obtain ⟨R', r1, r2⟩ := fin R hR
    exact ⟨P', Q', R', c', p1, q1, r1, h1, Tests.circumcircle_eq h2 (Tests.images_ne h p1 q1 hPQ) (Tests.images_ne h p1 r1 hPR) (Tests.images_ne h q1 r1 hQR)
      p2 q2 r2, C75_reflexive.1 c'⟩

/-- test_image_line, the numbers of the test: a line in the first case, ... -/
example : ∃ l', (⟨!![1 + Complex.I, 2; 0, 3 - 2 * Complex.I]⟩ : Mobius).transform_line ⟨⟨2, 3⟩, ⟨1, 5⟩, true, true⟩ = .ok (.line l') := by
  have hdet : Matrix.det (!![1 + Complex.I, 2; 0, 3 - 2 * Complex.I] : Matrix (Fin 2) (Fin 2) ℂ) ≠ 0 := by
    rw [Matrix.det_fin_two]
    simp [Complex.ext_iff]
  have hP : (⟨!![1 + Complex.I, 2; 0, 3 - 2 * Complex.I]⟩ : Mobius).transform (.fin ⟨2, 3⟩) = .ok (.fin ⟨-7 / 13, 17 / 13⟩) := by
    rw [C49_transform _ hdet]
    simp [IsMobImage, num, den, cpx, Complex.ext_iff]
    norm_num
  have hQ : (⟨!![1 + Complex.I, 2; 0, 3 - 2 * Complex.I]⟩ : Mobius).transform (.fin ⟨1, 5⟩) = .ok (.fin ⟨-18 / 13, 14 / 13⟩) := by
    rw [C49_transform _ hdet]
    simp [IsMobImage, num, den, cpx, Complex.ext_iff]
    norm_num
  have hne : ¬ allclose (⟨-7 / 13, 17 / 13⟩ : Pt) ⟨-18 / 13, 14 / 13⟩ := by
    rintro ⟨h, -⟩
    norm_num [npClose, abs_of_neg, abs_of_pos] at h
  refine ⟨⟨⟨-7 / 13, 17 / 13⟩, ⟨-18 / 13, 14 / 13⟩, true, true⟩, ?_⟩
  unfold Mobius.transform_line
  dsimp only
  rw [if_neg, hP, Res.ok_bind, hQ, Res.ok_bind]
  · unfold mkLineX
    dsimp only
    rw [mkLine_ok.2 ⟨hne, rfl⟩]
    rfl
  · have := sepsilon_pos
    simp [Mobius.c, mod2_]
    exact this.le

/-- ... and in the second one the pole `(-12 - 5i)/13` is far from the line. -/
example : ∃ P Q R c', (⟨!![1 + Complex.I, 2; 2 - 3 * Complex.I, 3 - 2 * Complex.I]⟩ : Mobius).transform (.fin ⟨2, 3⟩) = .ok (.fin P) ∧
    (⟨!![1 + Complex.I, 2; 2 - 3 * Complex.I, 3 - 2 * Complex.I]⟩ : Mobius).transform (.fin ⟨1, 5⟩) = .ok (.fin Q) ∧
    (⟨!![1 + Complex.I, 2; 2 - 3 * Complex.I, 3 - 2 * Complex.I]⟩ : Mobius).transform (.fin ((⟨2, 3⟩ + ⟨1, 5⟩ : Pt) / (2 : ℝ))) = .ok (.fin R) ∧
    (⟨!![1 + Complex.I, 2; 2 - 3 * Complex.I, 3 - 2 * Complex.I]⟩ : Mobius).transform_line ⟨⟨2, 3⟩, ⟨1, 5⟩, true, true⟩ = .ok (.circle c') ∧
    (⟨P, Q, R⟩ : Triangle).circumcircle = .ok (some c') ∧ c'.is_equal c' := by
  have hdet : Matrix.det (!![1 + Complex.I, 2; 2 - 3 * Complex.I, 3 - 2 * Complex.I] : Matrix (Fin 2) (Fin 2) ℂ) ≠ 0 := by
    rw [Matrix.det_fin_two]
    simp [Complex.ext_iff]
    norm_num
  refine (C113_image_line ⟨!![1 + Complex.I, 2; 2 - 3 * Complex.I, 3 - 2 * Complex.I]⟩ hdet ⟨⟨2, 3⟩, ⟨1, 5⟩, true, true⟩
    (by norm_num [Line.Valid, allclose, npClose])).2 ⟨-12 / 13, -5 / 13⟩ ?_ ?_ _ _ _ (by norm_num [Pt.ext_iff]) (by norm_num [Pt.ext_iff])
    (by norm_num [Pt.ext_iff]) ⟨0, by ext <;> norm_num⟩ ⟨1, by ext <;> norm_num⟩ ⟨1 / 2, by ext <;> norm_num⟩
  · rw [transform_inf_iff _ hdet]
    apply Complex.ext <;> simp [Mobius.c, Mobius.d, cpx] <;> norm_num
  · have hd : Spec.dist (⟨2, 3⟩ : Pt) ⟨1, 5⟩ < 3 := by
      unfold Spec.dist
      rw [Real.sqrt_lt' (by norm_num)]
      norm_num [sqDist]
    have hn : ‖(2 - 3 * Complex.I : ℂ)‖ ^ 2 = 13 := by
      rw [Complex.sq_norm, Complex.normSq_apply]
      norm_num
    have hc : |cross ((⟨1, 5⟩ : Pt) - ⟨2, 3⟩) (⟨-12 / 13, -5 / 13⟩ - ⟨2, 3⟩)| = 120 / 13 := by
      norm_num [cross]
    change sepsilon_ * Spec.dist (⟨2, 3⟩ : Pt) ⟨1, 5⟩ < 2 * ‖(2 - 3 * Complex.I : ℂ)‖ ^ 2 * |cross ((⟨1, 5⟩ : Pt) - ⟨2, 3⟩) (⟨-12 / 13, -5 / 13⟩ - ⟨2, 3⟩)|
    rw [hn, hc]
    unfold sepsilon_
    linarith

/-- C113, test_mapping_three_points. -/
theorem C113_mapping_three (P1 P2 P3 Q1 Q2 Q3 : Pt) (hP : P1 ≠ P2 ∧ P1 ≠ P3 ∧ P2 ≠ P3) (hQ : Q1 ≠ Q2 ∧ Q1 ≠ Q3 ∧ Q2 ≠ Q3) :
    ∃ f R1 R2 R3, Mobius.from_mapping_three_points (.fin P1) (.fin P2) (.fin P3) (.fin Q1) (.fin Q2) (.fin Q3) = .ok (some f) ∧
      f.transform (.fin P1) = .ok (.fin R1) ∧ f.transform (.fin P2) = .ok (.fin R2) ∧ f.transform (.fin P3) = .ok (.fin R3) ∧
      allclose Q1 R1 ∧ allclose Q2 R2 ∧ allclose Q3 R3 := by
  obtain ⟨f, h1, -, h2, h3, h4⟩ := (C55_exact (.fin P1) (.fin P2) (.fin P3) (.fin Q1) (.fin Q2) (.fin Q3)).2 (by simpa using ⟨hP, hQ⟩)
  exact ⟨f, _, _, _, h1, h2, h3, h4, allclose_refl _, allclose_refl _, allclose_refl _⟩

example : ∃ f R1 R2 R3, Mobius.from_mapping_three_points (.fin ⟨1, 2⟩) (.fin ⟨3, 4⟩) (.fin ⟨7, 7⟩) (.fin ⟨2, 1⟩) (.fin ⟨4, 4⟩) (.fin ⟨-7, 7⟩) = .ok (some f) ∧
    f.transform (.fin ⟨1, 2⟩) = .ok (.fin R1) ∧ f.transform (.fin ⟨3, 4⟩) = .ok (.fin R2) ∧ f.transform (.fin ⟨7, 7⟩) = .ok (.fin R3) ∧
    allclose ⟨2, 1⟩ R1 ∧ allclose ⟨4, 4⟩ R2 ∧ allclose ⟨-7, 7⟩ R3 :=
  C113_mapping_three _ _ _ _ _ _ (by norm_num [Pt.ext_iff]) (by norm_num [Pt.ext_iff])

/-- C113, test_mapping_one_circle. -/
theorem C113_mapping_one_circle (c1 c2 : Circle) (h1 : c1.Valid) (h2 : c2.Valid) :
    (Mobius.from_mapping_one_circle c1 c2).transform_circle c1 = .ok (.circle c2) ∧ c2.is_equal c2 := by
  obtain ⟨hd, hm⟩ := C56_from_mapping_one_circle c1 c2 h1 h2
  obtain ⟨c', k1, k2, k3⟩ := C53_circle _ hd c1 h1 (fun P hP hi => (hm _ _ hi).1 hP)
  obtain ⟨e, he⟩ := C49_bijection _ hd
  obtain ⟨e1, e2⟩ := Tests.circle_agree (O := c1.center) k2 h2 (C := c'.center) (D := c2.center) (fun Q _ hQ => by
    have hX := (k3 (e.symm (.fin Q)) (.fin Q) (by rw [he]; simp)).2 hQ
    exact (hm (e.symm (.fin Q)) (.fin Q) (by rw [he]; simp)).1 hX)
  refine ⟨?_, C75_reflexive.1 c2⟩
  rw [k1]
  obtain ⟨cc, cr⟩ := c'
  obtain ⟨dc, dr⟩ := c2
  dsimp only at e1 e2
  rw [e1, e2]

example : (Mobius.from_mapping_one_circle ⟨⟨2, 3⟩, 4⟩ ⟨⟨4, 3⟩, 5⟩).transform_circle ⟨⟨2, 3⟩, 4⟩ = .ok (.circle ⟨⟨4, 3⟩, 5⟩) :=
  (C113_mapping_one_circle ⟨⟨2, 3⟩, 4⟩ ⟨⟨4, 3⟩, 5⟩ (by norm_num [Circle.Valid]) (by norm_num [Circle.Valid])).1

/-- C113, test_generalized_power: the matrices of `power(n)` and `gpower(n)` are equal, and those of `power(-n)` and `gpower(-n)` are proportional
(equal for determinant `1`). -/
theorem C113_gpower (eig : Matrix (Fin 2) (Fin 2) ℂ → Mobius.Eig) (f : Mobius) (h : Matrix.det f.M ≠ 0)
    (he : Mobius.IsEig f.M (eig f.M)) (hx : ExactPower f.M) (n : ℕ) :
    (∃ p g, f.power n = .ok p ∧ f.gpower eig n = .ok g ∧ p.M = g.M) ∧
    ∃ p g, f.power (-(n : ℝ)) = .ok p ∧ f.gpower eig (-(n : ℝ)) = .ok g ∧ p.M = Matrix.det f.M ^ n • g.M ∧
      (g.M 0 0 ≠ 0 → p.M = (p.M 0 0 / g.M 0 0) • g.M) := by
  obtain ⟨F, hF, hg⟩ := gpower_group eig f h he hx
  have hu : IsUnit (Matrix.det f.M) := isUnit_iff_ne_zero.2 h
  have h0 : F 0 = 1 := by
    have := hF.add 1 0
    rw [add_zero, hF.one] at this
    have e := congrArg (f.M⁻¹ * ·) this
    simp only [← Matrix.mul_assoc, Matrix.nonsing_inv_mul _ hu, Matrix.one_mul] at e
    exact e.symm
  have hn : ∀ n : ℕ, F n = f.M ^ n := by
    intro n
    induction n with
    | zero => simpa using h0
    | succ n ih => rw [Nat.cast_succ, hF.add, ih, hF.one, pow_succ]
  have hneg : F (-(n : ℝ)) * f.M ^ n = 1 := by rw [← hn, ← hF.add, neg_add_cancel, h0]
  have hinv : f.inverse.M * f.M = Matrix.det f.M • 1 := by
    rw [Matrix.det_fin_two]
    ext i j
    fin_cases i <;> fin_cases j <;> simp [Mobius.inverse, Mobius.a, Mobius.b, Mobius.c, Mobius.d, Matrix.mul_apply, Fin.sum_univ_two] <;> ring
  have hinv' : f.M * f.inverse.M = Matrix.det f.M • 1 := by
    rw [Matrix.det_fin_two]
    ext i j
    fin_cases i <;> fin_cases j <;> simp [Mobius.inverse, Mobius.a, Mobius.b, Mobius.c, Mobius.d, Matrix.mul_apply, Fin.sum_univ_two] <;> ring
  have hcomm : Commute f.inverse.M f.M := hinv.trans hinv'.symm
  have hpow : f.inverse.M ^ n = Matrix.det f.M ^ n • F (-(n : ℝ)) := by
    have e1 : f.M ^ n * f.inverse.M ^ n = Matrix.det f.M ^ n • 1 := by
      rw [← hcomm.symm.mul_pow, hinv', smul_pow, one_pow]
    calc f.inverse.M ^ n = F (-(n : ℝ)) * f.M ^ n * f.inverse.M ^ n := by rw [hneg, one_mul]
      _ = _ := by rw [mul_assoc, e1, mul_smul_comm, mul_one]
  have pp : f.power n = .ok ⟨f.M ^ n⟩ := by
    unfold Mobius.power
    dsimp only
    rw [if_pos (Nat.cast_nonneg n)]
    have : ¬ (n : ℤ) < 0 := by omega
    simp [this]
  have pm : f.power (-(n : ℝ)) = .ok ⟨f.inverse.M ^ n⟩ := by
    unfold Mobius.power
    dsimp only
    rcases Nat.eq_zero_or_pos n with rfl | hn
    · simp
    · have : (0 : ℝ) < n := by exact_mod_cast hn
      have e : ⌈-(n : ℝ)⌉ = -(n : ℤ) := by rw [Int.ceil_neg, Int.floor_natCast]
      rw [if_neg (show ¬ (0 : ℝ) ≤ -(n : ℝ) by linarith), e]
      simp [hn]
  refine ⟨⟨_, _, pp, hg n, (hn n).symm⟩, _, _, pm, hg _, hpow, fun hne => ?_⟩
  dsimp only at hne ⊢
  rw [hpow, Matrix.smul_apply, smul_eq_mul, mul_div_cancel_right₀ _ hne]

/-- test_generalized_power: the three matrices of the test are among the exact cases. -/
example : ∀ M ∈ [(!![1 + 2 * Complex.I, 0; 0, 1 + 2 * Complex.I] : Matrix (Fin 2) (Fin 2) ℂ), !![1, 3 * Complex.I; 0, 1], !![1, 3 * Complex.I; 1 + 2 * Complex.I, 1]],
    Matrix.det M ≠ 0 ∧ ExactPower M := by
  intro M hM
  simp only [List.mem_cons, List.not_mem_nil, or_false] at hM
  rcases hM with rfl | rfl | rfl
  · refine ⟨by rw [Matrix.det_fin_two]; simp [Complex.ext_iff], Or.inr ⟨?_, Or.inl ⟨_, rfl⟩⟩⟩
    rw [Matrix.det_fin_two, Matrix.trace_fin_two]
    simp
    ring
  · refine ⟨by rw [Matrix.det_fin_two]; simp, Or.inr ⟨?_, Or.inr ?_⟩⟩
    · rw [Matrix.det_fin_two, Matrix.trace_fin_two]
      simp
      norm_num
    · rintro ⟨-, h, -⟩
      unfold npCloseC at h
      simp at h
      norm_num at h
  · refine ⟨by rw [Matrix.det_fin_two]; simp [Complex.ext_iff], Or.inl ?_⟩
    rw [Matrix.det_fin_two, Matrix.trace_fin_two]
    have : (24 : ℝ) ≤ ‖(!![1, 3 * Complex.I; 1 + 2 * Complex.I, 1] 0 0 + !![1, 3 * Complex.I; 1 + 2 * Complex.I, 1] 1 1) ^ 2 -
        4 * (!![1, 3 * Complex.I; 1 + 2 * Complex.I, 1] 0 0 * !![1, 3 * Complex.I; 1 + 2 * Complex.I, 1] 1 1 -
          !![1, 3 * Complex.I; 1 + 2 * Complex.I, 1] 0 1 * !![1, 3 * Complex.I; 1 + 2 * Complex.I, (1 : ℂ)] 1 0)‖ := by
      refine le_trans ?_ (Complex.abs_re_le_norm _)
      simp [Complex.I_sq, pow_two]
      norm_num [le_abs]
    unfold sepsilon_
    linarith

/-! ## test_Triangle.py -/

/-- Two circles touching from the outside have one common point. -/
theorem Tests.ext_unique {O₁ O₂ P Q : Pt} {r₁ r₂ : ℝ} (h1 : 0 < r₁) (h2 : 0 < r₂) (h : ExtTangent O₁ r₁ O₂ r₂) (p1 : OnCircle O₁ r₁ P)
    (p2 : OnCircle O₂ r₂ P) (q1 : OnCircle O₁ r₁ Q) (q2 : OnCircle O₂ r₂ Q) : P = Q := by
  have hd : sqDist O₁ O₂ = (r₁ + r₂) ^ 2 := by rw [← dist_sq, h]
  have key : ∀ X, OnCircle O₁ r₁ X → OnCircle O₂ r₂ X →
      (r₁ + r₂) * X.x = r₂ * O₁.x + r₁ * O₂.x ∧ (r₁ + r₂) * X.y = r₂ * O₁.y + r₁ * O₂.y := by
    intro X x1 x2
    unfold OnCircle sqDist at x1 x2
    unfold sqDist at hd
    have e : ((r₁ + r₂) * X.x - (r₂ * O₁.x + r₁ * O₂.x)) ^ 2 + ((r₁ + r₂) * X.y - (r₂ * O₁.y + r₁ * O₂.y)) ^ 2 = 0 := by
      linear_combination (r₂ * (r₁ + r₂)) * x1 + (r₁ * (r₁ + r₂)) * x2 - r₁ * r₂ * hd
    constructor <;> nlinarith [sq_nonneg ((r₁ + r₂) * X.x - (r₂ * O₁.x + r₁ * O₂.x)), sq_nonneg ((r₁ + r₂) * X.y - (r₂ * O₁.y + r₁ * O₂.y))]
  have hs : r₁ + r₂ ≠ 0 := by linarith
  ext
  · exact mul_left_cancel₀ hs ((key P p1 p2).1.trans (key Q q1 q2).1.symm)
  · exact mul_left_cancel₀ hs ((key P p1 p2).2.trans (key Q q1 q2).2.symm)

/-- C113, test_malfatti_tangent: the circles touch two by two and the points of contact are those returned. -/
theorem C113_malfatti (T : Triangle) (h : ¬ Collinear T.A T.B T.C) :
    ∃ m, T.malfatti_circles = .ok (some m) ∧ (¬ m.cA.is_equal m.cB → intersection_circle_circle m.cA m.cB = .ok (.one m.TC)) ∧
      (¬ m.cA.is_equal m.cC → intersection_circle_circle m.cA m.cC = .ok (.one m.TB)) ∧
      (¬ m.cB.is_equal m.cC → intersection_circle_circle m.cB m.cC = .ok (.one m.TA)) := by
  obtain ⟨m, hm, hc⟩ := C43_malfatti T h
  exact ⟨m, hm,
    fun hn => C22_tangent _ _ hc.posA hc.posB hn _ hc.cAB.1 hc.cAB.2 fun X x1 x2 => Tests.ext_unique hc.posA hc.posB hc.tAB x1 x2 hc.cAB.1 hc.cAB.2,
    fun hn => C22_tangent _ _ hc.posA hc.posC hn _ hc.cAC.1 hc.cAC.2 fun X x1 x2 => Tests.ext_unique hc.posA hc.posC hc.tAC x1 x2 hc.cAC.1 hc.cAC.2,
    fun hn => C22_tangent _ _ hc.posB hc.posC hn _ hc.cBC.1 hc.cBC.2 fun X x1 x2 => Tests.ext_unique hc.posB hc.posC hc.tBC x1 x2 hc.cBC.1 hc.cBC.2⟩

namespace Tests

/-- Circles touching from the outside, with centres in the square `[0, 3] × [0, 5]`, that `is_equal` does not separate, are tiny. -/
theorem tiny {c1 c2 : Circle} (h1 : 0 < c1.radius) (h2 : 0 < c2.radius) (h : ExtTangent c1.center c1.radius c2.center c2.radius)
    (hx : 0 ≤ c2.center.x ∧ c2.center.x ≤ 3) (hy : 0 ≤ c2.center.y ∧ c2.center.y ≤ 5) (he : c1.is_equal c2) :
    c1.radius ≤ 1 / 1000 ∧ c2.radius ≤ 1 / 1000 ∧ |c1.center.x - c2.center.x| ≤ 1 / 1000 ∧ |c1.center.y - c2.center.y| ≤ 1 / 1000 := by
  obtain ⟨-, k1, k2⟩ := he
  unfold npClose at k1 k2
  rw [abs_of_nonneg hx.1] at k1
  rw [abs_of_nonneg hy.1] at k2
  have hd : sqDist c1.center c2.center = (c1.radius + c2.radius) ^ 2 := by rw [← dist_sq, h]
  unfold sqDist at hd
  have m1 : |c1.center.x - c2.center.x| ≤ 1 / 10000 := by linarith
  have m2 : |c1.center.y - c2.center.y| ≤ 1 / 10000 := by linarith
  have s1 : (c1.center.x - c2.center.x) ^ 2 ≤ (1 / 10000) ^ 2 := by rw [← sq_abs]; exact pow_le_pow_left₀ (abs_nonneg _) m1 2
  have s2 : (c1.center.y - c2.center.y) ^ 2 ≤ (1 / 10000) ^ 2 := by rw [← sq_abs]; exact pow_le_pow_left₀ (abs_nonneg _) m2 2
  have s3 : c1.radius + c2.radius ≤ 1 / 1000 := abs_le_of_sq_le_sq' (by linarith) (by norm_num) |>.2
  exact ⟨by linarith, by linarith, by linarith, by linarith⟩

/-- A tangent to a tiny circle passes near its centre. -/
theorem tangent_near {O A B : Pt} {r : ℝ} (h : TangentLine O r A B) (hne : A ≠ B) (hr : 0 < r) (hr' : r ≤ 1 / 1000) (hn : sqDist A B ≤ 36) :
    |cross (B - A) (O - A)| ≤ 6 / 1000 := by
  rw [tangentLine_iff hne] at h
  refine abs_le_of_sq_le_sq (h.trans_le ?_) (by norm_num)
  have : r ^ 2 ≤ (1 / 1000) ^ 2 := pow_le_pow_left₀ hr.le hr' 2
  have h0 : 0 ≤ sqDist A B := sqDist_nonneg A B
  nlinarith [sq_nonneg r]

end Tests

/-- test_malfatti_tangent: the circles of the triangle of the test are not equal for `is_equal`. -/
example : ∃ m, (⟨⟨0, 0⟩, ⟨1, 5⟩, ⟨3, 3⟩⟩ : Triangle).malfatti_circles = .ok (some m) ∧
    intersection_circle_circle m.cA m.cB = .ok (.one m.TC) ∧ intersection_circle_circle m.cA m.cC = .ok (.one m.TB) ∧
    intersection_circle_circle m.cB m.cC = .ok (.one m.TA) := by
  have hT : ¬ Collinear (⟨0, 0⟩ : Pt) ⟨1, 5⟩ ⟨3, 3⟩ := by norm_num [Collinear, cross]
  obtain ⟨m, hm, h1, h2, h3⟩ := C113_malfatti ⟨⟨0, 0⟩, ⟨1, 5⟩, ⟨3, 3⟩⟩ hT
  obtain ⟨m', hm', hc⟩ := C43_malfatti ⟨⟨0, 0⟩, ⟨1, 5⟩, ⟨3, 3⟩⟩ hT
  obtain rfl : m = m' := by
    have := hm.symm.trans hm'
    simpa using this
  have box : ∀ O : Pt, InTriangle ⟨0, 0⟩ ⟨1, 5⟩ ⟨3, 3⟩ O → (0 ≤ O.x ∧ O.x ≤ 3) ∧ (0 ≤ O.y ∧ O.y ≤ 5) := by
    rintro O ⟨u, v, w, hu, hv, hw, hs, rfl⟩
    simp
    refine ⟨⟨?_, ?_⟩, ?_, ?_⟩ <;> linarith
  have ab : (⟨0, 0⟩ : Pt) ≠ ⟨1, 5⟩ := by simp
  have bc : (⟨1, 5⟩ : Pt) ≠ ⟨3, 3⟩ := by simp
  have ca : (⟨3, 3⟩ : Pt) ≠ ⟨0, 0⟩ := by simp
  have nA : m.cA.radius ≤ 1 / 1000 → |m.cA.center.x| ≤ 1 / 10 ∧ |m.cA.center.y| ≤ 1 / 10 := by
    intro hr
    have t1 := Tests.tangent_near hc.tanA.1 ab hc.posA hr (by norm_num [sqDist])
    have t2 := Tests.tangent_near hc.tanA.2 ca hc.posA hr (by norm_num [sqDist])
    simp only [cross, Pt.sub_x, Pt.sub_y] at t1 t2
    rw [abs_le] at t1 t2 ⊢
    rw [abs_le]
    refine ⟨⟨?_, ?_⟩, ?_, ?_⟩ <;> linarith
  have nB : m.cB.radius ≤ 1 / 1000 → |m.cB.center.x - 1| ≤ 1 / 10 ∧ |m.cB.center.y - 5| ≤ 1 / 10 := by
    intro hr
    have t1 := Tests.tangent_near hc.tanB.1 bc hc.posB hr (by norm_num [sqDist])
    have t2 := Tests.tangent_near hc.tanB.2 ab hc.posB hr (by norm_num [sqDist])
    simp only [cross, Pt.sub_x, Pt.sub_y] at t1 t2
    rw [abs_le] at t1 t2 ⊢
    rw [abs_le]
    refine ⟨⟨?_, ?_⟩, ?_, ?_⟩ <;> linarith
  have nC : m.cC.radius ≤ 1 / 1000 → |m.cC.center.x - 3| ≤ 1 / 10 ∧ |m.cC.center.y - 3| ≤ 1 / 10 := by
    intro hr
    have t1 := Tests.tangent_near hc.tanC.1 ca hc.posC hr (by norm_num [sqDist])
    have t2 := Tests.tangent_near hc.tanC.2 bc hc.posC hr (by norm_num [sqDist])
    simp only [cross, Pt.sub_x, Pt.sub_y] at t1 t2
    rw [abs_le] at t1 t2 ⊢
    rw [abs_le]
    refine ⟨⟨?_, ?_⟩, ?_, ?_⟩ <;> linarith
  refine ⟨m, hm, h1 fun he => ?_, h2 fun he => ?_, h3 fun he => ?_⟩
  · obtain ⟨r1, r2, d1, d2⟩ := Tests.tiny hc.posA hc.posB hc.tAB (box _ hc.inB).1 (box _ hc.inB).2 he
    have a := (abs_le.1 (nA r1).2).2
    have b := (abs_le.1 (nB r2).2).1
    have d := (abs_le.1 d2).1
    linarith
  · obtain ⟨r1, r2, d1, d2⟩ := Tests.tiny hc.posA hc.posC hc.tAC (box _ hc.inC).1 (box _ hc.inC).2 he
    have a := (abs_le.1 (nA r1).2).2
    have b := (abs_le.1 (nC r2).2).1
    have d := (abs_le.1 d2).1
    linarith
  · obtain ⟨r1, r2, d1, d2⟩ := Tests.tiny hc.posB hc.posC hc.tBC (box _ hc.inC).1 (box _ hc.inC).2 he
    have a := (abs_le.1 (nB r1).2).1
    have b := (abs_le.1 (nC r2).2).2
    have d := (abs_le.1 d2).2
    linarith

/-- C113, test_excircles: every excircle touches the three sidelines at one point, in whatever order the ends of the sides are given. -/
theorem C113_excircles (T : Triangle) (h : ¬ Collinear T.A T.B T.C) :
    ∃ cA cB cC, T.excircles = .ok (cA, cB, cC) ∧ ∀ c ∈ [cA, cB, cC], ∀ l : Line, l.Valid →
      (l.A ∈ [T.A, T.B, T.C] ∧ l.B ∈ [T.A, T.B, T.C]) → ∃ I, intersection_circle_line c l = .one I := by
  obtain ⟨cA, cB, cC, he, ht, -⟩ := C39_excircles T h
  refine ⟨cA, cB, cC, he, fun c hc l hl hs => ?_⟩
  obtain ⟨-, t1, t2, t3⟩ := ht c hc
  have sw : ∀ {A B : Pt}, TangentLine c.center c.radius A B → TangentLine c.center c.radius B A := by
    rintro A B ⟨I, i1, i2, i3⟩
    exact ⟨I, onLine_comm.1 i1, i2, fun X hX => i3 X (onLine_comm.1 hX)⟩
  have hne := ne_of_not_allclose hl
  have ht' : TangentLine c.center c.radius l.A l.B := by
    obtain ⟨ha, hb⟩ := hs
    simp only [List.mem_cons, List.not_mem_nil, or_false] at ha hb
    rcases ha with ha | ha | ha <;> rcases hb with hb | hb | hb <;> rw [ha, hb] at hne ⊢ <;>
      first | exact absurd rfl hne | assumption | exact sw (by assumption)
  obtain ⟨I, i1, i2, i3⟩ := ht'
  exact ⟨I, C21_tangent c l hl I i1 i2 i3⟩

/-- test_excircles: the lines of the test are accepted by the constructor. -/
example : ¬ Collinear (⟨0, 0⟩ : Pt) ⟨1, 5⟩ ⟨3, 3⟩ ∧ Line.Valid ⟨⟨0, 0⟩, ⟨1, 5⟩, true, true⟩ ∧ Line.Valid ⟨⟨0, 0⟩, ⟨3, 3⟩, true, true⟩ ∧
    Line.Valid ⟨⟨1, 5⟩, ⟨3, 3⟩, true, true⟩ := by
  refine ⟨by norm_num [Collinear, cross], ?_, ?_, ?_⟩ <;> norm_num [Line.Valid, allclose, npClose]

/-- C113, test_contains: a random point of a triangle is contained in it when the draws are not on the edge of the unit square; a zero draw gives a point
of the boundary, on which `contains` is `False`. -/
theorem C113_contains (T : Triangle) (h : ¬ Collinear T.A T.B T.C) (g : Gen) (hg : g.Valid) (n : ℤ) (hn : 0 < n) :
    ∃ pts, T.random_points g n "in" = .ok pts ∧ pts.length = n.toNat ∧
      ∀ (j : ℕ) (hj : j < pts.length) (hj' : j < n.toNat),
        T.contains pts[j] ↔ g.rand n.toNat ⟨j, hj'⟩ ≠ 0 ∧ g.rand' n.toNat ⟨j, hj'⟩ ≠ 0 := by
  refine ⟨_, by unfold Triangle.random_points; rw [if_neg (not_le.2 hn), if_pos rfl], List.length_ofFn, fun j hj hj' => ?_⟩
  rw [C35_contains T h, List.getElem_ofFn]
  obtain ⟨a1, a2⟩ := hg.1 n.toNat ⟨j, hj'⟩
  obtain ⟨b1, b2⟩ := hg.2.1 n.toNat ⟨j, hj'⟩
  obtain ⟨a, ha⟩ : ∃ a, a = g.rand n.toNat ⟨j, hj'⟩ := ⟨_, rfl⟩
  obtain ⟨b, hb⟩ : ∃ b, b = g.rand' n.toNat ⟨j, hj'⟩ := ⟨_, rfl⟩
  have hpt : runif_in_triangle_ g n.toNat T.A T.B T.C ⟨j, hj'⟩ = (1 - sqrt b) • T.A + (sqrt b * (1 - a)) • T.B + (a * sqrt b) • T.C := by
    unfold runif_in_triangle_
    rw [ha, hb]
    ext <;> simp <;> ring
  rw [hpt, ← ha, ← hb]
  rw [← ha] at a1 a2
  rw [← hb] at b1 b2
  constructor
  · rintro ⟨u, v, w, hu, hv, hw, hs, e⟩
    have hw' : a * sqrt b = w := by
      have hS : cross (T.B - T.A) (T.C - T.A) ≠ 0 := h
      apply mul_right_cancel₀ hS
      have ex := congrArg Pt.x e
      have ey := congrArg Pt.y e
      simp at ex ey
      simp only [cross, Pt.sub_x, Pt.sub_y]
      have hu' : u = 1 - v - w := by linarith
      subst hu'
      linear_combination (T.B.x - T.A.x) * ey - (T.B.y - T.A.y) * ex
    constructor
    · rintro rfl
      rw [zero_mul] at hw'
      linarith
    · rintro rfl
      rw [Real.sqrt_zero, mul_zero] at hw'
      linarith
  · rintro ⟨ha0, hb0⟩
    have a0 : 0 < a := lt_of_le_of_ne a1 (Ne.symm ha0)
    have b0 : 0 < b := lt_of_le_of_ne b1 (Ne.symm hb0)
    have s0 : 0 < sqrt b := Real.sqrt_pos.2 b0
    have s1 : sqrt b < 1 := by rw [Real.sqrt_lt' one_pos]; linarith
    exact ⟨_, _, _, by linarith, mul_pos s0 (by linarith), mul_pos a0 s0, by ring, rfl⟩

/-- test_contains: the triangle of the test, three points. -/
example (g : Gen) (hg : g.Valid) (h : ∀ j, g.rand 3 j ≠ 0 ∧ g.rand' 3 j ≠ 0) : ∃ P Q R,
    (⟨⟨0, 0⟩, ⟨1, 5⟩, ⟨3, 3⟩⟩ : Triangle).random_points g 3 "in" = .ok [P, Q, R] ∧ (⟨⟨0, 0⟩, ⟨1, 5⟩, ⟨3, 3⟩⟩ : Triangle).contains P ∧
    (⟨⟨0, 0⟩, ⟨1, 5⟩, ⟨3, 3⟩⟩ : Triangle).contains Q ∧ (⟨⟨0, 0⟩, ⟨1, 5⟩, ⟨3, 3⟩⟩ : Triangle).contains R := by
  obtain ⟨pts, h1, h2, h3⟩ := C113_contains ⟨⟨0, 0⟩, ⟨1, 5⟩, ⟨3, 3⟩⟩ (by norm_num [Collinear, cross]) g hg 3 (by norm_num)
  obtain ⟨P, Q, R, rfl⟩ := List.length_eq_three.1 (show pts.length = 3 from h2)
  exact ⟨P, Q, R, h1, (h3 0 (by simp) (by decide)).2 (h _), (h3 1 (by simp) (by decide)).2 (h _), (h3 2 (by simp) (by decide)).2 (h _)⟩

/-! ## test_intersections.py -/

/-- C113, test_intersection_circle_circle, first part: the circumscribed circles of two triangles with a common side `AB`, when they cross clearly, are
found to meet at `A` and `B`. -/
theorem C113_two_circumcircles (A B C D : Pt) (hC : ¬ Collinear A B C) (hD : ¬ Collinear A B D) :
    ∃ c1 c2, (⟨A, B, C⟩ : Triangle).circumcircle = .ok (some c1) ∧ (⟨A, B, D⟩ : Triangle).circumcircle = .ok (some c2) ∧
      (¬ c1.is_equal c2 → sqDist c1.center c2.center + 1 / 2 ^ 26 ≤ (c1.radius + c2.radius) ^ 2 →
        (c1.radius - c2.radius) ^ 2 + 1 / 2 ^ 26 ≤ sqDist c1.center c2.center →
        ∃ I J, intersection_circle_circle c1 c2 = .ok (.two I J) ∧ ((I = A ∧ J = B) ∨ (I = B ∧ J = A))) := by
  obtain ⟨c1, e1, v1, a1, b1, -⟩ := C40_circumcircle ⟨A, B, C⟩ hC
  obtain ⟨c2, e2, v2, a2, b2, -⟩ := C40_circumcircle ⟨A, B, D⟩ hD
  refine ⟨c1, c2, e1, e2, fun hne ha hb => ?_⟩
  obtain ⟨I, J, h⟩ := C22_two_of_secant c1 c2 v1 v2 hne ha hb
  obtain ⟨hIJ, k⟩ := C22_two c1 c2 v1 v2 I J h
  have hAB : A ≠ B := (ne_of_not_collinear hC).1
  refine ⟨I, J, h, ?_⟩
  rcases (k A).1 ⟨a1, a2⟩ with rfl | rfl <;> rcases (k B).1 ⟨b1, b2⟩ with rfl | rfl
  · exact absurd rfl hAB
  · exact Or.inl ⟨rfl, rfl⟩
  · exact Or.inr ⟨rfl, rfl⟩
  · exact absurd rfl hAB

/-- test_intersection_circle_circle, first part: the numbers of the test. -/
example : ∃ c1 c2, (⟨⟨0, 0⟩, ⟨2, 0⟩, ⟨3, 2⟩⟩ : Triangle).circumcircle = .ok (some c1) ∧ (⟨⟨0, 0⟩, ⟨2, 0⟩, ⟨3, -3⟩⟩ : Triangle).circumcircle = .ok (some c2) ∧
    ∃ I J, intersection_circle_circle c1 c2 = .ok (.two I J) ∧ ((I = ⟨0, 0⟩ ∧ J = ⟨2, 0⟩) ∨ (I = ⟨2, 0⟩ ∧ J = ⟨0, 0⟩)) := by
  obtain ⟨c1, c2, h1, h2, h⟩ := C113_two_circumcircles ⟨0, 0⟩ ⟨2, 0⟩ ⟨3, 2⟩ ⟨3, -3⟩ (by norm_num [Collinear, cross]) (by norm_num [Collinear, cross])
  have p1 : 0 < √(65 / 16 : ℝ) := Real.sqrt_pos.2 (by norm_num)
  have p2 : 0 < √(5 : ℝ) := Real.sqrt_pos.2 (by norm_num)
  have q1 : √(65 / 16 : ℝ) ^ 2 = 65 / 16 := Real.sq_sqrt (by norm_num)
  have q2 : √(5 : ℝ) ^ 2 = 5 := Real.sq_sqrt (by norm_num)
  have k1 := Tests.circumcircle_eq (T := ⟨⟨0, 0⟩, ⟨2, 0⟩, ⟨3, 2⟩⟩) (c := ⟨⟨1, 7 / 4⟩, √(65 / 16)⟩) p1 (by simp) (by simp) (by simp)
    (by unfold OnCircle; rw [q1]; norm_num [sqDist]) (by unfold OnCircle; rw [q1]; norm_num [sqDist]) (by unfold OnCircle; rw [q1]; norm_num [sqDist])
  have k2 := Tests.circumcircle_eq (T := ⟨⟨0, 0⟩, ⟨2, 0⟩, ⟨3, -3⟩⟩) (c := ⟨⟨1, -2⟩, √5⟩) p2 (by simp) (by simp) (by simp)
    (by norm_num [OnCircle, sqDist]) (by norm_num [OnCircle, sqDist]) (by norm_num [OnCircle, sqDist])
  rw [k1] at h1
  rw [k2] at h2
  simp only [Except.ok.injEq, Option.some.injEq] at h1 h2
  subst h1 h2
  refine ⟨_, _, k1, k2, h ?_ ?_ ?_⟩
  · rintro ⟨-, -, h⟩
    norm_num [npClose, abs_of_pos] at h
  · dsimp only [sqDist]
    have : √(65 / 16 : ℝ) * √5 ≥ 4 := by
      rw [← Real.sqrt_mul (by norm_num)]
      exact Real.le_sqrt_of_sq_le (by norm_num)
    nlinarith
  · dsimp only [sqDist]
    nlinarith [mul_pos p1 p2]

/-- C113, test_intersection_circle_circle, last part: circles away from each other, or one well inside the other, give `None`. -/
theorem C113_no_intersection (c1 c2 : Circle) (h1 : c1.Valid) (h2 : c2.Valid) (hne : ¬ c1.is_equal c2)
    (h : (c1.radius + c2.radius) ^ 2 + 1 / 2 ^ 26 < sqDist c1.center c2.center ∨
      sqDist c1.center c2.center + 1 / 2 ^ 26 < (c1.radius - c2.radius) ^ 2) : intersection_circle_circle c1 c2 = .ok .none := by
  have he : sepsilon_ = 1 / 2 ^ 26 := rfl
  rcases icc_cases c1 c2 h1 h2 hne with ⟨-, h3⟩ | ⟨h3, -⟩ | ⟨h3, h4, -⟩
  · exact h3
  · refine absurd ?_ h3
    rw [he]
    rcases h with h | h
    · left; linarith
    · right; linarith
  · rw [he] at h3 h4
    rcases h with h | h <;> linarith

/-- test_intersection_circle_circle, second part: the touching circles of the test. -/
example : intersection_circle_circle ⟨⟨0, 0⟩, 2⟩ ⟨⟨5, 0⟩, 3⟩ = .ok (.one ⟨2, 0⟩) := by
  refine C22_tangent _ _ (by norm_num [Circle.Valid]) (by norm_num [Circle.Valid]) ?_ _ (by norm_num [OnCircle, sqDist]) (by norm_num [OnCircle, sqDist]) ?_
  · rintro ⟨-, h, -⟩
    norm_num [npClose, abs_of_pos] at h
  · intro X x1 x2
    unfold OnCircle sqDist at x1 x2
    dsimp only at x1 x2
    have hx : X.x = 2 := by linarith
    rw [hx] at x1
    have hy : X.y = 0 := by
      have : X.y ^ 2 = 0 := by linarith
      simpa using this
    ext
    · exact hx
    · exact hy

/-- test_intersection_circle_circle, third part. -/
example : intersection_circle_circle ⟨⟨0, 0⟩, 2⟩ ⟨⟨5, 0⟩, 1⟩ = .ok .none ∧ intersection_circle_circle ⟨⟨4, 0⟩, 2⟩ ⟨⟨5, 0⟩, 5⟩ = .ok .none := by
  constructor
  · refine C113_no_intersection _ _ (by norm_num [Circle.Valid]) (by norm_num [Circle.Valid]) ?_ (Or.inl (by norm_num [sqDist]))
    rintro ⟨-, h, -⟩
    norm_num [npClose, abs_of_pos] at h
  · refine C113_no_intersection _ _ (by norm_num [Circle.Valid]) (by norm_num [Circle.Valid]) ?_ (Or.inr (by norm_num [sqDist]))
    rintro ⟨-, h, -⟩
    norm_num [npClose, abs_of_pos] at h
