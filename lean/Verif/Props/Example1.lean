import Verif.Props.TestSuite3
import Verif.Props.Exact

/-!
# C119: the checks printed by examples/example1.py

The script prints, for one choice of data, facts that should hold for all data: the common points of a line with a circle or an ellipse are on the curve
(95-102), `from_ellipse_to_ellipse` sends the first ellipse onto the second (119-122), `power` and `gpower` agree (125-131), the image of a point of a circle
is on the image of the circle (134-138), the projection on a line is on the line (141-144), a reflection is its own inverse (147-151).  Each theorem states such
a check for all the data for which it holds; the example after it is the computation of the script.

Lines 41 and 46 call `LownerJohnEllipse` and `from_boundary4`, which use `np.float`; with a numpy that no longer has this name the script stops there,
and with an older numpy it stops at line 47, since an `Ellipse` object cannot be indexed.  The checks below are those of the rest of the script.
-/

open Spec Real Classical

/-- C119, example1.py 51-56: rotating a point and rotating rows that repeat this point give the same image, on every row. -/
theorem C119_rotate (R : Rotation) (P : Pt) (n : ℕ) :
    ∃ (Q : Pt) (N : Matrix (Fin n) (Fin 2) ℝ), R.rotate (.vec [P.x, P.y]) = .ok (.pt Q) ∧
      R.rotate (.mat n 2 (Matrix.of fun _ => ![P.x, P.y])) = .ok (.mat n N) ∧ ∀ i, N i 0 = Q.x ∧ N i 1 = Q.y := by
  obtain ⟨N1, -, h1⟩ := (C63_rotation R).1 1 (Matrix.of fun _ => ![P.x, P.y])
  obtain ⟨N, h2, h3⟩ := (C63_rotation R).1 n (Matrix.of fun _ => ![P.x, P.y])
  refine ⟨⟨N1 0 0, N1 0 1⟩, N, by simpa using h1 0, h2, fun i => ?_⟩
  have := (h3 i).symm.trans (h1 0)
  simpa using this

/-- The rotation of the script. -/
example : (⟨⟨1, 1⟩, 30, true⟩ : Rotation).rotatePt ⟨2, 1⟩ = .ok ⟨1 + √3 / 2, 3 / 2⟩ := by
  rw [Rotation.rotatePt_eq _ _ (π / 6) (by rw [if_pos rfl]; ring), cos_pi_div_six, sin_pi_div_six, Except.ok.injEq, Pt.mk.injEq]
  constructor <;> ring

/-- C119, example1.py 62-68: the circumscribed circle includes the three vertices. -/
theorem C119_circumcircle (T : Triangle) (h : ¬ Collinear T.A T.B T.C) :
    ∃ c, T.circumcircle = .ok (some c) ∧ c.includes T.A ∧ c.includes T.B ∧ c.includes T.C := by
  obtain ⟨c, hc, hv, a, b, d, -⟩ := C40_circumcircle T h
  exact ⟨c, hc, (C14_includes _ _).1 a, (C14_includes _ _).1 b, (C14_includes _ _).1 d⟩

/-- The triangle of the script: its flatness and its circumscribed circle. -/
example : (⟨⟨0, 0⟩, ⟨1, 0⟩, ⟨2, 1⟩⟩ : Triangle).flatness = .ok (4 / 5) ∧
    ∃ c, (⟨⟨0, 0⟩, ⟨1, 0⟩, ⟨2, 1⟩⟩ : Triangle).circumcircle = .ok (some c) ∧ c.includes ⟨0, 0⟩ := by
  constructor
  · unfold Triangle.flatness pyDiv
    norm_num
  · obtain ⟨c, h1, h2, -⟩ := C119_circumcircle ⟨⟨0, 0⟩, ⟨1, 0⟩, ⟨2, 1⟩⟩ (by norm_num [Collinear, cross])
    exact ⟨c, h1, h2⟩

/-- C119, example1.py 93-96: the two points found on a line and a circle are included in both. -/
theorem C119_circle_line (c : Circle) (l : Line) (hl : l.Valid) (P Q : Pt) (h : intersection_circle_line c l = .two P Q) :
    (c.includes P ∧ c.includes Q) ∧ l.includes P = true ∧ l.includes Q = true := by
  obtain ⟨-, hx⟩ := C21_two c l hl P Q h
  obtain ⟨p1, p2⟩ := (hx P).2 (Or.inl rfl)
  obtain ⟨q1, q2⟩ := (hx Q).2 (Or.inr rfl)
  exact ⟨⟨(C14_includes _ _).1 p2, (C14_includes _ _).1 q2⟩, (C05_includes l hl _).2 (Or.inl p1), (C05_includes l hl _).2 (Or.inl q1)⟩

/-- C119, example1.py 99-102: the two points found on a line and an ellipse are included in both. -/
theorem C119_ellipse_line (e : Ellipse) (he : e.Valid) (l : Line) (hl : l.Valid) (P Q : Pt)
    (h : intersection_ellipse_line (.ell e) l = .ok (.two P Q)) :
    (e.includes P ∧ e.includes Q) ∧ l.includes P = true ∧ l.includes Q = true := by
  obtain ⟨-, hx⟩ := C70_two (.ell e) he l hl P Q h
  obtain ⟨p1, p2⟩ := (hx P).2 (Or.inl rfl)
  obtain ⟨q1, q2⟩ := (hx Q).2 (Or.inr rfl)
  exact ⟨⟨(C64_includes e he P p2).1, (C64_includes e he Q q2).1⟩, (C05_includes l hl _).2 (Or.inl p1), (C05_includes l hl _).2 (Or.inl q1)⟩

/-- The circle and the line of the script have two common points. -/
example : ∃ P Q, intersection_circle_line ⟨⟨1, 1⟩, 5⟩ ⟨⟨2, -2⟩, ⟨0, 4⟩, true, true⟩ = .two P Q ∧ (⟨⟨1, 1⟩, 5⟩ : Circle).includes P ∧
    (⟨⟨1, 1⟩, 5⟩ : Circle).includes Q := by
  have hv : (⟨⟨2, -2⟩, ⟨0, 4⟩, true, true⟩ : Line).Valid := by
    norm_num [Line.Valid, allclose, npClose]
  rcases icl_cases ⟨⟨1, 1⟩, 5⟩ ⟨⟨2, -2⟩, ⟨0, 4⟩, true, true⟩ hv _ rfl with ⟨h, -⟩ | ⟨-, h, -⟩ | ⟨-, P, Q, -, h, -⟩
  · norm_num [sqDist, cross] at h
  · norm_num [sqDist, cross, sepsilon_] at h
  · exact ⟨P, Q, h, (C119_circle_line _ _ hv P Q h).1⟩

/-- The ellipse and the line of the script have two common points. -/
example : ∃ P Q, intersection_ellipse_line (.ell ⟨⟨1, 1⟩, 5, 1, 30, true⟩) ⟨⟨2, -2⟩, ⟨0, 4⟩, true, true⟩ = .ok (.two P Q) ∧
    (⟨⟨1, 1⟩, 5, 1, 30, true⟩ : Ellipse).includes P ∧ (⟨⟨1, 1⟩, 5, 1, 30, true⟩ : Ellipse).includes Q := by
  have hv : (⟨⟨2, -2⟩, ⟨0, 4⟩, true, true⟩ : Line).Valid := by
    norm_num [Line.Valid, allclose, npClose]
  have he : (⟨⟨1, 1⟩, 5, 1, 30, true⟩ : Ellipse).Valid := ⟨by norm_num, by norm_num⟩
  have h3 : 1 < √(3 : ℝ) := by rw [lt_sqrt (by norm_num)]; norm_num
  have hq := sq_sqrt (show (0 : ℝ) ≤ 3 by norm_num)
  have hf : ∀ X : Pt, (Affine.ofEllipse (.ell ⟨⟨1, 1⟩, 5, 1, 30, true⟩)).transform X =
      ⟨5 * (√3 / 2) * X.x - 1 / 2 * X.y + 1, 5 * (1 / 2) * X.x + √3 / 2 * X.y + 1⟩ := by
    intro X
    unfold Affine.ofEllipse
    dsimp only
    rw [if_pos rfl, show (30 : ℝ) * (π / 180) = π / 6 by ring, cos_pi_div_six, sin_pi_div_six]
    ext
    · simp [Affine.transform]
      ring
    · simp [Affine.transform]
  have inv : ∀ X : Pt, ∀ p q, (Affine.ofEllipse (.ell ⟨⟨1, 1⟩, 5, 1, 30, true⟩)).transform X = ⟨p, q⟩ →
      X.x = ((p - 1) * √3 / 2 + (q - 1) / 2) / 5 ∧ X.y = (q - 1) * √3 / 2 - (p - 1) / 2 := by
    intro X p q h
    rw [hf, Pt.mk.injEq] at h
    obtain ⟨h1, h2⟩ := h
    constructor
    · linear_combination (√3 / 10) * h1 + (1 / 10) * h2 - X.x / 4 * hq
    · linear_combination (√3 / 2) * h2 - (1 / 2) * h1 - X.y / 4 * hq
  rcases iel_cases ⟨⟨1, 1⟩, 5, 1, 30, true⟩ he ⟨⟨2, -2⟩, ⟨0, 4⟩, true, true⟩ with ⟨m, -, PA, PB, hc, hA, hB⟩ | ⟨l2, v, ⟨hA, hB⟩, -, hcase⟩
  · exfalso
    obtain ⟨-, a⟩ := inv _ _ _ hA
    obtain ⟨-, b⟩ := inv _ _ _ hB
    have := hc.2
    rw [a, b] at this
    unfold npClose at this
    rw [abs_of_neg (by linarith), abs_of_pos (by linarith)] at this
    norm_num at this
    linarith
  · obtain ⟨a1, a2⟩ := inv _ _ _ hA
    obtain ⟨b1, b2⟩ := inv _ _ _ hB
    rcases icl_cases ⟨⟨0, 0⟩, 1⟩ l2 v _ rfl with ⟨h, -⟩ | ⟨-, h, -⟩ | ⟨-, P, Q, -, h, -⟩
    · exfalso
      simp only [sqDist, cross, Pt.sub_x, Pt.sub_y, a1, a2, b1, b2] at h
      nlinarith
    · exfalso
      simp only [sqDist, cross, Pt.sub_x, Pt.sub_y, a1, a2, b1, b2, sepsilon_] at h
      norm_num at h
      nlinarith
    · rcases hcase with ⟨k, -⟩ | ⟨I, k, -⟩ | ⟨I, J, -, k⟩
      · rw [h] at k; simp at k
      · rw [h] at k; simp at k
      · exact ⟨_, _, k, (C119_ellipse_line _ he _ hv _ _ k).1⟩

/-- C119, example1.py 119-122: the image of the first ellipse has the points of the second one and is equal to it, when the second one is not a circle and
its larger semi-axis comes first. -/
theorem C119_ellipse_to_ellipse (e1 e2 : Ellipse) (h1 : e1.Valid) (h2 : e2.Valid) (hne : e2.rminor < e2.rmajor) :
    ∃ f e3, Affine.from_ellipse_to_ellipse (.ell e1) (.ell e2) = .ok f ∧ f.transform_ellipse (.ell e1) = .ok (some e3) ∧ e2.is_equal e3 ∧
      ∀ P, OnE e2 P ↔ OnE e3 P := by
  obtain ⟨f, hf, hb, hm, -⟩ := C48_from_ellipse_to_ellipse (.ell e1) (.ell e2) h1 h2
  obtain ⟨e3, k1, k2, k3, -, -, -, k4, -⟩ := (C47_transform_ellipse f (.ell e1) h1).2 hb
  have hs : ∀ P, OnE e2 P ↔ OnE e3 P := by
    intro Q
    obtain ⟨P, rfl⟩ := hb.2 Q
    exact (hm P).symm.trans (k4 P)
  exact ⟨f, e3, hf, k1, Tests.same e2 e3 h2 k2 hne k3 hs, hs⟩

/-- The ellipses of the script. -/
example : ∃ f e3, Affine.from_ellipse_to_ellipse (.ell ⟨⟨1, 1⟩, 5, 1, 30, true⟩) (.ell ⟨⟨4, -1⟩, 3, 2, 50, true⟩) = .ok f ∧
    f.transform_ellipse (.ell ⟨⟨1, 1⟩, 5, 1, 30, true⟩) = .ok (some e3) ∧ (⟨⟨4, -1⟩, 3, 2, 50, true⟩ : Ellipse).is_equal e3 := by
  obtain ⟨f, e3, k1, k2, k3, -⟩ := C119_ellipse_to_ellipse ⟨⟨1, 1⟩, 5, 1, 30, true⟩ ⟨⟨4, -1⟩, 3, 2, 50, true⟩ ⟨by norm_num, by norm_num⟩
    ⟨by norm_num, by norm_num⟩ (by norm_num)
  exact ⟨f, e3, k1, k2, k3⟩

/-- C119, example1.py 125-131: `power(n)` and `gpower(n)` have the same matrix, and the map is applied `n` times. -/
theorem C119_power (eig : Matrix (Fin 2) (Fin 2) ℂ → Mobius.Eig) (f : Mobius) (h : Matrix.det f.M ≠ 0) (he : Mobius.IsEig f.M (eig f.M))
    (hx : sepsilon_ ≤ ‖Matrix.trace f.M ^ 2 - 4 * Matrix.det f.M‖) (n : ℕ) :
    ∃ p, f.power n = .ok p ∧ f.gpower eig n = .ok p ∧
      ∃ e : Equiv.Perm XPt, (∀ P, f.transform P = .ok (e P)) ∧ ∀ P, p.transform P = .ok ((e ^ n) P) := by
  obtain ⟨⟨p, g, h1, h2, h3⟩, -⟩ := C113_gpower eig f h he (Or.inl hx) n
  have e : p = g := by
    cases p; cases g; simpa using h3
  subst e
  obtain ⟨e, he⟩ := C49_bijection f h
  refine ⟨p, h1, h2, e, he, fun P => ?_⟩
  obtain ⟨q, k1, -, k2⟩ := C50_power f h e he n
  rw [Int.cast_natCast, h1, Except.ok.injEq] at k1
  rw [k1, k2 P, zpow_natCast]

/-- The matrix of the script. -/
example : Matrix.det (!![1 + Complex.I, 2 * Complex.I; 2 + Complex.I, 1] : Matrix (Fin 2) (Fin 2) ℂ) ≠ 0 ∧
    sepsilon_ ≤ ‖Matrix.trace (!![1 + Complex.I, 2 * Complex.I; 2 + Complex.I, 1] : Matrix (Fin 2) (Fin 2) ℂ) ^ 2 -
      4 * Matrix.det (!![1 + Complex.I, 2 * Complex.I; 2 + Complex.I, 1] : Matrix (Fin 2) (Fin 2) ℂ)‖ := by
  rw [Matrix.det_fin_two, Matrix.trace_fin_two]
  constructor
  · intro h
    have := congrArg Complex.re h
    norm_num at this
  · refine le_trans ?_ (Complex.abs_re_le_norm _)
    norm_num [sepsilon_, pow_two]

/-- C119, example1.py 134-138: the image of a point of a circle is included in the image of the circle. -/
theorem C119_image_circle (f : Mobius) (h : Matrix.det f.M ≠ 0) (c : Circle) (hc : c.Valid)
    (hp : ∀ P, OnCircle c.center c.radius P → f.transform (.fin P) ≠ .ok .inf) (t : ℝ) (d : Bool) :
    ∃ c' P, f.transform_circle c = .ok (.circle c') ∧ f.transform (.fin (c.point_from_angle t d)) = .ok (.fin P) ∧ c'.includes P := by
  obtain ⟨c', h1, h2, h3⟩ := C53_circle f h c hc hp
  obtain ⟨e, he⟩ := C49_bijection f h
  have hX : OnCircle c.center c.radius (c.point_from_angle t d) := by
    obtain ⟨-, -, k⟩ := C14_point_from_angle c hc t
    unfold OnCircle
    rw [← dist_sq, (k d).1]
  have hn := hp _ hX
  have k := h3 _ _ (he (.fin (c.point_from_angle t d)))
  rw [he] at hn
  cases hY : e (.fin (c.point_from_angle t d)) with
  | inf => exact absurd (by rw [hY]) hn
  | fin Y => 
    rw [hY] at k
    exact ⟨c', Y, h1, by rw [he, hY], (C14_includes _ _).1 (k.1 hX)⟩

/-- The circle of center `(2, 0)` and radius `1` and the map `1/z`. -/
example (t : ℝ) : ∃ c' P, (⟨!![0, 1; 1, 0]⟩ : Mobius).transform_circle ⟨⟨2, 0⟩, 1⟩ = .ok (.circle c') ∧
    (⟨!![0, 1; 1, 0]⟩ : Mobius).transform (.fin ((⟨⟨2, 0⟩, 1⟩ : Circle).point_from_angle t true)) = .ok (.fin P) ∧ c'.includes P := by
  have hd : Matrix.det (⟨!![0, 1; 1, 0]⟩ : Mobius).M ≠ 0 := by simp [Matrix.det_fin_two]
  refine C119_image_circle _ hd _ (by norm_num [Circle.Valid]) (fun P hP e => ?_) t true
  rw [transform_inf_iff _ hd] at e
  have h1 : P.x = 0 := by simpa [Mobius.c, Mobius.d, cpx] using congrArg Complex.re e
  have h2 : P.y = 0 := by simpa [Mobius.c, Mobius.d, cpx] using congrArg Complex.im e
  norm_num [OnCircle, sqDist, h1, h2] at hP

/-- C119, example1.py 141-144: the projection on a line is included in the line. -/
theorem C119_projection (l : Line) (hl : l.Valid) (P : Pt) : ∃ H, l.projection P = some H ∧ l.includes H = true := by
  obtain ⟨H, h1, h2, -⟩ := C07_projection l hl P
  exact ⟨H, h1, (C05_includes l hl H).2 (Or.inl h2)⟩

/-- The projection of the script. -/
example : (⟨⟨0, 0⟩, ⟨2, 2⟩, true, true⟩ : Line).projection ⟨-1, 5⟩ = some ⟨2, 2⟩ := by
  unfold Line.projection line_line_intersection_ det2x2_
  norm_num
  ext <;> norm_num

/-- C119, example1.py 147-151: a reflection applied twice gives back the point, if neither the point nor its image is `np.allclose` to the line's points or to
the foot of the perpendicular. -/
theorem C119_reflection (l : Line) (hl : l.Valid) (P Q H : Pt) (hH : OnLine l.A l.B H) (hp : Perp (P - H) (l.B - l.A)) (hm : IsMirror l.A l.B P Q)
    (h1 : ¬ allclose l.A P ∧ ¬ allclose l.B P ∧ ¬ allclose H P) (h2 : ¬ allclose l.A Q ∧ ¬ allclose l.B Q ∧ ¬ allclose H Q) :
    l.reflection P = .ok Q ∧ l.reflection Q = .ok P := by
  obtain ⟨Q', k1, k2⟩ := (C09_exact ⟨⟨l.A, l.B, true, true⟩⟩ hl P H hH hp).2 (Or.inr h1)
  have e : Q' = Q := mirror_unique (ne_of_not_allclose hl) k2 hm
  subst e
  have k3 := (C09_involution_exact ⟨⟨l.A, l.B, true, true⟩⟩ hl P Q' H hH hp k1 k2).2 (Or.inr h2)
  have hr : ∀ X, l.reflection X = (⟨⟨l.A, l.B, true, true⟩⟩ : Reflection).transformPt X := by
    intro X
    unfold Line.reflection mkReflection
    rw [mkLine_ok.2 ⟨hl, rfl⟩]
    rfl
  rw [hr, hr]
  exact ⟨k1, k3⟩

/-- The reflection of the script. -/
example : (⟨⟨0, 0⟩, ⟨2, 2⟩, true, true⟩ : Line).reflection ⟨-1, 5⟩ = .ok ⟨5, -1⟩ ∧ (⟨⟨0, 0⟩, ⟨2, 2⟩, true, true⟩ : Line).reflection ⟨5, -1⟩ = .ok ⟨-1, 5⟩ := by
  refine C119_reflection ⟨⟨0, 0⟩, ⟨2, 2⟩, true, true⟩ ?_ _ _ ⟨2, 2⟩ ⟨1, ?_⟩ ?_ ⟨⟨1, ?_⟩, ?_⟩ ?_ ?_
  · norm_num [Line.Valid, allclose, npClose]
  · ext <;> norm_num
  · norm_num [Perp, dot]
  · ext <;> norm_num
  · norm_num [Perp, dot]
  · norm_num [allclose, npClose, abs_of_pos, abs_of_neg]
  · norm_num [allclose, npClose, abs_of_pos, abs_of_neg]

/-- C119, example1.py 157-158: a shear with vertex at the origin leaves the origin fixed. -/
theorem C119_shear (w : Pt) (hw : w ≠ ⟨0, 0⟩) (ratio angle : ℝ) (d : Bool) (s : Shear) (hs : mkShear ⟨0, 0⟩ w ratio angle d = .ok s) :
    s.transformPt ⟨0, 0⟩ = .ok ⟨0, 0⟩ := (C60_exact _ w ratio angle d s hs hw).2 (Or.inl rfl)

example : ∃ s, mkShear ⟨0, 0⟩ ⟨1, 0⟩ 1 45 = .ok s ∧ s.transformPt ⟨0, 0⟩ = .ok ⟨0, 0⟩ := by
  have h : mkShear ⟨0, 0⟩ ⟨1, 0⟩ 1 45 = .ok ⟨⟨0, 0⟩, ⟨1, 0⟩, 1, 45, true⟩ := by
    unfold mkShear
    norm_num
  exact ⟨_, h, C119_shear _ (by simp) _ _ _ _ h⟩

/-- C119, example1.py 161-162: the scaling multiplies the two coordinates of the vector from the centre. -/
theorem C119_scalingXY (s : ScalingXY) (P : Pt) :
    s.transformPt P = .ok ⟨s.center.x + s.sx * (P.x - s.center.x), s.center.y + s.sy * (P.y - s.center.y)⟩ := by
  obtain ⟨Q, h1, h2, h3, -⟩ := C61_scalingXY s P
  rw [h1, Except.ok.injEq]
  ext
  · exact (sub_eq_iff_eq_add'.1 h2)
  · exact (sub_eq_iff_eq_add'.1 h3)

example : (⟨⟨1, 1⟩, 4, 2⟩ : ScalingXY).transformPt ⟨3, 4⟩ = .ok ⟨9, 7⟩ := by
  rw [C119_scalingXY]
  norm_num
