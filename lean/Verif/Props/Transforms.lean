import Verif.Model.Transforms
import Verif.Spec.Transforms
import Verif.Props.Affine
import Verif.Props.Line
import Verif.Lemmas.Mobius

/-!
# C10, C11, C60, C61, C62, C63: reflections as affine maps, rotations, shears, scalings, homotheties
-/

open Spec Real Classical

/-! ## Explicit formulas -/

theorem Rotation.rotateMat_eq (R : Rotation) (n : ℕ) (M : Matrix (Fin n) (Fin 2) ℝ) (t : ℝ)
    (ht : t = if R.degrees = true then R.theta * (π / 180) else R.theta) :
    R.rotateMat n M = .ok (Matrix.of fun i =>
      ![cos t * (M i 0 - R.center.x) - sin t * (M i 1 - R.center.y) + R.center.x,
        sin t * (M i 0 - R.center.x) + cos t * (M i 1 - R.center.y) + R.center.y]) := by
  unfold Rotation.rotateMat
  dsimp only
  rw [← ht]
  congr 1
  ext i j
  fin_cases j <;> simp [addRows, columnStack] <;> ring

theorem Rotation.rotatePt_eq (R : Rotation) (P : Pt) (t : ℝ)
    (ht : t = if R.degrees = true then R.theta * (π / 180) else R.theta) :
    R.rotatePt P = .ok ⟨cos t * (P.x - R.center.x) - sin t * (P.y - R.center.y) + R.center.x,
        sin t * (P.x - R.center.x) + cos t * (P.y - R.center.y) + R.center.y⟩ := by
  unfold Rotation.rotatePt Rotation.rotate onPoints Pt.arr
  simp only [R.rotateMat_eq 1 _ t ht, Res.ok_bind, pure, Except.pure, Out.toPt]
  simp [rowMat]

theorem ScalingXY.transformMat_eq (s : ScalingXY) (n : ℕ) (M : Matrix (Fin n) (Fin 2) ℝ) :
    s.transformMat n M = .ok (Matrix.of fun i =>
      ![s.sx * (M i 0 - s.center.x) + s.center.x, s.sy * (M i 1 - s.center.y) + s.center.y]) := by
  unfold ScalingXY.transformMat
  dsimp only
  congr 1
  ext i j
  fin_cases j <;> simp [addRows, sub_eq_add_neg]

theorem ScalingXY.transformPt_eq (s : ScalingXY) (P : Pt) :
    s.transformPt P = .ok ⟨s.sx * (P.x - s.center.x) + s.center.x, s.sy * (P.y - s.center.y) + s.center.y⟩ := by
  unfold ScalingXY.transformPt ScalingXY.transform onPoints Pt.arr
  simp only [s.transformMat_eq, Res.ok_bind, pure, Except.pure, Out.toPt]
  simp [rowMat]

theorem Homothety.transformMat_eq (h : Homothety) (n : ℕ) (M : Matrix (Fin n) (Fin 2) ℝ) :
    h.transformMat n M = .ok (Matrix.of fun i =>
      ![h.scale * M i 0 + (1 - h.scale) * h.center.x, h.scale * M i 1 + (1 - h.scale) * h.center.y]) := by
  unfold Homothety.transformMat
  dsimp only
  congr 1
  ext i j
  fin_cases j <;> simp [addRows]

theorem Homothety.transformPt_eq (h : Homothety) (P : Pt) :
    h.transformPt P = .ok ⟨h.scale * P.x + (1 - h.scale) * h.center.x, h.scale * P.y + (1 - h.scale) * h.center.y⟩ := by
  unfold Homothety.transformPt Homothety.transform onPoints Pt.arr
  simp only [h.transformMat_eq, Res.ok_bind, pure, Except.pure, Out.toPt]
  simp [rowMat]

theorem Scaling.transformMat_eq (S : Scaling) (n : ℕ) (M : Matrix (Fin n) (Fin 2) ℝ) (c s : ℝ)
    (hc : c = cos (atan2 S.direction.y S.direction.x)) (hs : s = sin (atan2 S.direction.y S.direction.x)) :
    S.transformMat n M = .ok (Matrix.of fun i =>
      ![c * (S.scale * (c * (M i 0 - S.center.x) + s * (M i 1 - S.center.y))) -
          s * (-s * (M i 0 - S.center.x) + c * (M i 1 - S.center.y)) + S.center.x,
        s * (S.scale * (c * (M i 0 - S.center.x) + s * (M i 1 - S.center.y))) +
          c * (-s * (M i 0 - S.center.x) + c * (M i 1 - S.center.y)) + S.center.y]) := by
  unfold Scaling.transformMat
  dsimp only
  rw [cos_neg, sin_neg, ← hc, ← hs]
  congr 1
  ext i j
  fin_cases j <;> simp [addRows, columnStack] <;> ring

theorem Scaling.transformPt_eq (S : Scaling) (P : Pt) (c s : ℝ)
    (hc : c = cos (atan2 S.direction.y S.direction.x)) (hs : s = sin (atan2 S.direction.y S.direction.x)) :
    S.transformPt P = .ok ⟨c * (S.scale * (c * (P.x - S.center.x) + s * (P.y - S.center.y))) -
          s * (-s * (P.x - S.center.x) + c * (P.y - S.center.y)) + S.center.x,
        s * (S.scale * (c * (P.x - S.center.x) + s * (P.y - S.center.y))) +
          c * (-s * (P.x - S.center.x) + c * (P.y - S.center.y)) + S.center.y⟩ := by
  unfold Scaling.transformPt Scaling.transform onPoints Pt.arr
  simp only [S.transformMat_eq _ _ c s hc hs, Res.ok_bind, pure, Except.pure, Out.toPt]
  simp [rowMat]

/-- The matrix computed by `Reflection`, `Shear` and `Scaling`. -/
theorem moveRow_eq (u v u' v' Q : Pt) (h : cross u v ≠ 0) :
    ∃ M, invMul (rows3 u v Q) (rows3 u' v' Q) = .ok M ∧ ∀ P : Pt,
      (Affine.ofMatrix3 (moveRow M)).transform P =
        ⟨((v.y * u'.x - u.y * v'.x) * P.x + (v.y * u'.y - u.y * v'.y) * P.y) / cross u v +
          (Q.x - ((v.y * u'.x - u.y * v'.x) * Q.x + (u.x * v'.x - v.x * u'.x) * Q.y) / cross u v),
         ((u.x * v'.x - v.x * u'.x) * P.x + (u.x * v'.y - v.x * u'.y) * P.y) / cross u v +
          (Q.y - ((v.y * u'.y - u.y * v'.y) * Q.x + (u.x * v'.y - v.x * u'.y) * Q.y) / cross u v)⟩ ∧
      Matrix.det (Affine.ofMatrix3 (moveRow M)).A = cross u' v' / cross u v := by
  have hd : Matrix.det (rows3 u v Q) = cross u v := by
    simp [rows3, Matrix.det_fin_three, cross]
  have hne : Matrix.det (rows3 u v Q) ≠ 0 := by rw [hd]; exact h
  obtain ⟨D, hD⟩ : ∃ D, D = cross u v := ⟨_, rfl⟩
  have hinv : (rows3 u v Q)⁻¹ = !![v.y / D, -u.y / D, 0; -v.x / D, u.x / D, 0;
      (v.x * Q.y - v.y * Q.x) / D, (u.y * Q.x - u.x * Q.y) / D, 1] := by
    apply Matrix.inv_eq_right_inv
    have hD' : D ≠ 0 := hD ▸ h
    unfold cross at hD
    ext i j
    fin_cases i <;> fin_cases j <;> simp [rows3, Matrix.mul_apply, Fin.sum_univ_three] <;> field_simp <;>
      (try rw [hD]) <;> ring
  refine ⟨(rows3 u v Q)⁻¹ * rows3 u' v' Q, ?_, fun P => ⟨?_, ?_⟩⟩
  · unfold invMul; rw [if_neg hne]
  · rw [hinv, ← hD]
    have hD' : D ≠ 0 := hD ▸ h
    ext <;> simp [Affine.transform, Affine.ofMatrix3, moveRow, rows3, Matrix.mul_apply, Fin.sum_univ_three] <;>
      field_simp <;> ring
  · rw [hinv, ← hD]
    have hD' : D ≠ 0 := hD ▸ h
    rw [Matrix.det_fin_two]
    simp [Affine.ofMatrix3, moveRow, rows3, Matrix.mul_apply, Fin.sum_univ_three]
    unfold cross at hD
    field_simp
    rw [hD]; unfold cross; ring

/-- The image of a line, half-line or segment by a map that preserves barycenters. -/
theorem lineSet_image (g : Pt → Pt) (hg : ∀ A B t, g (A + (t : ℝ) • (B - A)) = g A + t • (g B - g A)) (l : Line) (Q : Pt) :
    LineSet ⟨g l.A, g l.B, l.extendA, l.extendB⟩ Q ↔ ∃ P, LineSet l P ∧ Q = g P := by
  obtain ⟨A, B, ea, eb⟩ := l
  cases ea <;> cases eb <;> simp only [LineSet, OnLine, OnRay, OnSegment] <;> constructor
  · rintro ⟨t, h0, h1, rfl⟩
    exact ⟨_, ⟨t, h0, h1, rfl⟩, (hg _ _ _).symm⟩
  · rintro ⟨_, ⟨t, h0, h1, rfl⟩, rfl⟩
    exact ⟨t, h0, h1, hg _ _ _⟩
  · rintro ⟨t, h0, rfl⟩
    exact ⟨_, ⟨t, h0, rfl⟩, (hg _ _ _).symm⟩
  · rintro ⟨_, ⟨t, h0, rfl⟩, rfl⟩
    exact ⟨t, h0, hg _ _ _⟩
  · rintro ⟨t, h0, rfl⟩
    exact ⟨_, ⟨t, h0, rfl⟩, (hg _ _ _).symm⟩
  · rintro ⟨_, ⟨t, h0, rfl⟩, rfl⟩
    exact ⟨t, h0, hg _ _ _⟩
  · rintro ⟨t, rfl⟩
    exact ⟨_, ⟨t, rfl⟩, (hg _ _ _).symm⟩
  · rintro ⟨_, ⟨t, rfl⟩, rfl⟩
    exact ⟨t, hg _ _ _⟩

/-! ## C10 -/

/-- C10: `as_affine` exists for every reflection and maps every point to its mirror image. -/
theorem C10_as_affine (R : Reflection) (hR : R.line.Valid) :
    ∃ f, R.as_affine = .ok f ∧ ∀ P, IsMirror R.line.A R.line.B P (f.transform P) := by
  have hne := ne_of_not_allclose hR
  have hpos := sqDist_pos hne
  obtain ⟨w, hw⟩ : ∃ w, w = R.line.B - R.line.A := ⟨_, rfl⟩
  have hD : cross w ⟨-w.y, w.x⟩ ≠ 0 := by
    have : cross w ⟨-w.y, w.x⟩ = sqDist R.line.A R.line.B := by
      rw [hw]; simp only [cross, sqDist, Pt.sub_x, Pt.sub_y]; ring
    rw [this]; exact hpos.ne'
  obtain ⟨M, hM, hf⟩ := moveRow_eq w ⟨-w.y, w.x⟩ w (-⟨-w.y, w.x⟩) R.line.A hD
  refine ⟨Affine.ofMatrix3 (moveRow M), ?_, fun P => ?_⟩
  · unfold Reflection.as_affine Reflection.get3x3matrix
    simp only [← hw, hM, Res.ok_bind]
    rfl
  · rw [(hf P).1]
    unfold IsMirror
    rw [onLine_iff_cross hne, ← hw]
    obtain ⟨D, hDe⟩ : ∃ D, D = cross w ⟨-w.y, w.x⟩ := ⟨_, rfl⟩
    rw [← hDe] at hD ⊢
    simp only [cross] at hDe
    have e : D = w.x ^ 2 + w.y ^ 2 := by rw [hDe]; ring
    constructor
    · simp only [cross, Pt.sub_x, Pt.sub_y, Pt.add_x, Pt.add_y, Pt.div_x, Pt.div_y, Pt.neg_x, Pt.neg_y]
      field_simp
      rw [e]; ring
    · simp only [Perp, dot, Pt.sub_x, Pt.sub_y, Pt.add_x, Pt.add_y, Pt.div_x, Pt.div_y, Pt.neg_x, Pt.neg_y]
      field_simp
      rw [e]; ring

/-- The points on which `Reflection.transform` is exact: points that are `np.allclose` to a defining point of the line
are on the line. -/
def Reflection.ExactAt (R : Reflection) (P : Pt) : Prop :=
  allclose R.line.A P ∨ allclose R.line.B P → OnLine R.line.A R.line.B P

theorem Reflection.mirror_of_exact (R : Reflection) (hR : R.line.Valid) {P Q : Pt} (hP : R.ExactAt P)
    (h : R.transformPt P = .ok Q) : IsMirror R.line.A R.line.B P Q := by
  obtain ⟨a, b⟩ := C09_reflection_mirror R hR P Q h
  cases hi : R.line.includes P with
  | true =>
    rw [a hi]
    refine (C09_reflection_fixes_line R hR P ?_).2
    exact ((C05_includes _ hR _).1 hi).elim id hP
  | false => exact b hi

/-- C10, partial: `transform` agrees with `as_affine` whenever it returns a value, except for the points that are
`np.allclose` to a defining point of the line without being on the line (`C10_near_counterexample`); it may raise
(`C09_reflection_raises_counterexample`). -/
theorem C10_transform_partial (R : Reflection) (hR : R.line.Valid) (f : Affine) (hf : R.as_affine = .ok f) (P Q : Pt)
    (hP : R.ExactAt P) (h : R.transformPt P = .ok Q) : Q = f.transform P := by
  obtain ⟨g, hg, hm⟩ := C10_as_affine R hR
  rw [hf, Except.ok.injEq] at hg
  subst hg
  exact mirror_unique (ne_of_not_allclose hR) (R.mirror_of_exact hR hP h) (hm P)

/-- C10, partial: `reflect_circle`, when it returns a value, gives the image of the circle.  Missing: centers that are
`np.allclose` to a defining point of the line without being on the line. -/
theorem C10_reflect_circle_partial (R : Reflection) (hR : R.line.Valid) (c c' : Circle) (hc : R.ExactAt c.center)
    (h : R.reflect_circle c = .ok c') :
    MirrorMapsOnto R.line.A R.line.B (OnCircle c.center c.radius) (OnCircle c'.center c'.radius) ∧ 0 < c'.radius := by
  unfold Reflection.reflect_circle at h
  obtain ⟨O', h1, h2⟩ := Res.bind_ok.1 h
  obtain ⟨hr, rfl⟩ := mkCircle_ok.1 h2
  have m := R.mirror_of_exact hR hc h1
  refine ⟨fun P Q hPQ => ?_, hr⟩
  unfold OnCircle
  rw [C09_reflection_isometry (ne_of_not_allclose hR) hPQ m]

/-- C10, partial: `reflect_line`, when it returns a value, gives the image of the line, half-line or segment.  Missing:
defining points that are `np.allclose` to a defining point of the axis without being on the axis. -/
theorem C10_reflect_line_partial (R : Reflection) (hR : R.line.Valid) (l l' : Line) (hA : R.ExactAt l.A)
    (hB : R.ExactAt l.B) (h : R.reflect_line l = .ok l') :
    MirrorMapsOnto R.line.A R.line.B (LineSet l) (LineSet l') ∧ l'.Valid := by
  have hne := ne_of_not_allclose hR
  unfold Reflection.reflect_line at h
  obtain ⟨A', h1, h2⟩ := Res.bind_ok.1 h
  obtain ⟨B', h3, h4⟩ := Res.bind_ok.1 h2
  obtain ⟨f, hf, hm⟩ := C10_as_affine R hR
  have eA := C10_transform_partial R hR f hf _ _ hA h1
  have eB := C10_transform_partial R hR f hf _ _ hB h3
  obtain ⟨hv, rfl⟩ := mkLine_ok.1 h4
  refine ⟨fun P Q hPQ => ?_, hv⟩
  have eQ : Q = f.transform P := mirror_unique hne hPQ (hm P)
  rw [eA, eB, eQ, lineSet_image f.transform (by
    intro A B t
    ext <;> simp [Affine.transform] <;> ring)]
  constructor
  · intro hP; exact ⟨P, hP, rfl⟩
  · rintro ⟨P', hP', e⟩
    have : P = P' := by
      have m1 := hm P
      have m2 := hm P'
      rw [← e] at m2
      -- the mirror relation is symmetric
      have sym : ∀ X Y : Pt, IsMirror R.line.A R.line.B X Y → IsMirror R.line.A R.line.B Y X := by
        rintro X Y ⟨a, b⟩
        refine ⟨?_, ?_⟩
        · have : (Y + X) / (2 : ℝ) = (X + Y) / (2 : ℝ) := by ext <;> simp <;> ring
          rw [this]; exact a
        · simp only [Perp, dot, Pt.sub_x, Pt.sub_y] at b ⊢; linarith
      exact mirror_unique hne (sym _ _ m1) (sym _ _ m2)
    rw [this]; exact hP'

/-- Counterexample to C10: near a defining point of the axis `y = 0`, `transform` returns the point unchanged, `as_affine`
reflects it. -/
theorem C10_near_counterexample :
    let R : Reflection := ⟨⟨⟨0, 0⟩, ⟨1, 0⟩, true, true⟩⟩
    R.line.Valid ∧ ∃ f, R.as_affine = .ok f ∧ R.transformPt ⟨0, 1 / 10 ^ 8⟩ = .ok ⟨0, 1 / 10 ^ 8⟩ ∧
      f.transform ⟨0, 1 / 10 ^ 8⟩ = ⟨0, -(1 / 10 ^ 8)⟩ := by
  intro R
  have hR : R.line.Valid := by show ¬ allclose _ _; unfold allclose npClose; norm_num
  obtain ⟨f, hf, hm⟩ := C10_as_affine R hR
  refine ⟨hR, f, hf, ?_, ?_⟩
  · unfold Reflection.transformPt
    rw [if_pos]
    rw [C05_includes _ hR]
    right; left
    show allclose _ _; unfold allclose npClose; norm_num [R]
  · refine mirror_unique (ne_of_not_allclose hR) (hm _) ⟨⟨0, ?_⟩, ?_⟩
    · ext <;> simp [R]
    · simp [Perp, dot, R]

/-- The reflection in the horizontal axis: `(3, 5)` is mapped to `(3, -5)` by its matrix and by `transform`, the circle
of center `(3, 5)` and radius 2 to one through `(3, -3)`, and the segment from `(3, 5)` to `(4, 7)` to one through
`(7/2, -6)`. -/
example (f : Affine) (hf : (⟨⟨⟨0, 0⟩, ⟨1, 0⟩, true, true⟩⟩ : Reflection).as_affine = .ok f) (Q : Pt)
    (hQ : (⟨⟨⟨0, 0⟩, ⟨1, 0⟩, true, true⟩⟩ : Reflection).transformPt ⟨3, 5⟩ = .ok Q) (c' : Circle)
    (hc : (⟨⟨⟨0, 0⟩, ⟨1, 0⟩, true, true⟩⟩ : Reflection).reflect_circle ⟨⟨3, 5⟩, 2⟩ = .ok c') (l' : Line)
    (hl : (⟨⟨⟨0, 0⟩, ⟨1, 0⟩, true, true⟩⟩ : Reflection).reflect_line ⟨⟨3, 5⟩, ⟨4, 7⟩, false, false⟩ = .ok l') :
    f.transform ⟨3, 5⟩ = ⟨3, -5⟩ ∧ Q = ⟨3, -5⟩ ∧ OnCircle c'.center c'.radius ⟨3, -3⟩ ∧ LineSet l' ⟨7 / 2, -6⟩ := by
  have hv : (⟨⟨⟨0, 0⟩, ⟨1, 0⟩, true, true⟩⟩ : Reflection).line.Valid := by
    show ¬ allclose _ _; unfold allclose npClose; norm_num
  have ex : ∀ x y : ℝ, 1 ≤ y → (⟨⟨⟨0, 0⟩, ⟨1, 0⟩, true, true⟩⟩ : Reflection).ExactAt ⟨x, y⟩ := by
    intro x y hy
    rintro (h | h) <;>
    · have := h.2
      unfold npClose at this
      simp only [zero_sub, abs_neg, abs_of_pos (by linarith : (0 : ℝ) < y)] at this
      norm_num at this
      linarith
  obtain ⟨f', hf', hm⟩ := C10_as_affine _ hv
  rw [hf] at hf'
  cases hf'
  have e : f.transform ⟨3, 5⟩ = ⟨3, -5⟩ :=
    mirror_unique (ne_of_not_allclose hv) (hm _) ⟨⟨3, by ext <;> norm_num⟩, by norm_num [Perp, dot]⟩
  refine ⟨e, ?_, ?_, ?_⟩
  · rw [C10_transform_partial _ hv _ hf _ _ (ex _ _ (by norm_num)) hQ, e]
  · exact ((C10_reflect_circle_partial _ hv _ _ (ex _ _ (by norm_num)) hc).1 ⟨3, 3⟩ ⟨3, -3⟩
      ⟨⟨3, by ext <;> norm_num⟩, by norm_num [Perp, dot]⟩).1 (by norm_num [OnCircle, sqDist])
  · refine ((C10_reflect_line_partial _ hv _ _ (ex _ _ (by norm_num)) (ex _ _ (by norm_num)) hl).1 ⟨7 / 2, 6⟩ _
      ⟨⟨7 / 2, by ext <;> norm_num⟩, by norm_num [Perp, dot]⟩).1 ⟨1 / 2, by norm_num, by norm_num, ?_⟩
    ext <;> norm_num

/-- The hypotheses of the C10 theorems hold for a reflection of a point away from the axis. -/
example : let R : Reflection := ⟨⟨⟨0, 0⟩, ⟨1, 0⟩, true, true⟩⟩
    R.line.Valid ∧ R.ExactAt ⟨3, 5⟩ := by
  intro R
  constructor
  · show ¬ allclose _ _; unfold allclose npClose; norm_num
  · rintro (h | h)
    · have := h.2; unfold npClose at this; norm_num [R] at this
    · have := h.2; unfold npClose at this; norm_num [R] at this

/-! ## C11 -/

/-- The angle of a rotation in radians. -/
noncomputable def Rotation.rad (R : Rotation) : ℝ := if R.degrees = true then R.theta * (π / 180) else R.theta

theorem isRotated_iff (O : Pt) (t : ℝ) (P Q : Pt) : IsRotated O t P Q ↔
    Q = ⟨cos t * (P.x - O.x) - sin t * (P.y - O.y) + O.x, sin t * (P.x - O.x) + cos t * (P.y - O.y) + O.y⟩ := by
  unfold IsRotated
  rw [Complex.exp_mul_I, ← Complex.ofReal_cos, ← Complex.ofReal_sin, Complex.ext_iff, Pt.ext_iff]
  simp [cpx, -Complex.ofReal_cos, -Complex.ofReal_sin]
  constructor
  · rintro ⟨h1, h2⟩; constructor <;> linarith
  · rintro ⟨h1, h2⟩; constructor <;> linarith

/-- C11: `rotate` on a point is the rotation, in degrees or radians. -/
theorem C11_rotate (R : Rotation) (P : Pt) : ∃ Q, R.rotatePt P = .ok Q ∧
    IsRotated R.center (if R.degrees = true then R.theta * (π / 180) else R.theta) P Q :=
  ⟨_, R.rotatePt_eq P _ rfl, (isRotated_iff _ _ _ _).2 rfl⟩

/-- C11: a rotation preserves distances and fixes its center. -/
theorem C11_isometry (R : Rotation) (P Q P' Q' : Pt) (hP : R.rotatePt P = .ok P') (hQ : R.rotatePt Q = .ok Q') :
    Spec.dist P' Q' = Spec.dist P Q ∧ R.rotatePt R.center = .ok R.center := by
  rw [R.rotatePt_eq _ _ rfl, Except.ok.injEq] at hP hQ
  constructor
  · unfold Spec.dist
    congr 1
    rw [← hP, ← hQ]
    have := sin_sq_add_cos_sq (if R.degrees = true then R.theta * (π / 180) else R.theta)
    simp only [sqDist]
    linear_combination ((P.x - Q.x) ^ 2 + (P.y - Q.y) ^ 2) * this
  · rw [R.rotatePt_eq _ _ rfl]
    congr 1
    ext <;> simp

/-- C11: rotating by `t1` then by `t2` about the same center is rotating by `t1 + t2`; rotating by `0` is the identity;
an angle in degrees is the same as the angle in radians. -/
theorem C11_group (O : Pt) (t1 t2 : ℝ) (d : Bool) (P : Pt) :
    ((⟨O, t1, d⟩ : Rotation).rotatePt P >>= (⟨O, t2, d⟩ : Rotation).rotatePt) = (⟨O, t1 + t2, d⟩ : Rotation).rotatePt P ∧
    (⟨O, 0, d⟩ : Rotation).rotatePt P = .ok P ∧
    (⟨O, t1, true⟩ : Rotation).rotatePt P = (⟨O, t1 * (π / 180), false⟩ : Rotation).rotatePt P := by
  refine ⟨?_, ?_, ?_⟩
  · rw [Rotation.rotatePt_eq _ _ _ rfl, Res.ok_bind, Rotation.rotatePt_eq _ _ _ rfl, Rotation.rotatePt_eq _ _ _ rfl]
    have : (if d = true then (t1 + t2) * (π / 180) else t1 + t2) =
        (if d = true then t1 * (π / 180) else t1) + (if d = true then t2 * (π / 180) else t2) := by
      cases d <;> simp; ring
    simp only [this, cos_add, sin_add]
    congr 1
    ext <;> simp <;> ring
  · rw [Rotation.rotatePt_eq _ _ _ rfl]
    congr 1
    ext <;> simp
  · rw [Rotation.rotatePt_eq _ _ _ rfl, Rotation.rotatePt_eq _ _ _ rfl]
    simp

/-- C11: `as_affine` agrees with `rotate`. -/
theorem C11_as_affine (R : Rotation) (P : Pt) : R.rotatePt P = .ok (R.as_affine.transform P) := by
  rw [R.rotatePt_eq _ _ rfl]
  congr 1
  ext <;> simp [Rotation.as_affine, Affine.transform, Affine.ofMatrix3, Rotation.get3x3matrix] <;> ring

/-- C11: `rotate_circle` never fails and gives the image of the circle. -/
theorem C11_rotate_circle (R : Rotation) (c : Circle) (hc : c.Valid) : ∃ c', R.rotate_circle c = .ok c' ∧ c'.Valid ∧
    MapsOnto (IsRotated R.center R.rad) (OnCircle c.center c.radius) (OnCircle c'.center c'.radius) := by
  obtain ⟨O', e, h⟩ := C11_rotate R c.center
  refine ⟨⟨O', c.radius⟩, ?_, hc, fun Q => ?_⟩
  · unfold Rotation.rotate_circle
    rw [e, Res.ok_bind, mkCircle_pos hc]
  · obtain ⟨t, ht⟩ : ∃ t, t = R.rad := ⟨_, rfl⟩
    have h' : IsRotated R.center t c.center O' := by rw [ht]; exact h
    rw [isRotated_iff] at h'
    rw [← ht]
    have hcs := sin_sq_add_cos_sq t
    dsimp only
    constructor
    · intro hQ
      refine ⟨⟨cos t * (Q.x - R.center.x) + sin t * (Q.y - R.center.y) + R.center.x,
        -sin t * (Q.x - R.center.x) + cos t * (Q.y - R.center.y) + R.center.y⟩, ?_, ?_⟩
      · rw [h'] at hQ
        simp only [OnCircle, sqDist] at hQ ⊢
        rw [← hQ]
        linear_combination ((Q.x - R.center.x) ^ 2 + (Q.y - R.center.y) ^ 2 -
          (c.center.x - R.center.x) ^ 2 - (c.center.y - R.center.y) ^ 2) * hcs
      · rw [isRotated_iff]
        ext
        · simp only; linear_combination (-(Q.x - R.center.x)) * hcs
        · simp only; linear_combination (-(Q.y - R.center.y)) * hcs
    · rintro ⟨P, hP, hR⟩
      rw [isRotated_iff] at hR
      rw [h', hR]
      simp only [OnCircle, sqDist] at hP ⊢
      rw [← hP]
      linear_combination ((P.x - c.center.x) ^ 2 + (P.y - c.center.y) ^ 2) * hcs

/-- C11: `rotate_ellipse` never fails and gives the image of the ellipse and of the region it bounds. -/
theorem C11_rotate_ellipse (R : Rotation) (e : Ellipse) (he : e.Valid) : ∃ e', R.rotate_ellipse e = .ok e' ∧ e'.Valid ∧
    MapsOnto (IsRotated R.center R.rad) (OnEllipse e.center e.rmajor e.rminor e.rad)
      (OnEllipse e'.center e'.rmajor e'.rminor e'.rad) ∧
    MapsOnto (IsRotated R.center R.rad) (InEllipse e.center e.rmajor e.rminor e.rad)
      (InEllipse e'.center e'.rmajor e'.rminor e'.rad) := by
  obtain ⟨O', eq, h⟩ := C11_rotate R e.center
  obtain ⟨α', hα'⟩ : ∃ α', α' = e.alpha + (if e.degrees = true ∧ R.degrees = false then R.theta * (180 / π)
    else if e.degrees = false ∧ R.degrees = true then R.theta * (π / 180) else R.theta) := ⟨_, rfl⟩
  have hrad : (⟨O', e.rmajor, e.rminor, α', e.degrees⟩ : Ellipse).rad = e.rad + R.rad := by
    rw [hα']
    unfold Ellipse.rad Rotation.rad
    have := pi_ne_zero
    dsimp only
    cases e.degrees <;> cases R.degrees <;> simp
    · field_simp
    · ring
  obtain ⟨t, ht⟩ : ∃ t, t = R.rad := ⟨_, rfl⟩
  have h' : IsRotated R.center t e.center O' := by rw [ht]; exact h
  rw [isRotated_iff] at h'
  have hcs := sin_sq_add_cos_sq t
  -- the coordinates along the axes are unchanged
  have key : ∀ P Q, IsRotated R.center t P Q → axisCoord O' (e.rad + t) Q = axisCoord e.center e.rad P := by
    intro P Q hPQ
    rw [isRotated_iff] at hPQ
    rw [hPQ, h']
    simp only [axisCoord, cos_add, sin_add]
    ext
    · simp only
      linear_combination ((P.x - e.center.x) * cos e.rad + (P.y - e.center.y) * sin e.rad) * hcs
    · simp only
      linear_combination (-(P.x - e.center.x) * sin e.rad + (P.y - e.center.y) * cos e.rad) * hcs
  have surj : ∀ Q, ∃ P, IsRotated R.center t P Q := by
    intro Q
    refine ⟨⟨cos t * (Q.x - R.center.x) + sin t * (Q.y - R.center.y) + R.center.x,
      -sin t * (Q.x - R.center.x) + cos t * (Q.y - R.center.y) + R.center.y⟩, ?_⟩
    rw [isRotated_iff]
    ext
    · simp only; linear_combination (-(Q.x - R.center.x)) * hcs
    · simp only; linear_combination (-(Q.y - R.center.y)) * hcs
  refine ⟨⟨O', e.rmajor, e.rminor, α', e.degrees⟩, ?_, he, fun Q => ?_, fun Q => ?_⟩
  · unfold Rotation.rotate_ellipse
    dsimp only
    rw [eq, Res.ok_bind, ← hα']
    unfold mkEllipse
    rw [if_neg (not_le.2 he.1), if_neg (not_le.2 he.2)]
  · rw [hrad, ← ht]
    dsimp only
    constructor
    · intro hQ
      obtain ⟨P, hP⟩ := surj Q
      refine ⟨P, ?_, hP⟩
      rw [onEllipse_iff he.1 he.2] at hQ ⊢
      unfold ellVal at hQ ⊢
      rw [key P Q hP] at hQ
      exact hQ
    · rintro ⟨P, hP, hPQ⟩
      rw [onEllipse_iff he.1 he.2] at hP ⊢
      unfold ellVal at hP ⊢
      rw [key P Q hPQ]; exact hP
  · rw [hrad, ← ht]
    dsimp only
    constructor
    · intro hQ
      obtain ⟨P, hP⟩ := surj Q
      refine ⟨P, ?_, hP⟩
      unfold InEllipse at hQ ⊢
      rw [key P Q hP] at hQ
      exact hQ
    · rintro ⟨P, hP, hPQ⟩
      unfold InEllipse at hP ⊢
      rw [key P Q hPQ]; exact hP

/-- C11: `Line.rotate` and `rotate_line` are the same, including the exceptions. -/
theorem C11_line_rotate_eq (R : Rotation) (l : Line) : l.rotate R.theta R.center R.degrees = R.rotate_line l := by
  unfold Rotation.rotate_line Line.rotate
  rw [R.rotatePt_eq _ _ rfl, R.rotatePt_eq _ _ rfl, Res.ok_bind, Res.ok_bind]
  simp only [unit_vector_]
  congr 1

/-- C11, partial: `rotate_line` gives the image of the line, half-line or segment whenever it returns a value.  Missing:
it raises `ValueError` when the images of the defining points are `np.allclose` (`C11_rotate_line_raises_counterexample`). -/
theorem C11_rotate_line_partial (R : Rotation) (l : Line) (A' B' : Pt) (hA : IsRotated R.center R.rad l.A A')
    (hB : IsRotated R.center R.rad l.B B') (h : ¬ allclose A' B') : ∃ l', R.rotate_line l = .ok l' ∧ l'.Valid ∧
      MapsOnto (IsRotated R.center R.rad) (LineSet l) (LineSet l') := by
  obtain ⟨t, ht⟩ : ∃ t, t = R.rad := ⟨_, rfl⟩
  rw [← ht, isRotated_iff] at hA hB
  refine ⟨⟨A', B', l.extendA, l.extendB⟩, ?_, h, fun Q => ?_⟩
  · unfold Rotation.rotate_line
    rw [R.rotatePt_eq _ t ht, R.rotatePt_eq _ t ht, Res.ok_bind, Res.ok_bind, ← hA, ← hB]
    exact mkLine_ok.2 ⟨h, rfl⟩
  · rw [hA, hB, ← ht]
    rw [lineSet_image (fun P => ⟨cos t * (P.x - R.center.x) - sin t * (P.y - R.center.y) + R.center.x,
      sin t * (P.x - R.center.x) + cos t * (P.y - R.center.y) + R.center.y⟩) (by
        intro A B s
        ext <;> simp <;> ring)]
    simp only [isRotated_iff]

/-- Counterexample to C11 for lines: rotating a short segment away from the origin raises `ValueError`. -/
theorem C11_rotate_line_raises_counterexample :
    let l : Line := ⟨⟨0, 0⟩, ⟨1 / 10 ^ 7, 0⟩, true, true⟩
    l.Valid ∧ (⟨⟨10, 0⟩, 90, true⟩ : Rotation).rotate_line l = .error (.valueError "`A` and `B` must be distinct.") := by
  intro l
  constructor
  · show ¬ allclose _ _; unfold allclose npClose; norm_num [abs_of_neg]
  · unfold Rotation.rotate_line
    have h90 : (90 : ℝ) * (π / 180) = π / 2 := by ring
    rw [Rotation.rotatePt_eq _ _ (π / 2) (by simp [h90]), Rotation.rotatePt_eq _ _ (π / 2) (by simp [h90]),
      Res.ok_bind, Res.ok_bind]
    unfold mkLine
    rw [if_pos]
    unfold allclose npClose
    norm_num [l, abs_of_neg]

/-- The quarter turn around `(1, 1)` maps `(2, 1)` to `(1, 2)`; two of them make a half turn. -/
example : (⟨⟨1, 1⟩, 90, true⟩ : Rotation).rotatePt ⟨2, 1⟩ = .ok ⟨1, 2⟩ ∧
    (⟨⟨1, 1⟩, 90, true⟩ : Rotation).as_affine.transform ⟨2, 1⟩ = ⟨1, 2⟩ ∧
    (⟨⟨1, 1⟩, 180, true⟩ : Rotation).rotatePt ⟨2, 1⟩ = (⟨⟨1, 1⟩, 90, true⟩ : Rotation).rotatePt ⟨1, 2⟩ ∧
    (⟨⟨1, 1⟩, 90, true⟩ : Rotation).rotatePt ⟨1, 1⟩ = .ok ⟨1, 1⟩ := by
  have e : (90 : ℝ) * (π / 180) = π / 2 := by ring
  obtain ⟨Q, h, hr⟩ := C11_rotate ⟨⟨1, 1⟩, 90, true⟩ ⟨2, 1⟩
  rw [if_pos rfl, isRotated_iff] at hr
  simp only [e, cos_pi_div_two, sin_pi_div_two] at hr
  norm_num at hr
  have h2 := h
  rw [hr] at h2
  have h3 := C11_as_affine ⟨⟨1, 1⟩, 90, true⟩ ⟨2, 1⟩
  rw [h2] at h3
  have h4 := (C11_group ⟨1, 1⟩ 90 90 true ⟨2, 1⟩).1
  rw [h2, Res.ok_bind] at h4
  refine ⟨h2, by injection h3 with h3; rw [← h3], ?_, (C11_isometry _ _ _ _ _ h h).2⟩
  norm_num at h4 ⊢
  exact h4.symm

/-- The images of a circle, of an ellipse and of a line by this quarter turn. -/
example : (∃ c', (⟨⟨1, 1⟩, 90, true⟩ : Rotation).rotate_circle ⟨⟨2, 1⟩, 3⟩ = .ok c' ∧
      OnCircle c'.center c'.radius ⟨1, 5⟩) ∧
    (∃ e', (⟨⟨1, 1⟩, 90, true⟩ : Rotation).rotate_ellipse ⟨⟨1, 1⟩, 4, 3, 0, true⟩ = .ok e' ∧
      OnEllipse e'.center e'.rmajor e'.rminor e'.rad ⟨1, 5⟩) ∧
    ∃ l', (⟨⟨1, 1⟩, 90, true⟩ : Rotation).rotate_line ⟨⟨1, 1⟩, ⟨2, 1⟩, true, true⟩ = .ok l' ∧ LineSet l' ⟨1, 5⟩ ∧
      (⟨⟨1, 1⟩, ⟨2, 1⟩, true, true⟩ : Line).rotate 90 ⟨1, 1⟩ true = .ok l' := by
  have e : (⟨⟨1, 1⟩, 90, true⟩ : Rotation).rad = π / 2 := by unfold Rotation.rad; rw [if_pos rfl]; ring
  have r : ∀ P : Pt, IsRotated ⟨1, 1⟩ (⟨⟨1, 1⟩, 90, true⟩ : Rotation).rad P ⟨2 - P.y, P.x⟩ := by
    intro P
    rw [isRotated_iff, e, cos_pi_div_two, sin_pi_div_two]
    ext <;> simp; ring
  have r5 : IsRotated ⟨1, 1⟩ (⟨⟨1, 1⟩, 90, true⟩ : Rotation).rad ⟨5, 1⟩ ⟨1, 5⟩ := by
    have := r ⟨5, 1⟩; norm_num at this; exact this
  obtain ⟨c', hc, -, mc⟩ := C11_rotate_circle ⟨⟨1, 1⟩, 90, true⟩ ⟨⟨2, 1⟩, 3⟩ (by unfold Circle.Valid; norm_num)
  obtain ⟨e', he, -, me, -⟩ := C11_rotate_ellipse ⟨⟨1, 1⟩, 90, true⟩ ⟨⟨1, 1⟩, 4, 3, 0, true⟩
    (by constructor <;> norm_num)
  obtain ⟨l', hl, -, ml⟩ := C11_rotate_line_partial ⟨⟨1, 1⟩, 90, true⟩ ⟨⟨1, 1⟩, ⟨2, 1⟩, true, true⟩ _ _ (r _) (r _)
    (by unfold allclose npClose; norm_num)
  refine ⟨⟨c', hc, (mc _).2 ⟨⟨5, 1⟩, by norm_num [OnCircle, sqDist], r5⟩⟩,
    ⟨e', he, (me _).2 ⟨⟨5, 1⟩, ⟨0, ?_⟩, r5⟩⟩, l', hl, (ml _).2 ⟨⟨5, 1⟩, ⟨4, ?_⟩, r5⟩, ?_⟩
  · unfold ellipsePoint Ellipse.rad; ext <;> norm_num
  · ext <;> norm_num
  · rw [← hl, ← C11_line_rotate_eq]

/-- The hypotheses of `C11_rotate_line_partial` hold. -/
example : ∃ (R : Rotation) (l : Line) (A' B' : Pt), R.theta = 1 ∧ IsRotated R.center R.rad l.A A' ∧
    IsRotated R.center R.rad l.B B' ∧ ¬ allclose A' B' := by
  refine ⟨⟨⟨0, 0⟩, 1, false⟩, ⟨⟨0, 0⟩, ⟨1, 0⟩, true, true⟩, ⟨0, 0⟩, ⟨cos 1, sin 1⟩, rfl, ?_, ?_, ?_⟩
  · rw [isRotated_iff]; simp
  · rw [isRotated_iff]; simp [Rotation.rad]
  · rintro ⟨h, -⟩
    have hp := cos_one_pos
    have hl := cos_le_one 1
    unfold npClose at h
    have h2 := cos_one_le
    have h3 : (1 : ℝ) / 2 ≤ cos 1 := by
      rw [← cos_pi_div_three]
      apply cos_le_cos_of_nonneg_of_le_pi <;> linarith [pi_gt_three, pi_le_four]
    simp only [zero_sub, abs_neg, abs_of_pos hp] at h
    norm_num at h
    linarith
