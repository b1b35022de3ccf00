import Verif.Model.Transforms
import Verif.Spec.Transforms
import Verif.Props.Line
import Verif.Model.Affine

/-!
# Theorems on `Projection` (C59)
-/

open Spec Real Classical

namespace Projection

/-- The attributes of a constructed projection are valid lines. -/
def Valid (p : Projection) : Prop := p.D.Valid ∧ p.Delta.Valid

/-- The direction of the projection. -/
def u (p : Projection) : Pt := p.Delta.B - p.Delta.A

/-- The points on which `project` is exact: points that are `np.allclose` to a defining point of `D` are on `D`. -/
def ExactAt (p : Projection) (M : Pt) : Prop :=
  allclose p.D.A M ∨ allclose p.D.B M → OnLine p.D.A p.D.B M

end Projection

theorem mkProjection_valid {D : Line} {Delta : Option Line} {p : Projection} (h : mkProjection D Delta = .ok p) :
    p.Valid ∧ p.D.A = D.A ∧ p.D.B = D.B := by
  unfold mkProjection at h
  obtain ⟨D', h1, h2⟩ := Res.bind_ok.1 h
  have hD := mkLine_valid h1
  obtain ⟨-, rfl⟩ := mkLine_ok.1 h1
  cases Delta with
  | none =>
    obtain ⟨E, h3, h4⟩ := Res.bind_ok.1 h2
    cases h4
    exact ⟨⟨hD, mkLine_valid h3⟩, rfl, rfl⟩
  | some d =>
    obtain ⟨E, h3, h4⟩ := Res.bind_ok.1 h2
    cases h4
    exact ⟨⟨hD, mkLine_valid h3⟩, rfl, rfl⟩

/-- C59: the constructor accepts every pair of valid lines and keeps them. -/
theorem C59_constructor (D Delta : Line) (h1 : D.Valid) (h2 : Delta.Valid) :
    ∃ p, mkProjection D (some Delta) = .ok p ∧ p.Valid ∧ p.D.A = D.A ∧ p.D.B = D.B ∧ p.u = Delta.B - Delta.A := by
  have e : mkProjection D (some Delta) = .ok ⟨⟨D.A, D.B, true, true⟩, ⟨Delta.A, Delta.B, true, true⟩, false⟩ := by
    unfold mkProjection
    rw [mkLine_ok.2 ⟨h1, rfl⟩, Res.ok_bind]
    dsimp only
    rw [mkLine_ok.2 ⟨h2, rfl⟩, Res.ok_bind]
    rfl
  exact ⟨_, e, (mkProjection_valid e).1, rfl, rfl, rfl⟩

/-- The normal form of `D` against a direction. -/
theorem normal_parallel {l : Line} (hl : l.Valid) (v : Pt) :
    dot_ (unit_vector_ l.direction_offset.1) v = 0 ↔ Parallel (l.B - l.A) v := by
  obtain ⟨-, -, -, h⟩ := C03_direction_offset l hl
  have hne := ne_of_not_allclose hl
  have hpos := sqDist_pos hne
  have hA := (h l.A).1 ⟨0, by ext <;> simp⟩
  have hB := (h l.B).1 ⟨1, by ext <;> simp⟩
  have hcs := sin_sq_add_cos_sq l.direction_offset.1
  unfold dot_ unit_vector_ Parallel cross
  obtain ⟨c, hc⟩ : ∃ c, c = cos l.direction_offset.1 := ⟨_, rfl⟩
  obtain ⟨s, hs⟩ : ∃ s, s = sin l.direction_offset.1 := ⟨_, rfl⟩
  rw [← hc, ← hs] at hA hB hcs ⊢
  simp only [Pt.sub_x, Pt.sub_y]
  have e : c * (l.B.x - l.A.x) + s * (l.B.y - l.A.y) = 0 := by linear_combination hB - hA
  obtain ⟨m, hm⟩ : ∃ m, m = c * (l.B.y - l.A.y) - s * (l.B.x - l.A.x) := ⟨_, rfl⟩
  have ex : l.B.x - l.A.x = -s * m := by rw [hm]; linear_combination c * e - (l.B.x - l.A.x) * hcs
  have ey : l.B.y - l.A.y = c * m := by rw [hm]; linear_combination s * e - (l.B.y - l.A.y) * hcs
  have hm0 : m ≠ 0 := by
    rintro rfl
    apply hne
    ext <;> linarith
  rw [ex, ey]
  constructor
  · intro h0; linear_combination (-m) * h0
  · intro h0
    apply mul_left_cancel₀ hm0
    linear_combination -h0

/-- `project` where it does not return its argument. -/
theorem project_off (p : Projection) (hp : p.Valid) (M : Pt) (hi : p.D.includes M = false) :
    (Parallel (p.D.B - p.D.A) p.u → p.project M = .error .nonFinite) ∧
    (¬ Parallel (p.D.B - p.D.A) p.u → ∃ Q, p.project M = .ok Q ∧ IsProjection p.D.A p.D.B p.u M Q) := by
  have hn := normal_parallel hp.1 p.u
  obtain ⟨-, -, -, h⟩ := C03_direction_offset p.D hp.1
  constructor
  · intro hpar
    unfold Projection.project npDiv
    rw [if_neg (by rw [hi]; decide)]
    dsimp only
    rw [show p.Delta.B - p.Delta.A = p.u from rfl, if_pos (hn.2 hpar)]
    rfl
  · intro hpar
    have hd : dot_ (unit_vector_ p.D.direction_offset.1) p.u ≠ 0 := fun h0 => hpar (hn.1 h0)
    refine ⟨(-(dot_ (unit_vector_ p.D.direction_offset.1) M - p.D.direction_offset.2) /
      dot_ (unit_vector_ p.D.direction_offset.1) p.u) • p.u + M, ?_, ?_, ?_⟩
    · unfold Projection.project npDiv
      rw [if_neg (by rw [hi]; decide)]
      dsimp only
      rw [show p.Delta.B - p.Delta.A = p.u from rfl, if_neg hd]
      rfl
    · rw [h]
      unfold dot_ unit_vector_ at hd ⊢
      simp only [Pt.add_x, Pt.add_y, Pt.smul_x, Pt.smul_y]
      obtain ⟨E, hE⟩ : ∃ E, E = cos p.D.direction_offset.1 * p.u.x + sin p.D.direction_offset.1 * p.u.y := ⟨_, rfl⟩
      dsimp only at hd ⊢
      rw [← hE] at hd ⊢
      field_simp
      linear_combination (cos p.D.direction_offset.1 * M.x + sin p.D.direction_offset.1 * M.y - p.D.direction_offset.2) * hE
    · unfold Parallel cross
      simp only [Pt.sub_x, Pt.sub_y, Pt.add_x, Pt.add_y, Pt.smul_x, Pt.smul_y]
      ring

/-- C59, partial: if the lines are not parallel then `project` returns the projection.  Missing: points `np.allclose` to a
defining point of `D` without being on `D`, which are returned unchanged (`C59_near_counterexample`). -/
theorem C59_project_partial (p : Projection) (hp : p.Valid) (hpar : ¬ Parallel (p.D.B - p.D.A) p.u) (M : Pt)
    (hM : p.ExactAt M) : ∃ Q, p.project M = .ok Q ∧ IsProjection p.D.A p.D.B p.u M Q := by
  cases hi : p.D.includes M with
  | true =>
    refine ⟨M, ?_, ((C05_includes _ hp.1 _).1 hi).elim id hM, ?_⟩
    · unfold Projection.project
      rw [if_pos hi]
    · unfold Parallel cross
      simp
  | false => exact (project_off p hp M hi).2 hpar

/-- C59: `project` always returns, when the lines are not parallel, a point that it fixes. -/
theorem C59_idempotent (p : Projection) (hp : p.Valid) (hpar : ¬ Parallel (p.D.B - p.D.A) p.u) (M : Pt) :
    ∃ Q, p.project M = .ok Q ∧ p.project Q = .ok Q := by
  cases hi : p.D.includes M with
  | true =>
    have : p.project M = .ok M := by unfold Projection.project; rw [if_pos hi]
    exact ⟨M, this, this⟩
  | false =>
    obtain ⟨Q, h1, h2, -⟩ := (project_off p hp M hi).2 hpar
    refine ⟨Q, h1, ?_⟩
    unfold Projection.project
    rw [if_pos ((C05_includes _ hp.1 _).2 (Or.inl h2))]

/-- The projection of a point is unique. -/
theorem projection_unique {A B u M Q Q' : Pt} (hne : A ≠ B) (hpar : ¬ Parallel (B - A) u) (h : IsProjection A B u M Q)
    (h' : IsProjection A B u M Q') : Q = Q' := by
  obtain ⟨h1, h2⟩ := h
  obtain ⟨h3, h4⟩ := h'
  rw [onLine_iff_cross hne] at h1 h3
  unfold Parallel at *
  simp only [cross, Pt.sub_x, Pt.sub_y] at *
  ext
  · apply mul_left_cancel₀ hpar
    linear_combination u.x * (h1 - h3) - (B.x - A.x) * (h2 - h4)
  · apply mul_left_cancel₀ hpar
    linear_combination u.y * (h1 - h3) - (B.y - A.y) * (h2 - h4)

/-- C59, partial: `as_affine` returns the projection as an affine map, which agrees with `project`.  Missing: projections
for which one of the points (0, 0), (1, 0), (0, 1) or the projected point is `np.allclose` to a defining point of `D`
without being on `D` (`C59_as_affine_counterexample`). -/
theorem C59_as_affine_partial (p : Projection) (hp : p.Valid) (hpar : ¬ Parallel (p.D.B - p.D.A) p.u)
    (h0 : p.ExactAt ⟨0, 0⟩) (h1 : p.ExactAt ⟨1, 0⟩) (h2 : p.ExactAt ⟨0, 1⟩) :
    ∃ f, p.as_affine = .ok f ∧ (∀ M, IsProjection p.D.A p.D.B p.u M (f.transform M)) ∧
      ∀ M, p.ExactAt M → p.project M = .ok (f.transform M) := by
  have hne := ne_of_not_allclose hp.1
  obtain ⟨Q0, e0, a0⟩ := C59_project_partial p hp hpar _ h0
  obtain ⟨Q1, e1, a1⟩ := C59_project_partial p hp hpar _ h1
  obtain ⟨Q2, e2, a2⟩ := C59_project_partial p hp hpar _ h2
  have hf : p.as_affine = .ok (Affine.ofMatrix3
      !![(Q1 - Q0).x, (Q2 - Q0).x, Q0.x; (Q1 - Q0).y, (Q2 - Q0).y, Q0.y; 0, 0, 1]) := by
    unfold Projection.as_affine Projection.get3x3matrix
    simp only [e0, e1, e2, Res.ok_bind]
    rfl
  have key : ∀ M, IsProjection p.D.A p.D.B p.u M ((Affine.ofMatrix3
      !![(Q1 - Q0).x, (Q2 - Q0).x, Q0.x; (Q1 - Q0).y, (Q2 - Q0).y, Q0.y; 0, 0, 1]).transform M) := by
    intro M
    obtain ⟨l0, c0⟩ := a0
    obtain ⟨l1, c1⟩ := a1
    obtain ⟨l2, c2⟩ := a2
    unfold IsProjection
    rw [onLine_iff_cross hne] at *
    unfold Parallel at *
    simp only [cross, Pt.sub_x, Pt.sub_y, Affine.transform, Affine.ofMatrix3] at *
    simp only [Matrix.of_apply, Matrix.cons_val', Matrix.cons_val_zero, Matrix.cons_val_one, Matrix.cons_val,
      Matrix.cons_val_fin_one]
    constructor
    · linear_combination (1 - M.x - M.y) * l0 + M.x * l1 + M.y * l2
    · linear_combination (1 - M.x - M.y) * c0 + M.x * c1 + M.y * c2
  refine ⟨_, hf, key, fun M hM => ?_⟩
  obtain ⟨Q, e, a⟩ := C59_project_partial p hp hpar M hM
  rw [e, projection_unique hne hpar a (key M)]

/-- C59: with `Delta=None` the projection is the orthogonal projection of `Line.projection`, and the lines are never
parallel. -/
theorem C59_orthogonal_partial (l : Line) (p : Projection) (h : mkProjection l none = .ok p) :
    p.Valid ∧ ¬ Parallel (p.D.B - p.D.A) p.u ∧
    ∀ M, p.ExactAt M → ∃ Q, p.project M = .ok Q ∧ l.projection M = some Q := by
  obtain ⟨hv, eA, eB⟩ := mkProjection_valid h
  have hl : l.Valid := by have := hv.1; unfold Line.Valid at this ⊢; rwa [eA, eB] at this
  have hne := ne_of_not_allclose hl
  have hu : p.u = ⟨-(l.B - l.A).y, (l.B - l.A).x⟩ := by
    unfold mkProjection at h
    obtain ⟨D', h1, h2⟩ := Res.bind_ok.1 h
    obtain ⟨E, h3, h4⟩ := Res.bind_ok.1 h2
    obtain ⟨-, rfl⟩ := mkLine_ok.1 h3
    cases h4
    unfold Projection.u
    ext <;> simp
  have hpar : ¬ Parallel (p.D.B - p.D.A) p.u := by
    rw [eA, eB, hu]
    have := sqDist_pos hne
    unfold sqDist at this
    unfold Parallel cross
    simp only [Pt.sub_x, Pt.sub_y]
    intro h0
    nlinarith
  refine ⟨hv, hpar, fun M hM => ?_⟩
  obtain ⟨Q, e, a⟩ := C59_project_partial p hv hpar M hM
  obtain ⟨H, eH, b1, b2⟩ := C07_projection l hl M
  refine ⟨Q, e, ?_⟩
  rw [eH]
  congr 1
  rw [eA, eB] at a hpar
  refine projection_unique hne hpar ⟨b1, ?_⟩ a
  rw [hu]
  unfold Perp dot at b2
  unfold Parallel cross
  linear_combination b2

/-- C59, outside the hypothesis: for parallel lines, off the line `D` the division by zero gives non finite numbers. -/
theorem C59_parallel (p : Projection) (hp : p.Valid) (hpar : Parallel (p.D.B - p.D.A) p.u) (M : Pt)
    (hM : ¬ OnLine p.D.A p.D.B M) (hA : ¬ allclose p.D.A M) (hB : ¬ allclose p.D.B M) :
    p.project M = .error .nonFinite := by
  refine (project_off p hp M ?_).1 hpar
  rw [Bool.eq_false_iff]
  intro hi
  rcases (C05_includes _ hp.1 _).1 hi with h | h | h
  · exact hM h
  · exact hA h
  · exact hB h

/-- The horizontal axis, projected on vertically. -/
noncomputable def projX : Projection := ⟨⟨⟨0, 0⟩, ⟨1, 0⟩, true, true⟩, ⟨⟨0, 0⟩, ⟨0, 1⟩, true, true⟩, false⟩

theorem projX_valid : projX.Valid ∧ ¬ Parallel (projX.D.B - projX.D.A) projX.u := by
  refine ⟨⟨?_, ?_⟩, ?_⟩
  · show ¬ allclose _ _; unfold allclose npClose projX; norm_num
  · show ¬ allclose _ _; unfold allclose npClose projX; norm_num
  · unfold Parallel cross Projection.u projX; norm_num

/-- C59 fails near the defining points: the point (0, 1e-9) is returned unchanged although it is not on `D`. -/
theorem C59_near_counterexample : projX.project ⟨0, 1 / 10 ^ 9⟩ = .ok ⟨0, 1 / 10 ^ 9⟩ ∧
    ¬ OnLine projX.D.A projX.D.B ⟨0, 1 / 10 ^ 9⟩ := by
  constructor
  · unfold Projection.project
    rw [if_pos]
    rw [C05_includes _ projX_valid.1.1]
    right; left
    unfold allclose npClose projX; norm_num
  · rw [onLine_iff_cross (ne_of_not_allclose projX_valid.1.1)]
    unfold cross projX; norm_num

/-- C59 fails for `as_affine` when `D` passes very near (0, 0) and (1, 0): for the line `y = 1e-9` given by its points of
abscissae 0 and 1, the affine map does not map (5, 0) to a point of `D`. -/
theorem C59_as_affine_counterexample :
    let p : Projection := ⟨⟨⟨0, 1 / 10 ^ 9⟩, ⟨1, 1 / 10 ^ 9⟩, true, true⟩, ⟨⟨0, 0⟩, ⟨0, 1⟩, true, true⟩, false⟩
    p.Valid ∧ ¬ Parallel (p.D.B - p.D.A) p.u ∧
      ∃ f, p.as_affine = .ok f ∧ ¬ OnLine p.D.A p.D.B (f.transform ⟨5, 0⟩) := by
  intro p
  have hD : p.D.Valid := by show ¬ allclose _ _; unfold allclose npClose; norm_num [p]
  have hE : p.Delta.Valid := by show ¬ allclose _ _; unfold allclose npClose; norm_num [p]
  have hpar : ¬ Parallel (p.D.B - p.D.A) p.u := by unfold Parallel cross Projection.u; norm_num [p]
  have h0 : p.project ⟨0, 0⟩ = .ok ⟨0, 0⟩ := by
    unfold Projection.project
    rw [if_pos]
    rw [C05_includes _ hD]
    right; left
    unfold allclose npClose; norm_num [p]
  have h1 : p.project ⟨1, 0⟩ = .ok ⟨1, 0⟩ := by
    unfold Projection.project
    rw [if_pos]
    rw [C05_includes _ hD]
    right; right
    unfold allclose npClose; norm_num [p]
  obtain ⟨Q2, h2, -⟩ := C59_idempotent p ⟨hD, hE⟩ hpar ⟨0, 1⟩
  refine ⟨⟨hD, hE⟩, hpar, Affine.ofMatrix3 !![1, Q2.x, 0; 0, Q2.y, 0; 0, 0, 1], ?_, ?_⟩
  · unfold Projection.as_affine Projection.get3x3matrix
    simp only [h0, h1, h2, Res.ok_bind, Pt.sub_x, Pt.sub_y, sub_zero, sub_self]
    rfl
  · rw [onLine_iff_cross (ne_of_not_allclose hD)]
    simp [cross, p, Affine.transform, Affine.ofMatrix3]

/-- C59: the constructor with `Delta=None` rejects some valid lines: the perpendicular direction of a very short line is
too close to the origin. -/
theorem C59_short_line_counterexample :
    let l : Line := ⟨⟨1000005 / 10 ^ 14, 0⟩, ⟨0, 0⟩, true, true⟩
    l.Valid ∧ ∃ e, mkProjection l none = .error e := by
  intro l
  have hl : l.Valid := by
    show ¬ allclose _ _
    unfold allclose npClose
    rw [not_and_or]
    left
    rw [not_le]
    simp only [l]
    rw [abs_zero, abs_of_pos (by norm_num)]
    norm_num
  refine ⟨hl, ?_⟩
  unfold mkProjection
  rw [mkLine_ok.2 ⟨hl, rfl⟩, Res.ok_bind]
  dsimp only
  have : allclose ⟨0, 0⟩ (⟨-(l.B - l.A).y, (l.B - l.A).x⟩ : Pt) := by
    unfold allclose npClose
    simp only [l, Pt.sub_x, Pt.sub_y]
    constructor
    · norm_num
    · rw [abs_of_pos (by norm_num), abs_of_neg (by norm_num)]
      norm_num
  unfold mkLine
  rw [if_pos this]
  exact ⟨_, rfl⟩

/-- Hypotheses met, with a point off the line. -/
example : projX.Valid ∧ ¬ Parallel (projX.D.B - projX.D.A) projX.u ∧ projX.ExactAt ⟨3, 5⟩ ∧ projX.ExactAt ⟨0, 0⟩ ∧
    projX.ExactAt ⟨1, 0⟩ ∧ projX.ExactAt ⟨0, 1⟩ := by
  refine ⟨projX_valid.1, projX_valid.2, ?_, fun _ => ⟨0, by ext <;> simp [projX]⟩, fun _ => ⟨1, by ext <;> simp [projX]⟩, ?_⟩
  · rintro (h | h) <;> · have := h.2; unfold npClose projX at this; norm_num at this
  · rintro (h | h) <;> · have := h.2; unfold npClose projX at this; norm_num at this

/-- The projection on the first axis along the diagonal is built, and projects a point and its image to the same point. -/
example : ∃ p Q, mkProjection ⟨⟨0, 0⟩, ⟨1, 0⟩, true, true⟩ (some ⟨⟨0, 0⟩, ⟨1, 1⟩, true, true⟩) = .ok p ∧
    p.project ⟨3, 5⟩ = .ok Q ∧ p.project Q = .ok Q := by
  obtain ⟨p, h, hp, hA, hB, hu⟩ := C59_constructor ⟨⟨0, 0⟩, ⟨1, 0⟩, true, true⟩ ⟨⟨0, 0⟩, ⟨1, 1⟩, true, true⟩
    (by unfold Line.Valid allclose npClose; norm_num) (by unfold Line.Valid allclose npClose; norm_num)
  obtain ⟨Q, h1, h2⟩ := C59_idempotent p hp (by rw [hA, hB, hu]; norm_num [Parallel, cross]) ⟨3, 5⟩
  exact ⟨p, Q, h, h1, h2⟩

/-- The vertical projection of `(3, 5)` on the first axis, by `project` and by the matrix. -/
example : (∃ Q, projX.project ⟨3, 5⟩ = .ok Q ∧ IsProjection projX.D.A projX.D.B projX.u ⟨3, 5⟩ Q) ∧
    ∃ f, projX.as_affine = .ok f ∧ projX.project ⟨3, 5⟩ = .ok (f.transform ⟨3, 5⟩) := by
  have e : projX.ExactAt ⟨3, 5⟩ := by
    rintro (h | h) <;> · have := h.2; unfold npClose projX at this; norm_num at this
  have e2 : projX.ExactAt ⟨0, 1⟩ := by
    rintro (h | h) <;> · have := h.2; unfold npClose projX at this; norm_num at this
  refine ⟨C59_project_partial _ projX_valid.1 projX_valid.2 _ e, ?_⟩
  obtain ⟨f, h, -, hm⟩ := C59_as_affine_partial _ projX_valid.1 projX_valid.2 (fun _ => ⟨0, by ext <;> simp [projX]⟩)
    (fun _ => ⟨1, by ext <;> simp [projX]⟩) e2
  exact ⟨f, h, hm _ e⟩

/-- The default direction: the orthogonal projection on the line through `(0, 0)` and `(4, 2)`, where it agrees with
`Line.projection`. -/
example (p : Projection) (h : mkProjection ⟨⟨0, 0⟩, ⟨4, 2⟩, true, true⟩ none = .ok p) (hM : p.ExactAt ⟨0, 5⟩) :
    ∃ Q, p.project ⟨0, 5⟩ = .ok Q ∧ (⟨⟨0, 0⟩, ⟨4, 2⟩, true, true⟩ : Line).projection ⟨0, 5⟩ = some Q :=
  (C59_orthogonal_partial _ p h).2.2 _ hM

/-- A projection along the line itself has no value at a point off the line. -/
example (p : Projection) (hp : p.Valid) (hA : p.D.A = ⟨0, 0⟩) (hB : p.D.B = ⟨1, 0⟩) (hu : p.u = ⟨2, 0⟩) :
    p.project ⟨3, 5⟩ = .error .nonFinite := by
  refine C59_parallel p hp (by rw [hA, hB, hu]; norm_num [Parallel, cross]) _ ?_ ?_ ?_ <;> simp only [hA, hB]
  · rintro ⟨t, h⟩
    have := congrArg Pt.y h
    norm_num at this
  · unfold allclose npClose; norm_num
  · unfold allclose npClose; norm_num
