import Verif.Props.Exact4
import Verif.Props.Random
import Verif.Props.SteinerEllipse
import Verif.Props.Triangle

/-!
# Exact conditions: images of lines, diameters, incircles, radical centers, Steiner ellipses, random points, three point maps

As in `Props/Exact.lean`.
-/

open Spec Real Classical

/-! ### C11 -/

/-- C11, the exact condition for lines: `rotate_line` returns the image of the line, half-line or segment exactly when the images of the
two defining points are not `np.allclose`; otherwise it raises `ValueError`. -/
theorem C11_exact (R : Rotation) (l : Line) (A' B' : Pt) (hA : IsRotated R.center R.rad l.A A')
    (hB : IsRotated R.center R.rad l.B B') :
    ((∃ l', R.rotate_line l = .ok l' ∧ l'.Valid ∧ MapsOnto (IsRotated R.center R.rad) (LineSet l) (LineSet l')) ↔
      ¬ allclose A' B') ∧
    (allclose A' B' → R.rotate_line l = .error (.valueError "`A` and `B` must be distinct.")) := by
  have key : allclose A' B' → R.rotate_line l = .error (.valueError "`A` and `B` must be distinct.") := by
    intro h
    have e1 := (isRotated_iff _ _ _ _).1 hA
    have e2 := (isRotated_iff _ _ _ _).1 hB
    unfold Rotation.rotate_line
    rw [R.rotatePt_eq l.A _ rfl, R.rotatePt_eq l.B _ rfl, Res.ok_bind, Res.ok_bind]
    unfold mkLine
    rw [if_pos]
    have a1 : A' = _ := e1
    have a2 : B' = _ := e2
    rw [a1, a2] at h
    exact h
  refine ⟨⟨?_, C11_rotate_line_partial R l A' B' hA hB⟩, key⟩
  rintro ⟨l', h, -⟩ hc
  rw [key hc] at h
  exact absurd h (by simp)

/-! ### C47 -/

/-- C47, the exact condition for lines: for an invertible map, `transform_line` returns the image exactly when the images of the two
defining points are not `np.allclose`; otherwise it raises `ValueError`. -/
theorem C47_exact (f : Affine) (hf : Function.Bijective f.transform) (l : Line) :
    ((∃ l' : Line, f.transform_line l = .ok (some l') ∧ l'.extendA = l.extendA ∧ l'.extendB = l.extendB ∧
        l'.A = f.transform l.A ∧ l'.B = f.transform l.B ∧
        (∀ P, OnLine l.A l.B P ↔ OnLine l'.A l'.B (f.transform P)) ∧
        (∀ P, OnSegment l.A l.B P ↔ OnSegment l'.A l'.B (f.transform P)) ∧
        (∀ P, OnRay l.A l.B P ↔ OnRay l'.A l'.B (f.transform P))) ↔
      ¬ allclose (f.transform l.A) (f.transform l.B)) ∧
    (allclose (f.transform l.A) (f.transform l.B) → f.transform_line l = .error (.valueError "`A` and `B` must be distinct.")) := by
  have key : allclose (f.transform l.A) (f.transform l.B) →
      f.transform_line l = .error (.valueError "`A` and `B` must be distinct.") := by
    intro h
    unfold Affine.transform_line
    rw [if_neg]
    · unfold mkLine; rw [if_pos h]; rfl
    · exact ((Matrix.det_fin_two f.A).trans_ne ((C45_inverse f).2.1.1 hf))
  refine ⟨⟨?_, (C47_transform_line_partial f l).2 hf⟩, key⟩
  rintro ⟨l', h, -⟩ hc
  rw [key hc] at h
  exact absurd h (by simp)

/-! ### C68 -/

/-- C68, the exact condition: `diameter(t)` returns the chord through the center exactly when its two ends are not `np.allclose`;
otherwise it raises `ValueError`. -/
theorem C68_exact (e : Ellipse) (t : ℝ) :
    ((∃ l, e.diameter t = .ok l ∧ l.extendA = false ∧ l.extendB = false ∧
      l.A = ellipsePoint e.center e.rmajor e.rminor e.rad t ∧ OnE e l.A ∧ OnE e l.B ∧ e.center = (l.A + l.B) / (2 : ℝ)) ↔
      ¬ allclose (ellipsePoint e.center e.rmajor e.rminor e.rad t) (ellipsePoint e.center e.rmajor e.rminor e.rad (t + π))) ∧
    (allclose (ellipsePoint e.center e.rmajor e.rminor e.rad t) (ellipsePoint e.center e.rmajor e.rminor e.rad (t + π)) →
      ∃ m, e.diameter t = .error (.valueError m)) := by
  obtain ⟨h1, h2⟩ := C68_diameter_partial e t
  have hB : ∀ l, e.diameter t = .ok l → ¬ allclose l.A l.B ∧
      l.B = ellipsePoint e.center e.rmajor e.rminor e.rad (t + π) := by
    intro l hl
    unfold Ellipse.diameter at hl
    dsimp only at hl
    obtain ⟨a1, rfl⟩ := mkLine_ok.1 hl
    exact ⟨a1, ellipse_point_eq _ _ _ _ _⟩
  cases hd : e.diameter t with
  | ok l =>
    obtain ⟨b1, b2, b3, b4, b5, b6⟩ := h1 l hd
    obtain ⟨c1, c2⟩ := hB l hd
    rw [b3, c2] at c1
    exact ⟨⟨fun _ => c1, fun _ => ⟨l, rfl, b1, b2, b3, b4, b5, b6⟩⟩, fun h => absurd h c1⟩
  | error err =>
    obtain ⟨⟨m, rfl⟩, b2⟩ := h2 err hd
    refine ⟨⟨?_, fun h => absurd b2 h⟩, fun _ => ⟨m, rfl⟩⟩
    rintro ⟨l, hl, -⟩
    exact absurd hl (by simp)

/-! ### C38 -/

/-- C38, the exact condition: the inscribed circle is returned exactly for triangles that are not flat, and a triangle is rejected with
`ValueError` exactly when it is flat and its vertices are not all equal. -/
theorem C38_exact (T : Triangle) :
    ((∃ c, T.incircle = .ok c ∧ 0 < c.radius ∧ InTriangle T.A T.B T.C c.center ∧
      TangentLine c.center c.radius T.B T.C ∧ TangentLine c.center c.radius T.C T.A ∧
      TangentLine c.center c.radius T.A T.B) ↔ ¬ Spec.Collinear T.A T.B T.C) ∧
    ((∃ m, T.incircle = .error (.valueError m)) ↔ Spec.Collinear T.A T.B T.C ∧ ¬ (T.A = T.B ∧ T.B = T.C)) ∧
    (T.incircle = .error .nonFinite ↔ T.A = T.B ∧ T.B = T.C) := by
  by_cases h : Spec.Collinear T.A T.B T.C
  · by_cases he : T.A = T.B ∧ T.B = T.C
    · obtain ⟨A, B, C⟩ := T
      dsimp only at h he ⊢
      obtain ⟨rfl, rfl⟩ := he
      have := C38_point_triangle_counterexample A
      refine ⟨⟨?_, fun h' => absurd h h'⟩, ⟨?_, fun h' => absurd ⟨rfl, rfl⟩ h'.2⟩, ⟨fun _ => ⟨rfl, rfl⟩, fun _ => this⟩⟩
      · rintro ⟨c, hc, -⟩; rw [this] at hc; exact absurd hc (by simp)
      · rintro ⟨m, hc⟩; rw [this] at hc; exact absurd hc (by simp)
    · have := C38_incircle_flat_partial T h (by
        by_contra hc; rw [not_or, not_not, not_not] at hc; exact he ⟨hc.1, hc.1.symm.trans hc.2⟩)
      refine ⟨⟨?_, fun h' => absurd h h'⟩, ⟨fun _ => ⟨h, he⟩, fun _ => ⟨_, this⟩⟩, ⟨?_, fun h' => absurd h' he⟩⟩
      · rintro ⟨c, hc, -⟩; rw [this] at hc; exact absurd hc (by simp)
      · intro hc; rw [this] at hc; exact absurd hc (by simp)
  · have hc := C38_incircle T h
    refine ⟨⟨fun _ => h, fun _ => hc⟩, ⟨?_, fun h' => absurd h'.1 h⟩, ⟨?_, ?_⟩⟩
    · rintro ⟨m, hm⟩; obtain ⟨c, hc, -⟩ := hc; rw [hm] at hc; exact absurd hc (by simp)
    · intro hm; obtain ⟨c, hc, -⟩ := hc; rw [hm] at hc; exact absurd hc (by simp)
    · rintro ⟨h1, h2⟩; exfalso; apply h; unfold Spec.Collinear cross; rw [h1, h2]; simp

/-! ### C44 -/

/-- C44, the exact condition: for a triangle whose vertices are not collinear, the two Steiner ellipses are returned exactly when no two
vertices are `np.allclose`; otherwise both methods raise `AttributeError`. -/
theorem C44_exact (T : Triangle) (h : ¬ Spec.Collinear T.A T.B T.C) :
    ((∃ e : Ellipse, T.steiner_ellipse = .ok (some e) ∧ e.Valid ∧ e.center = centroid T.A T.B T.C ∧
      OnEllipse e.center e.rmajor e.rminor e.rad T.A ∧ OnEllipse e.center e.rmajor e.rminor e.rad T.B ∧
      OnEllipse e.center e.rmajor e.rminor e.rad T.C) ↔
        ¬ allclose T.A T.B ∧ ¬ allclose T.A T.C ∧ ¬ allclose T.B T.C) ∧
    ((∃ e : Ellipse, T.steiner_inellipse = .ok (some e) ∧ e.Valid ∧ e.center = centroid T.A T.B T.C ∧
      (∀ X, OnLine T.A T.B X → (OnEllipse e.center e.rmajor e.rminor e.rad X ↔ X = midPt T.A T.B)) ∧
      (∀ X, OnLine T.B T.C X → (OnEllipse e.center e.rmajor e.rminor e.rad X ↔ X = midPt T.B T.C)) ∧
      (∀ X, OnLine T.C T.A X → (OnEllipse e.center e.rmajor e.rminor e.rad X ↔ X = midPt T.C T.A))) ↔
        ¬ allclose T.A T.B ∧ ¬ allclose T.A T.C ∧ ¬ allclose T.B T.C) ∧
    (allclose T.A T.B ∨ allclose T.A T.C ∨ allclose T.B T.C →
      T.steiner_ellipse = .error .attributeError ∧ T.steiner_inellipse = .error .attributeError) := by
  have key : allclose T.A T.B ∨ allclose T.A T.C ∨ allclose T.B T.C →
      T.steiner_ellipse = .error .attributeError ∧ T.steiner_inellipse = .error .attributeError := by
    intro hc
    obtain ⟨fl, hfl, hne⟩ := flatness_ne_one h
    have hb : ¬ (GoodTriple ⟨0, 0⟩ ⟨10, 0⟩ ⟨5, 5 * sqrt 3⟩ ∧ GoodTriple T.A T.B T.C) := by
      rintro ⟨-, hg⟩
      unfold GoodTriple at hg
      tauto
    have hm := (C46_from_mapping_three_points _ _ _ _ _ _).1.2 hb
    constructor
    · obtain ⟨c, hc, -⟩ := ref_circumcircle
      unfold Triangle.steiner_ellipse
      rw [hfl, Res.ok_bind, if_neg hne]
      dsimp only
      rw [hc, Res.ok_bind, hm]
      rfl
    · obtain ⟨c, hc, -⟩ := ref_incircle
      unfold Triangle.steiner_inellipse
      rw [hfl, Res.ok_bind, if_neg hne]
      dsimp only
      rw [hc, Res.ok_bind, hm]
      rfl
  have good : ¬ allclose T.A T.B ∧ ¬ allclose T.A T.C ∧ ¬ allclose T.B T.C → GoodTriple T.A T.B T.C := by
    intro hc; unfold GoodTriple; tauto
  refine ⟨⟨?_, fun hc => C44_steiner_ellipse_partial T (good hc)⟩, ⟨?_, fun hc => C44_steiner_inellipse_partial T (good hc)⟩, key⟩
  · rintro ⟨e, he, -⟩
    by_contra hc
    rw [(key (by tauto)).1] at he
    exact absurd he (by simp)
  · rintro ⟨e, he, -⟩
    by_contra hc
    rw [(key (by tauto)).2] at he
    exact absurd he (by simp)

/-! ### C16 -/

/-- A radical axis is returned exactly when the centers are not `np.allclose` and the two points chosen on the axis are not either. -/
theorem radical_axis_some_iff (c1 c2 : Circle) : (∃ l, c1.radical_axis c2 = .ok (some l)) ↔
    ¬ allclose c1.center c2.center ∧ ∀ R, c1.radical_center c2 = .ok R →
      ¬ allclose R (R + ⟨-(c2.center - c1.center).y, (c2.center - c1.center).x⟩) := by
  unfold Circle.radical_axis
  dsimp only
  by_cases h : allclose c1.center c2.center
  · rw [if_pos h]; simp [h]
  · rw [if_neg h]
    constructor
    · rintro ⟨l, hl⟩
      obtain ⟨R, hR, h1⟩ := Res.bind_ok.1 hl
      obtain ⟨l', hl', h2⟩ := Res.bind_ok.1 h1
      refine ⟨h, fun R' hR' => ?_⟩
      rw [hR, Except.ok.injEq] at hR'
      subst hR'
      exact (mkLine_ok.1 hl').1
    · rintro ⟨-, h2⟩
      obtain ⟨R, hR⟩ : ∃ R, c1.radical_center c2 = .ok R := by
        unfold Circle.radical_center
        dsimp only
        rw [if_neg]
        · exact ⟨_, rfl⟩
        · intro h0
          apply h
          have : c1.center = c2.center := by
            unfold dot1_ dot_ at h0
            simp only [Pt.sub_x, Pt.sub_y] at h0
            ext
            · nlinarith [sq_nonneg (c2.center.x - c1.center.x), sq_nonneg (c2.center.y - c1.center.y)]
            · nlinarith [sq_nonneg (c2.center.x - c1.center.x), sq_nonneg (c2.center.y - c1.center.y)]
          rw [this]; exact allclose_refl _
      refine ⟨⟨R, R + ⟨-(c2.center - c1.center).y, (c2.center - c1.center).x⟩, true, true⟩, ?_⟩
      rw [hR, Res.ok_bind, mkLine_ok.2 ⟨h2 R hR, rfl⟩]
      rfl

/-- C16, the exact condition: for circles whose centers are not collinear, `radical_center` returns a point exactly when the two pairs of
centers, and the pairs of points chosen on the two radical axes, are not `np.allclose`. -/
theorem C16_exact (c1 c2 c3 : Circle) (h : ¬ Spec.Collinear c1.center c2.center c3.center) :
    (∃ R, radical_center c1 c2 c3 = .ok (some R)) ↔
      (¬ allclose c1.center c2.center ∧ ∀ R, c1.radical_center c2 = .ok R →
        ¬ allclose R (R + ⟨-(c2.center - c1.center).y, (c2.center - c1.center).x⟩)) ∧
      (¬ allclose c1.center c3.center ∧ ∀ R, c1.radical_center c3 = .ok R →
        ¬ allclose R (R + ⟨-(c3.center - c1.center).y, (c3.center - c1.center).x⟩)) := by
  rw [← radical_axis_some_iff, ← radical_axis_some_iff, ← C16_radical_center_total_partial]
  constructor
  · rintro ⟨R, hR⟩; exact ⟨_, hR⟩
  · rintro ⟨o, ho⟩
    cases o with
    | none => exact absurd ((C16_radical_center_none_iff c1 c2 c3 _ ho).1 rfl) h
    | some R => exact ⟨R, ho⟩

/-! ### C55 -/

/-- C55, the exact condition: a transformation mapping the first three points to the others is returned exactly when the points are finite
and distinct. -/
theorem C55_exact (P1 P2 P3 Q1 Q2 Q3 : XPt) :
    (∃ f, Mobius.from_mapping_three_points P1 P2 P3 Q1 Q2 Q3 = .ok (some f) ∧ Matrix.det f.M ≠ 0 ∧
      f.transform P1 = .ok Q1 ∧ f.transform P2 = .ok Q2 ∧ f.transform P3 = .ok Q3) ↔
      (P1 ≠ P2 ∧ P1 ≠ P3 ∧ P2 ≠ P3) ∧ (Q1 ≠ Q2 ∧ Q1 ≠ Q3 ∧ Q2 ≠ Q3) ∧
      (P1 ≠ .inf ∧ P2 ≠ .inf ∧ P3 ≠ .inf) ∧ (Q1 ≠ .inf ∧ Q2 ≠ .inf ∧ Q3 ≠ .inf) := by
  constructor
  · rintro ⟨f, hf, -⟩
    have h1 : ¬ ((P1 = P2 ∨ P1 = P3 ∨ P2 = P3) ∨ (Q1 = Q2 ∨ Q1 = Q3 ∨ Q2 = Q3)) := by
      intro h
      rw [(C55_none_iff P1 P2 P3 Q1 Q2 Q3).2 h] at hf
      exact absurd hf (by simp)
    have hP : P1 ≠ P2 ∧ P1 ≠ P3 ∧ P2 ≠ P3 := by tauto
    have hQ : Q1 ≠ Q2 ∧ Q1 ≠ Q3 ∧ Q2 ≠ Q3 := by tauto
    have h2 : ¬ (P1 = .inf ∨ P2 = .inf ∨ P3 = .inf ∨ Q1 = .inf ∨ Q2 = .inf ∨ Q3 = .inf) := by
      intro h
      rw [C55_inf_counterexample P1 P2 P3 Q1 Q2 Q3 hP hQ h] at hf
      exact absurd hf (by simp)
    exact ⟨hP, hQ, by tauto, by tauto⟩
  · rintro ⟨hP, hQ, ⟨a1, a2, a3⟩, b1, b2, b3⟩
    cases P1 with
    | inf => exact absurd rfl a1
    | fin P1 =>
    cases P2 with
    | inf => exact absurd rfl a2
    | fin P2 =>
    cases P3 with
    | inf => exact absurd rfl a3
    | fin P3 =>
    cases Q1 with
    | inf => exact absurd rfl b1
    | fin Q1 =>
    cases Q2 with
    | inf => exact absurd rfl b2
    | fin Q2 =>
    cases Q3 with
    | inf => exact absurd rfl b3
    | fin Q3 =>
      simp only [ne_eq, XPt.fin.injEq] at hP hQ
      exact C55_from_mapping_partial P1 P2 P3 Q1 Q2 Q3 hP hQ

/-! ### C72 -/

/-- The generator which draws nonzero vectors for other sizes. -/
def Gen.restrict (g : Gen) (n : ℕ) : Gen :=
  { g with normal := fun m j => if m = n then g.normal m j else ⟨1, 0⟩ }

theorem Gen.restrict_nonZero (g : Gen) (n : ℕ) (h : ∀ j, g.normal n j ≠ ⟨0, 0⟩) : (g.restrict n).NonZero := by
  intro m j
  unfold Gen.restrict
  dsimp only
  by_cases hm : m = n
  · subst hm; rw [if_pos rfl]; exact h j
  · rw [if_neg hm]; intro h; have := congrArg Pt.x h; norm_num at this

theorem runif_on_circle_restrict (g : Gen) (n : ℕ) (r : Fin n → ℝ) :
    runif_on_circle_ (g.restrict n) n r = runif_on_circle_ g n r := by
  unfold runif_on_circle_ Gen.restrict
  dsimp only
  simp only [if_true]

theorem runif_in_circle_restrict (g : Gen) (n : ℕ) (r : ℝ) :
    runif_in_circle_ (g.restrict n) n r = runif_in_circle_ g n r := by
  unfold runif_in_circle_
  rw [runif_on_circle_restrict]
  rfl

theorem runif_on_circle_zero {g : Gen} {n : ℕ} {r : Fin n → ℝ} {j : Fin n} (h : g.normal n j = ⟨0, 0⟩) :
    runif_on_circle_ g n r = .error .nonFinite := by
  unfold runif_on_circle_
  dsimp only
  rw [if_pos]
  refine ⟨j, ?_⟩
  rw [h]; unfold vlength_; simp

/-- C72, the exact condition for circles: the points are returned and are where they should be exactly when none of the vectors drawn is
zero. -/
theorem C72_circle_exact (c : Circle) (g : Gen) (hg : g.Valid) (n : ℤ) (hn : 0 < n) :
    ((∃ l, c.random_points g n "on" = .ok l ∧ PointsIn (OnCircle c.center c.radius) n l) ↔ ∀ j, g.normal n.toNat j ≠ ⟨0, 0⟩) ∧
    ((∃ l, c.random_points g n "in" = .ok l ∧ PointsIn (InDisk c.center c.radius) n l) ↔ ∀ j, g.normal n.toNat j ≠ ⟨0, 0⟩) := by
  have e1 : ∀ w, c.random_points (g.restrict n.toNat) n w = c.random_points g n w := by
    intro w
    unfold Circle.random_points
    rw [runif_in_circle_restrict, runif_on_circle_restrict]
  have hv : (g.restrict n.toNat).Valid := hg
  constructor <;> constructor
  · rintro ⟨l, hl, -⟩ j hj
    unfold Circle.random_points at hl
    rw [if_neg (not_le.2 hn), if_neg (by decide), if_pos rfl, runif_on_circle_zero hj] at hl
    exact absurd hl (by simp [Res.error_bind])
  · intro h
    have := ((C72_circle_partial c _ hv (g.restrict_nonZero _ h) n).1 hn).1
    rwa [e1] at this
  · rintro ⟨l, hl, -⟩ j hj
    unfold Circle.random_points runif_in_circle_ at hl
    rw [if_neg (not_le.2 hn), if_pos rfl, runif_on_circle_zero hj] at hl
    exact absurd hl (by simp [Res.error_bind])
  · intro h
    have := ((C72_circle_partial c _ hv (g.restrict_nonZero _ h) n).1 hn).2
    rwa [e1] at this

/-- C72, the exact condition for ellipses. -/
theorem C72_ellipse_exact (e : Ellipse) (he : e.Valid) (g : Gen) (hg : g.Valid) (n : ℤ) (hn : 0 < n) :
    ((∃ l, e.random_points g n "on" = .ok l ∧ PointsIn (OnEllipse e.center e.rmajor e.rminor e.rad) n l) ↔
      ∀ j, g.normal n.toNat j ≠ ⟨0, 0⟩) ∧
    ((∃ l, e.random_points g n "in" = .ok l ∧ PointsIn (InEllipse e.center e.rmajor e.rminor e.rad) n l) ↔
      ∀ j, g.normal n.toNat j ≠ ⟨0, 0⟩) := by
  have e1 : ∀ w, e.random_points (g.restrict n.toNat) n w = e.random_points g n w := by
    intro w
    unfold Ellipse.random_points runif_in_ellipse_ runif_on_ellipse_
    simp only [runif_in_circle_restrict, runif_on_circle_restrict]
  have hv : (g.restrict n.toNat).Valid := hg
  constructor <;> constructor
  · rintro ⟨l, hl, -⟩ j hj
    unfold Ellipse.random_points at hl
    rw [if_neg (not_le.2 hn)] at hl
    obtain ⟨S, -, h1⟩ := Res.bind_ok.1 hl
    rw [if_neg (by decide), if_pos rfl] at h1
    obtain ⟨out, h2, -⟩ := Res.bind_ok.1 h1
    unfold runif_on_ellipse_ at h2
    obtain ⟨L, -, h3⟩ := Res.bind_ok.1 h2
    dsimp only at h3
    rw [runif_on_circle_zero hj] at h3
    exact absurd h3 (by simp [Res.error_bind])
  · intro h
    have := ((C72_ellipse_partial e he _ hv (g.restrict_nonZero _ h) n).1 hn).1
    rwa [e1] at this
  · rintro ⟨l, hl, -⟩ j hj
    unfold Ellipse.random_points at hl
    rw [if_neg (not_le.2 hn)] at hl
    obtain ⟨S, -, h1⟩ := Res.bind_ok.1 hl
    rw [if_pos rfl] at h1
    obtain ⟨out, h2, -⟩ := Res.bind_ok.1 h1
    unfold runif_in_ellipse_ at h2
    obtain ⟨L, -, h3⟩ := Res.bind_ok.1 h2
    dsimp only at h3
    unfold runif_in_circle_ at h3
    rw [runif_on_circle_zero hj] at h3
    exact absurd h3 (by simp [Res.error_bind])
  · intro h
    have := ((C72_ellipse_partial e he _ hv (g.restrict_nonZero _ h) n).1 hn).2
    rwa [e1] at this

/-- One row of `runif_on_triangle_` when the first two vertices coincide. -/
theorem onTriangleRow_spec' {A B C : Pt} (hAB : A = B) {u : ℝ} (h0 : 0 < u)
    (h1 : u ≤ distance_ A B + distance_ B C + distance_ C A) :
    ∃ P, onTriangleRow A B C u = .ok P ∧ (OnSegment A B P ∨ OnSegment B C P ∨ OnSegment C A P) := by
  have p1 : distance_ A B = 0 := by
    rw [hAB, distance_eq]; unfold Spec.dist sqDist; simp
  have p2 : 0 ≤ distance_ B C := by rw [distance_eq]; exact Real.sqrt_nonneg _
  have p3 : 0 ≤ distance_ C A := by rw [distance_eq]; exact Real.sqrt_nonneg _
  unfold onTriangleRow npDiv
  dsimp only
  obtain ⟨l1, e1⟩ : ∃ l, l = distance_ A B := ⟨_, rfl⟩
  obtain ⟨l2, e2⟩ : ∃ l, l = distance_ B C := ⟨_, rfl⟩
  obtain ⟨l3, e3⟩ : ∃ l, l = distance_ C A := ⟨_, rfl⟩
  rw [← e1] at p1
  rw [← e2] at p2
  rw [← e3] at p3
  rw [← e1, ← e2, ← e3] at h1 ⊢
  have c1 : ¬ u ≤ l1 := by linarith
  by_cases c2 : u ≤ l1 + l2
  · have p2' : 0 < l2 := by linarith
    rw [if_neg c1, if_pos c2, if_neg p2'.ne', if_neg p2'.ne', Res.ok_bind, Res.ok_bind]
    refine ⟨_, rfl, Or.inr (Or.inl ⟨(u - l1) / l2, div_nonneg (by linarith) p2, (div_le_one p2').2 (by linarith), smul_comb ?_⟩)⟩
    field_simp; ring
  · have p3' : 0 < l3 := by linarith
    rw [if_neg c1, if_neg c2, if_neg p3'.ne', if_neg p3'.ne', Res.ok_bind, Res.ok_bind]
    refine ⟨_, rfl, Or.inr (Or.inr ⟨(u - l1 - l2) / l3, div_nonneg (by linarith) p3, (div_le_one p3').2 (by linarith), smul_comb ?_⟩)⟩
    field_simp; ring

/-- C72, the exact condition for the boundary of a triangle: the points are returned and are on the boundary exactly when the first two
vertices are distinct or none of the numbers drawn is zero. -/
theorem C72_triangle_exact (t : Triangle) (g : Gen) (hg : g.Valid) (n : ℤ) (hn : 0 < n) :
    (∃ l, t.random_points g n "on" = .ok l ∧
      PointsIn (fun P => OnSegment t.A t.B P ∨ OnSegment t.B t.C P ∨ OnSegment t.C t.A P) n l) ↔
      (t.A ≠ t.B ∨ ∀ j, g.uniform 0 (Spec.dist t.A t.B + Spec.dist t.B t.C + Spec.dist t.C t.A) n.toNat j ≠ 0) := by
  constructor
  · rintro ⟨l, hl, -⟩
    by_contra hc
    push Not at hc
    obtain ⟨hAB, j, hj⟩ := hc
    unfold Triangle.random_points at hl
    rw [if_neg (not_le.2 hn), if_neg (by decide), if_pos rfl] at hl
    unfold runif_on_triangle_ at hl
    dsimp only at hl
    rw [distance_eq, distance_eq, distance_eq] at hl
    obtain ⟨b, -, hb⟩ := mapM_forall _ hl 0 (by rw [List.mem_ofFn]; exact ⟨j, hj⟩)
    unfold onTriangleRow at hb
    dsimp only at hb
    have h0 : distance_ t.A t.B = 0 := by
      rw [hAB, distance_eq]; unfold Spec.dist sqDist; simp
    rw [h0, if_pos le_rfl] at hb
    unfold npDiv at hb
    rw [if_pos rfl] at hb
    exact absurd hb (by simp [Res.error_bind])
  · intro h
    by_cases hAB : t.A ≠ t.B
    · exact C72_triangle_on_partial t hAB g hg n hn
    · have hu := h.resolve_left hAB
      rw [not_not] at hAB
      have hL : 0 ≤ distance_ t.A t.B + distance_ t.B t.C + distance_ t.C t.A := by
        rw [distance_eq, distance_eq, distance_eq]
        unfold Spec.dist
        positivity
      rw [← distance_eq, ← distance_eq, ← distance_eq] at hu
      have hrow : ∀ j, ∃ P, onTriangleRow t.A t.B t.C (g.uniform 0 (distance_ t.A t.B + distance_ t.B t.C + distance_ t.C t.A)
          n.toNat j) = .ok P ∧ (OnSegment t.A t.B P ∨ OnSegment t.B t.C P ∨ OnSegment t.C t.A P) := by
        intro j
        obtain ⟨u1, u2⟩ := hg.2.2 0 _ n.toNat j hL
        have u0 := lt_of_le_of_ne u1 (hu j).symm
        exact onTriangleRow_spec' hAB u0 u2
      have hval : ∀ u ∈ List.ofFn (g.uniform 0 (distance_ t.A t.B + distance_ t.B t.C + distance_ t.C t.A) n.toNat),
          onTriangleRow t.A t.B t.C u = .ok (if h : ∃ P, onTriangleRow t.A t.B t.C u = .ok P then choose h else t.A) := by
        intro u hu
        rw [List.mem_ofFn] at hu
        obtain ⟨j, rfl⟩ := hu
        obtain ⟨P, hP, -⟩ := hrow j
        have h : ∃ P, onTriangleRow t.A t.B t.C (g.uniform 0 (distance_ t.A t.B + distance_ t.B t.C + distance_ t.C t.A)
          n.toNat j) = .ok P := ⟨P, hP⟩
        rw [dif_pos h]
        exact choose_spec h
      refine ⟨_, by
        unfold Triangle.random_points
        rw [if_neg (not_le.2 hn), if_neg (by decide), if_pos rfl]
        exact mapM_ok _ _ _ hval, ?_, ?_⟩
      · rw [List.length_map, List.length_ofFn, Int.toNat_of_nonneg hn.le]
      · intro P hP
        rw [List.mem_map] at hP
        obtain ⟨u, hu, rfl⟩ := hP
        have e := hval u hu
        rw [List.mem_ofFn] at hu
        obtain ⟨j, rfl⟩ := hu
        obtain ⟨P, h1, h2⟩ := hrow j
        have e' := Except.ok.inj (h1.symm.trans e)
        rw [← e']
        exact h2

/-! ### Instances of the hypotheses -/

/-- A rotation by a half turn and a line whose image is built; an invertible affine map; three circles with centers not collinear whose
radical center exists; the triangle of `C44_exact`. -/
example : IsRotated ⟨1, 0⟩ π ⟨0, 0⟩ ⟨2, 0⟩ ∧ IsRotated ⟨1, 0⟩ π ⟨1, 1⟩ ⟨1, -1⟩ ∧ ¬ allclose ⟨2, 0⟩ ⟨1, -1⟩ := by
  refine ⟨(isRotated_iff _ _ _ _).2 ?_, (isRotated_iff _ _ _ _).2 ?_, ?_⟩
  · ext <;> simp <;> norm_num
  · ext <;> simp
  · unfold allclose npClose; norm_num

example : ¬ Spec.Collinear ⟨0, 0⟩ ⟨4, 0⟩ ⟨1, 3⟩ ∧ ¬ allclose ⟨0, 0⟩ ⟨4, 0⟩ ∧ ¬ allclose ⟨0, 0⟩ ⟨1, 3⟩ ∧ ¬ allclose ⟨4, 0⟩ ⟨1, 3⟩ := by
  unfold Spec.Collinear cross allclose npClose; norm_num [abs_le]

/-- A triangle with equal first vertices whose boundary points are returned when the number drawn is not zero. -/
example : genHalf.Valid ∧ (∀ j, genHalf.normal 3 j ≠ ⟨0, 0⟩) ∧
    ∀ j, genHalf.uniform 0 (Spec.dist (⟨0, 0⟩ : Pt) ⟨0, 0⟩ + Spec.dist (⟨0, 0⟩ : Pt) ⟨1, 0⟩ + Spec.dist (⟨1, 0⟩ : Pt) ⟨0, 0⟩) 3 j ≠ 0 := by
  have h : genHalf.Valid ∧ genHalf.NonZero := by
    constructor
    · refine ⟨fun n j => ?_, fun n j => ?_, fun lo hi n j h => ?_⟩
      · unfold genHalf; norm_num
      · unfold genHalf; norm_num
      · unfold genHalf; constructor <;> dsimp only <;> linarith
    · intro n j h
      have := congrArg Pt.x h
      unfold genHalf at this
      norm_num at this
  refine ⟨h.1, fun j => h.2 3 j, fun j => ?_⟩
  unfold genHalf Spec.dist sqDist
  norm_num

/-- A line rotated by a half turn about `(1, 0)`. -/
example (R : Rotation) (h1 : R.center = ⟨1, 0⟩) (h2 : R.rad = π) :
    ∃ l', R.rotate_line ⟨⟨0, 0⟩, ⟨1, 1⟩, true, false⟩ = .ok l' ∧ l'.Valid ∧
      MapsOnto (IsRotated R.center R.rad) (LineSet ⟨⟨0, 0⟩, ⟨1, 1⟩, true, false⟩) (LineSet l') := by
  refine (C11_exact R ⟨⟨0, 0⟩, ⟨1, 1⟩, true, false⟩ ⟨2, 0⟩ ⟨1, -1⟩ ((isRotated_iff _ _ _ _).2 ?_)
    ((isRotated_iff _ _ _ _).2 ?_)).1.2 (by unfold allclose npClose; norm_num) <;> rw [h1, h2] <;> ext <;> simp <;> norm_num

/-- The map `x ↦ x / 10^9` sends the segment from `(0, 0)` to `(1, 1)` to points that `np.allclose` identifies: it raises. -/
example : (⟨!![1 / 10 ^ 9, 0; 0, 1 / 10 ^ 9], ⟨0, 0⟩⟩ : Affine).transform_line ⟨⟨0, 0⟩, ⟨1, 1⟩, false, false⟩ =
    .error (.valueError "`A` and `B` must be distinct.") := by
  refine (C47_exact _ ?_ _).2 ?_
  · constructor
    · intro P Q h
      have hx := congrArg Pt.x h
      have hy := congrArg Pt.y h
      simp [Affine.transform] at hx hy
      exact Pt.ext hx hy
    · intro Q
      exact ⟨⟨10 ^ 9 * Q.x, 10 ^ 9 * Q.y⟩, by ext <;> simp [Affine.transform]⟩
  · unfold allclose npClose Affine.transform
    norm_num [abs_of_pos]

/-- A diameter of the ellipse of semi-axes 2 and 1, from `(2, 0)` to `(-2, 0)`. -/
example : ∃ l, (⟨⟨0, 0⟩, 2, 1, 0, false⟩ : Ellipse).diameter 0 = .ok l ∧ l.A = ⟨2, 0⟩ ∧ l.B = ⟨-2, 0⟩ := by
  have e1 : ellipsePoint ⟨0, 0⟩ 2 1 (⟨⟨0, 0⟩, 2, 1, 0, false⟩ : Ellipse).rad 0 = ⟨2, 0⟩ := by
    unfold ellipsePoint Ellipse.rad; ext <;> norm_num
  have e2 : ellipsePoint ⟨0, 0⟩ 2 1 (⟨⟨0, 0⟩, 2, 1, 0, false⟩ : Ellipse).rad (0 + π) = ⟨-2, 0⟩ := by
    unfold ellipsePoint Ellipse.rad; ext <;> norm_num
  obtain ⟨l, h, -, -, hA, -, -, hc⟩ := (C68_exact ⟨⟨0, 0⟩, 2, 1, 0, false⟩ 0).1.2
    (by dsimp only; rw [e1, e2]; unfold allclose npClose; norm_num [abs_of_pos])
  dsimp only at hA hc
  rw [e1] at hA
  rw [hA] at hc
  refine ⟨l, h, hA, Pt.ext ?_ ?_⟩
  · have := congrArg Pt.x hc; norm_num at this ⊢; linarith
  · have := congrArg Pt.y hc; norm_num at this ⊢; linarith

/-- The incircle of the triangle `(0, 0), (4, 0), (0, 3)` exists; three different points of a line give a `ValueError` and
three equal points give `nan`. -/
example : (∃ c, (⟨⟨0, 0⟩, ⟨4, 0⟩, ⟨0, 3⟩⟩ : Triangle).incircle = .ok c ∧ TangentLine c.center c.radius ⟨0, 0⟩ ⟨4, 0⟩) ∧
    (∃ m, (⟨⟨0, 0⟩, ⟨1, 1⟩, ⟨2, 2⟩⟩ : Triangle).incircle = .error (.valueError m)) ∧
    (⟨⟨5, 6⟩, ⟨5, 6⟩, ⟨5, 6⟩⟩ : Triangle).incircle = .error .nonFinite := by
  refine ⟨?_, ?_, ?_⟩
  · obtain ⟨c, h, -, -, -, -, ht⟩ := (C38_exact ⟨⟨0, 0⟩, ⟨4, 0⟩, ⟨0, 3⟩⟩).1.2 (by norm_num [Spec.Collinear, cross])
    exact ⟨c, h, ht⟩
  · refine (C38_exact ⟨⟨0, 0⟩, ⟨1, 1⟩, ⟨2, 2⟩⟩).2.1.2 ⟨by norm_num [Spec.Collinear, cross], ?_⟩
    rintro ⟨h, -⟩
    have := congrArg Pt.x h
    norm_num at this
  · exact (C38_exact ⟨⟨5, 6⟩, ⟨5, 6⟩, ⟨5, 6⟩⟩).2.2.2 ⟨rfl, rfl⟩

/-- The Steiner ellipse of the triangle `(0, 0), (4, 0), (1, 3)`. -/
example : ∃ e : Ellipse, (⟨⟨0, 0⟩, ⟨4, 0⟩, ⟨1, 3⟩⟩ : Triangle).steiner_ellipse = .ok (some e) ∧
    OnEllipse e.center e.rmajor e.rminor e.rad ⟨1, 3⟩ := by
  obtain ⟨e, h, -, -, -, -, hC⟩ := (C44_exact ⟨⟨0, 0⟩, ⟨4, 0⟩, ⟨1, 3⟩⟩ (by norm_num [Spec.Collinear, cross])).1.2
    (by unfold allclose npClose; norm_num [abs_le])
  exact ⟨e, h, hC⟩

/-- Möbius transformations through three finite points exist; with the point at infinity in the data the code gives none. -/
example : (∃ f, Mobius.from_mapping_three_points (.fin ⟨0, 0⟩) (.fin ⟨1, 0⟩) (.fin ⟨2, 0⟩) (.fin ⟨0, 1⟩) (.fin ⟨3, 0⟩) (.fin ⟨0, 2⟩) =
      .ok (some f) ∧ f.transform (.fin ⟨2, 0⟩) = .ok (.fin ⟨0, 2⟩)) ∧
    ¬ ∃ f, Mobius.from_mapping_three_points (.fin ⟨0, 0⟩) (.fin ⟨1, 0⟩) .inf (.fin ⟨0, 1⟩) (.fin ⟨3, 0⟩) (.fin ⟨0, 2⟩) =
      .ok (some f) ∧ Matrix.det f.M ≠ 0 ∧ f.transform (.fin ⟨0, 0⟩) = .ok (.fin ⟨0, 1⟩) ∧
      f.transform (.fin ⟨1, 0⟩) = .ok (.fin ⟨3, 0⟩) ∧ f.transform .inf = .ok (.fin ⟨0, 2⟩) := by
  constructor
  · obtain ⟨f, h, -, -, -, h3⟩ := (C55_exact (.fin ⟨0, 0⟩) (.fin ⟨1, 0⟩) (.fin ⟨2, 0⟩) (.fin ⟨0, 1⟩) (.fin ⟨3, 0⟩) (.fin ⟨0, 2⟩)).2
      (by simp [Pt.ext_iff])
    exact ⟨f, h, h3⟩
  · rw [C55_exact]
    simp

/-- Random points with the generator that always draws the normal vector `(3, 4)`. -/
example (hg : genHalf.Valid) : (∃ l, (⟨⟨1, 2⟩, 3⟩ : Circle).random_points genHalf 4 "on" = .ok l ∧ PointsIn (OnCircle ⟨1, 2⟩ 3) 4 l) ∧
    ∃ l, (⟨⟨1, 2⟩, 3, 1, 0, false⟩ : Ellipse).random_points genHalf 4 "in" = .ok l ∧
      PointsIn (InEllipse ⟨1, 2⟩ 3 1 (⟨⟨1, 2⟩, 3, 1, 0, false⟩ : Ellipse).rad) 4 l := by
  have hz : ∀ j, genHalf.normal (4 : ℤ).toNat j ≠ ⟨0, 0⟩ := by
    intro j h
    have := congrArg Pt.x h
    unfold genHalf at this
    norm_num at this
  exact ⟨(C72_circle_exact ⟨⟨1, 2⟩, 3⟩ genHalf hg 4 (by norm_num)).1.2 hz,
    (C72_ellipse_exact ⟨⟨1, 2⟩, 3, 1, 0, false⟩ (by constructor <;> norm_num) genHalf hg 4 (by norm_num)).2.2 hz⟩
