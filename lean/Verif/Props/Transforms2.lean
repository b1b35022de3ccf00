import Verif.Props.Transforms

/-!
# C60, C61, C62, C63: shears, scalings, homotheties, matrices of points
-/

open Spec Real Classical

/-! ## C60 -/

/-- The angle of a shear in radians. -/
noncomputable def Shear.rad (s : Shear) : ℝ := if s.degrees = true then s.angle * (π / 180) else s.angle

/-- What `Shear.__init__` guarantees. -/
theorem mkShear_ok {Q w : Pt} {ratio angle : ℝ} {d : Bool} {s : Shear} (h : mkShear Q w ratio angle d = .ok s) :
    s = ⟨Q, w, ratio, angle, d⟩ ∧ 0 < s.ratio ∧ -(π / 2) < s.rad ∧ s.rad < π / 2 := by
  unfold mkShear at h
  have hpi := pi_pos
  by_cases hr : ratio ≤ 0
  · rw [if_pos hr] at h; cases h
  · rw [if_neg hr] at h
    cases d with
    | true =>
      rw [if_pos rfl] at h
      by_cases ha : angle ≤ -90 ∨ angle ≥ 90
      · rw [if_pos ha] at h; cases h
      · rw [if_neg ha] at h
        push Not at ha
        injection h with h
        subst h
        refine ⟨rfl, by simpa using hr, ?_, ?_⟩
        · simp only [Shear.rad, if_true]; nlinarith
        · simp only [Shear.rad, if_true]; nlinarith
    | false =>
      rw [if_neg (by simp)] at h
      by_cases ha : angle ≤ -π / 2 ∨ angle ≥ π / 2
      · rw [if_pos ha] at h; cases h
      · rw [if_neg ha] at h
        push Not at ha
        injection h with h
        subst h
        refine ⟨rfl, by simpa using hr, ?_, ?_⟩
        · simp only [Shear.rad, Bool.false_eq_true, if_false]; linarith
        · simp only [Shear.rad, Bool.false_eq_true, if_false]; linarith

/-- The affine map of a shear: `P + tan(angle)/(ratio |w|²) (w·(P - vertex) w⊥ + ...)`. -/
theorem Shear.affine_eq (s : Shear) (hr : 0 < s.ratio) (hw : s.vector ≠ ⟨0, 0⟩) :
    ∃ M, s.get3x3matrix = .ok M ∧ Matrix.det (Affine.ofMatrix3 M).A = 1 ∧
      ∀ P : Pt, (Affine.ofMatrix3 M).transform P = P +
        (tan s.rad / (s.ratio * dot s.vector s.vector)) •
          (dot s.vector P • (⟨-s.vector.y, s.vector.x⟩ : Pt) - cross s.vector s.vertex • s.vector) := by
  obtain ⟨Q, w, r, a, d⟩ := s
  obtain ⟨t, ht⟩ : ∃ t, t = tan (Shear.rad ⟨Q, w, r, a, d⟩) := ⟨_, rfl⟩
  dsimp only at hr hw ⊢
  have hn : 0 < dot w w := by
    unfold dot
    by_contra hc
    apply hw
    have h1 : w.x = 0 := by nlinarith [sq_nonneg w.x, sq_nonneg w.y]
    have h2 : w.y = 0 := by nlinarith [sq_nonneg w.x, sq_nonneg w.y]
    ext <;> assumption
  have hD : cross w (r • (⟨-w.y, w.x⟩ : Pt)) = r * dot w w := by
    simp only [cross, dot, Pt.smul_x, Pt.smul_y]; ring
  obtain ⟨M, hM, hf⟩ := moveRow_eq w (r • (⟨-w.y, w.x⟩ : Pt)) w (t • w + r • (⟨-w.y, w.x⟩ : Pt)) Q
    (by rw [hD]; positivity)
  refine ⟨moveRow M, ?_, ?_, fun P => ?_⟩
  · unfold Shear.get3x3matrix
    dsimp only
    rw [show (if d = true then a * (π / 180) else a) = Shear.rad ⟨Q, w, r, a, d⟩ from rfl, ← ht]
    simp only [hM, Res.ok_bind]
    rfl
  · rw [(hf Q).2, hD]
    have : cross w (t • w + r • (⟨-w.y, w.x⟩ : Pt)) = r * dot w w := by
      simp only [cross, dot, Pt.smul_x, Pt.smul_y, Pt.add_x, Pt.add_y]; ring
    rw [this]
    exact div_self (by positivity)
  · rw [(hf P).1, ← ht]
    obtain ⟨D, hDe⟩ : ∃ D, D = dot w w := ⟨_, rfl⟩
    rw [hD, ← hDe]
    rw [← hDe] at hn
    have h1 := hn.ne'
    have h2 := hr.ne'
    ext
    · simp only [Pt.smul_x, Pt.smul_y, Pt.add_x, Pt.add_y, Pt.sub_x, Pt.sub_y, dot, cross] at hDe ⊢
      field_simp
      rw [hDe]; ring
    · simp only [Pt.smul_x, Pt.smul_y, Pt.add_x, Pt.add_y, Pt.sub_x, Pt.sub_y, dot, cross] at hDe ⊢
      field_simp
      rw [hDe]; ring

theorem Shear.transformPt_eq (s : Shear) (M : Matrix (Fin 3) (Fin 3) ℝ) (h : s.get3x3matrix = .ok M) (P : Pt) :
    s.transformPt P = .ok ((Affine.ofMatrix3 M).transform P) := by
  unfold Shear.transformPt Shear.transform onPoints Pt.arr Shear.transformMat
  simp only [h, Res.ok_bind, pure, Except.pure, Out.toPt]
  congr 1
  ext <;> simp [rowMat, Matrix.mul_apply, Fin.sum_univ_three, Affine.ofMatrix3, Affine.transform]

/-- C60, partial: a shear with a nonzero vector has an affine map of determinant one, which agrees with `transform`; the
vertex is fixed when it is the origin or the angle is zero.  Missing from the full claim: the other vertices, for which it
is false (`C60_vertex_counterexample`). -/
theorem C60_shear_partial (Q w : Pt) (ratio angle : ℝ) (d : Bool) (s : Shear) (hs : mkShear Q w ratio angle d = .ok s)
    (hw : w ≠ ⟨0, 0⟩) :
    ∃ f, s.as_affine = .ok f ∧ Matrix.det f.A = 1 ∧ (∀ P, s.transformPt P = .ok (f.transform P)) ∧
      (Q = ⟨0, 0⟩ ∨ angle = 0 → s.transformPt Q = .ok Q) := by
  obtain ⟨rfl, hr, -, -⟩ := mkShear_ok hs
  obtain ⟨M, hM, hd, hf⟩ := Shear.affine_eq _ hr hw
  refine ⟨Affine.ofMatrix3 M, ?_, hd, fun P => Shear.transformPt_eq _ M hM P, fun h => ?_⟩
  · unfold Shear.as_affine; rw [hM, Res.ok_bind]; rfl
  · rw [Shear.transformPt_eq _ M hM, hf]
    congr 1
    rcases h with rfl | rfl
    · ext <;> simp [dot, cross]
    · ext <;> simp [Shear.rad]

/-- The shear of vertex `(0, 0)`, direction `(1, 0)`, ratio 1 and angle 45 degrees leaves its vertex where it is. -/
example : ∃ s f, mkShear ⟨0, 0⟩ ⟨1, 0⟩ 1 45 = .ok s ∧ s.as_affine = .ok f ∧ Matrix.det f.A = 1 ∧
    s.transformPt ⟨0, 0⟩ = .ok ⟨0, 0⟩ := by
  obtain ⟨s, hs⟩ : ∃ s, mkShear ⟨0, 0⟩ ⟨1, 0⟩ 1 45 = .ok s := by unfold mkShear; norm_num
  obtain ⟨f, h1, h2, -, h3⟩ := C60_shear_partial _ _ _ _ _ _ hs (by simp)
  exact ⟨s, f, hs, h1, h2, h3 (Or.inl rfl)⟩

/-- Counterexample to C60: the vertex of a shear is fixed only if it is the origin or the angle is zero. -/
theorem C60_vertex_counterexample (Q w : Pt) (ratio angle : ℝ) (d : Bool) (s : Shear)
    (hs : mkShear Q w ratio angle d = .ok s) (hw : w ≠ ⟨0, 0⟩) (hQ : Q ≠ ⟨0, 0⟩) (ha : angle ≠ 0) :
    s.transformPt Q ≠ .ok Q := by
  obtain ⟨rfl, hr, h1, h2⟩ := mkShear_ok hs
  obtain ⟨M, hM, hd, hf⟩ := Shear.affine_eq _ hr hw
  rw [Shear.transformPt_eq _ M hM, hf]
  dsimp only at hr hf ⊢
  obtain ⟨t, ht⟩ : ∃ t, t = tan (Shear.rad ⟨Q, w, ratio, angle, d⟩) := ⟨_, rfl⟩
  have ht0 : t ≠ 0 := by
    have hne : Shear.rad ⟨Q, w, ratio, angle, d⟩ ≠ 0 := by
      unfold Shear.rad
      have := pi_ne_zero
      dsimp only
      cases d
      · simpa using ha
      · simp [ha, this]
    rw [ht, tan_eq_sin_div_cos]
    have hc := cos_pos_of_mem_Ioo ⟨h1, h2⟩
    have hs : sin (Shear.rad ⟨Q, w, ratio, angle, d⟩) ≠ 0 := by
      rw [Ne, sin_eq_zero_iff_of_lt_of_lt (by linarith [pi_pos]) (by linarith [pi_pos])]
      exact hne
    exact div_ne_zero hs hc.ne'
  rw [← ht]
  intro h
  rw [Except.ok.injEq] at h
  have hn : 0 < dot w w := by
    unfold dot
    by_contra hc
    apply hw
    have h1 : w.x = 0 := by nlinarith [sq_nonneg w.x, sq_nonneg w.y]
    have h2 : w.y = 0 := by nlinarith [sq_nonneg w.x, sq_nonneg w.y]
    ext <;> assumption
  obtain ⟨k, hk⟩ : ∃ k, k = t / (ratio * dot w w) := ⟨_, rfl⟩
  have hk0 : k ≠ 0 := by rw [hk]; exact div_ne_zero ht0 (by positivity)
  rw [← hk] at h
  have ex := congrArg Pt.x h
  have ey := congrArg Pt.y h
  simp only [Pt.smul_x, Pt.smul_y, Pt.add_x, Pt.add_y, Pt.sub_x, Pt.sub_y, add_eq_left, mul_eq_zero, hk0, false_or] at ex ey
  have e1 : dot w Q * dot w w = 0 := by
    unfold dot at *
    linear_combination (-w.y) * ex + w.x * ey
  have e2 : cross w Q * dot w w = 0 := by
    unfold dot at *
    linear_combination (-w.x) * ex - w.y * ey
  have f1 := (mul_eq_zero.1 e1).resolve_right hn.ne'
  have f2 := (mul_eq_zero.1 e2).resolve_right hn.ne'
  apply hQ
  have g1 : Q.x * dot w w = 0 := by
    unfold dot cross at *
    linear_combination w.x * f1 - w.y * f2
  have g2 : Q.y * dot w w = 0 := by
    unfold dot cross at *
    linear_combination w.y * f1 + w.x * f2
  ext
  · exact (mul_eq_zero.1 g1).resolve_right hn.ne'
  · exact (mul_eq_zero.1 g2).resolve_right hn.ne'

/-- C60: the zero vector is accepted by the constructor, but every use of the shear raises `LinAlgError`. -/
theorem C60_zero_vector (Q : Pt) (ratio angle : ℝ) (d : Bool) (s : Shear) (hs : mkShear Q ⟨0, 0⟩ ratio angle d = .ok s) :
    (∀ P, s.transformPt P = .error .linAlgError) ∧ s.as_affine = .error .linAlgError := by
  obtain ⟨rfl, -, -, -⟩ := mkShear_ok hs
  have h : Shear.get3x3matrix ⟨Q, ⟨0, 0⟩, ratio, angle, d⟩ = .error .linAlgError := by
    unfold Shear.get3x3matrix invMul
    dsimp only
    rw [if_pos (by simp [rows3, Matrix.det_fin_three])]
    rfl
  constructor
  · intro P
    unfold Shear.transformPt Shear.transform onPoints Pt.arr Shear.transformMat
    simp only [h, Res.error_bind]
  · unfold Shear.as_affine
    rw [h, Res.error_bind]

/-- The hypotheses of the C60 theorems hold. -/
example : ∃ s, mkShear ⟨1, 0⟩ ⟨1, 0⟩ 1 45 = .ok s := by
  refine ⟨⟨⟨1, 0⟩, ⟨1, 0⟩, 1, 45, true⟩, ?_⟩
  unfold mkShear
  rw [if_neg (by norm_num), if_pos rfl, if_neg (by norm_num)]

/-! ## C61 -/

/-- C61: an axis-scaling fixes its center and multiplies the coordinates relative to the center by the factors. -/
theorem C61_scalingXY (s : ScalingXY) (P : Pt) : ∃ Q, s.transformPt P = .ok Q ∧ Q.x - s.center.x = s.sx * (P.x - s.center.x) ∧
    Q.y - s.center.y = s.sy * (P.y - s.center.y) ∧ s.transformPt s.center = .ok s.center := by
  refine ⟨_, s.transformPt_eq P, ?_, ?_, ?_⟩
  · simp
  · simp
  · rw [s.transformPt_eq]; congr 1; ext <;> simp

/-- C61: `ScalingXY.as_affine` agrees with `transform`. -/
theorem C61_scalingXY_as_affine (s : ScalingXY) : ∃ f, s.as_affine = .ok f ∧ ∀ P, s.transformPt P = .ok (f.transform P) := by
  refine ⟨Affine.ofMatrix3 !![s.sx, 0, s.sx * (0 - s.center.x) + s.center.x; 0, s.sy,
    s.sy * (0 - s.center.y) + s.center.y; 0, 0, 1], ?_, fun P => ?_⟩
  · unfold ScalingXY.as_affine ScalingXY.get3x3matrix
    rw [s.transformPt_eq, Res.ok_bind]
    rfl
  · rw [s.transformPt_eq]
    congr 1
    ext <;> simp [Affine.ofMatrix3, Affine.transform] <;> ring

/-- C61: inverting the factors inverts the axis-scaling. -/
theorem C61_scalingXY_inverse (O : Pt) (sx sy : ℝ) (hx : sx ≠ 0) (hy : sy ≠ 0) (P : Pt) :
    ((⟨O, sx, sy⟩ : ScalingXY).transformPt P >>= (⟨O, 1 / sx, 1 / sy⟩ : ScalingXY).transformPt) = .ok P ∧
    ((⟨O, 1 / sx, 1 / sy⟩ : ScalingXY).transformPt P >>= (⟨O, sx, sy⟩ : ScalingXY).transformPt) = .ok P := by
  constructor <;>
  · rw [ScalingXY.transformPt_eq, Res.ok_bind, ScalingXY.transformPt_eq]
    congr 1
    ext <;> simp <;> field_simp <;> ring

/-- The scaling of center `(1, 1)` by 2 and 3 maps `(2, 2)` to `(3, 4)`, as does its matrix; the scaling by 1/2 and 1/3
maps it back. -/
example : (⟨⟨1, 1⟩, 2, 3⟩ : ScalingXY).transformPt ⟨2, 2⟩ = .ok ⟨3, 4⟩ ∧
    (⟨⟨1, 1⟩, 1 / 2, 1 / 3⟩ : ScalingXY).transformPt ⟨3, 4⟩ = .ok ⟨2, 2⟩ ∧
    ∃ f, (⟨⟨1, 1⟩, 2, 3⟩ : ScalingXY).as_affine = .ok f ∧ f.transform ⟨2, 2⟩ = ⟨3, 4⟩ := by
  obtain ⟨Q, h, hx, hy, -⟩ := C61_scalingXY ⟨⟨1, 1⟩, 2, 3⟩ ⟨2, 2⟩
  have e : Q = ⟨3, 4⟩ := by norm_num at hx hy; ext <;> simp only <;> linarith
  subst e
  obtain ⟨f, hf, ha⟩ := C61_scalingXY_as_affine ⟨⟨1, 1⟩, 2, 3⟩
  have h2 := (C61_scalingXY_inverse ⟨1, 1⟩ 2 3 (by norm_num) (by norm_num) ⟨2, 2⟩).1
  rw [h, Res.ok_bind] at h2
  have := ha ⟨2, 2⟩
  rw [h] at this
  exact ⟨h, h2, f, hf, by injection this with this; exact this.symm⟩

/-- C61: `Homothety.transform` is the homothety, `as_affine` agrees, distances are multiplied by `|scale|`. -/
theorem C61_homothety (h : Homothety) (P P' : Pt) : ∃ Q Q', h.transformPt P = .ok Q ∧ h.transformPt P' = .ok Q' ∧
    IsHomothetic h.center h.scale P Q ∧ h.as_affine.transform P = Q ∧ Spec.dist Q Q' = |h.scale| * Spec.dist P P' ∧
    h.transformPt h.center = .ok h.center := by
  refine ⟨_, _, h.transformPt_eq P, h.transformPt_eq P', ?_, ?_, ?_, ?_⟩
  · unfold IsHomothetic; ext <;> simp <;> ring
  · ext <;> simp [Homothety.as_affine, Homothety.get3x3matrix, Affine.ofMatrix3, Affine.transform]
  · rw [dist_eq_iff (by have := dist_nonneg P P'; positivity)]
    rw [mul_pow, sq_abs, dist_sq]
    simp only [sqDist]; ring
  · rw [h.transformPt_eq]; congr 1; ext <;> simp <;> ring

/-- C61: inverting the factor inverts the homothety. -/
theorem C61_homothety_inverse (O : Pt) (s : ℝ) (hs : s ≠ 0) (P : Pt) :
    ((⟨O, s⟩ : Homothety).transformPt P >>= (⟨O, 1 / s⟩ : Homothety).transformPt) = .ok P := by
  rw [Homothety.transformPt_eq, Res.ok_bind, Homothety.transformPt_eq]
  congr 1
  ext <;> simp <;> field_simp <;> ring

/-- C61: `Homothety.transform_circle` gives the image of the circle, and raises `ValueError` exactly for the scale 0. -/
theorem C61_homothety_circle (h : Homothety) (c : Circle) (hc : c.Valid) :
    (h.scale = 0 → h.transform_circle c = .error (.valueError "`radius` is not positive.")) ∧
    (h.scale ≠ 0 → ∃ c', h.transform_circle c = .ok c' ∧ c'.Valid ∧
      MapsOnto (IsHomothetic h.center h.scale) (OnCircle c.center c.radius) (OnCircle c'.center c'.radius)) := by
  unfold Homothety.transform_circle
  rw [h.transformPt_eq, Res.ok_bind]
  constructor
  · intro h0
    unfold mkCircle
    rw [if_pos (by rw [h0]; simp)]
  · intro h0
    have hr : 0 < |h.scale| * c.radius := mul_pos (abs_pos.2 h0) hc
    refine ⟨_, mkCircle_pos hr, hr, fun Q => ?_⟩
    dsimp only
    unfold OnCircle IsHomothetic
    rw [mul_pow, sq_abs]
    constructor
    · intro hQ
      refine ⟨h.center + (1 / h.scale) • (Q - h.center), ?_, ?_⟩
      · simp only [sqDist, Pt.add_x, Pt.add_y, Pt.smul_x, Pt.smul_y, Pt.sub_x, Pt.sub_y] at hQ ⊢
        apply mul_left_cancel₀ (pow_ne_zero 2 h0)
        rw [← hQ]
        field_simp
        ring
      · ext <;> simp <;> field_simp
    · rintro ⟨P, hP, hPQ⟩
      have ex := congrArg Pt.x hPQ
      have ey := congrArg Pt.y hPQ
      simp only [Pt.smul_x, Pt.smul_y, Pt.sub_x, Pt.sub_y] at ex ey
      rw [← hP]
      simp only [sqDist]
      rw [show Q.x - (h.scale * c.center.x + (1 - h.scale) * h.center.x) = h.scale * (P.x - c.center.x) by linarith,
        show Q.y - (h.scale * c.center.y + (1 - h.scale) * h.center.y) = h.scale * (P.y - c.center.y) by linarith]
      ring

/-- The homothety of center `(1, 0)` and ratio `-2`. -/
example : (⟨⟨1, 0⟩, -2⟩ : Homothety).transformPt ⟨2, 3⟩ = .ok ⟨-1, -6⟩ ∧
    (⟨⟨1, 0⟩, 1 / -2⟩ : Homothety).transformPt ⟨-1, -6⟩ = .ok ⟨2, 3⟩ ∧
    (⟨⟨1, 0⟩, -2⟩ : Homothety).transformPt ⟨1, 0⟩ = .ok ⟨1, 0⟩ := by
  obtain ⟨Q, Q', h, -, hh, -, -, hc⟩ := C61_homothety ⟨⟨1, 0⟩, -2⟩ ⟨2, 3⟩ ⟨0, 0⟩
  have hx := congrArg Pt.x hh
  have hy := congrArg Pt.y hh
  have e : Q = ⟨-1, -6⟩ := by norm_num at hx hy; ext <;> simp only <;> linarith
  subst e
  have h2 := C61_homothety_inverse ⟨1, 0⟩ (-2) (by norm_num) ⟨2, 3⟩
  rw [h, Res.ok_bind] at h2
  exact ⟨h, h2, hc⟩

/-- It maps the circle of center `(1, 0)` and radius 3 onto one through `(7, 0)`; the ratio 0 is refused. -/
example : (∃ c', (⟨⟨1, 0⟩, -2⟩ : Homothety).transform_circle ⟨⟨1, 0⟩, 3⟩ = .ok c' ∧
      OnCircle c'.center c'.radius ⟨7, 0⟩) ∧
    (⟨⟨1, 0⟩, 0⟩ : Homothety).transform_circle ⟨⟨1, 0⟩, 3⟩ = .error (.valueError "`radius` is not positive.") := by
  have hv : (⟨⟨1, 0⟩, 3⟩ : Circle).Valid := by unfold Circle.Valid; norm_num
  obtain ⟨c', h, -, hm⟩ := (C61_homothety_circle ⟨⟨1, 0⟩, -2⟩ _ hv).2 (by norm_num)
  refine ⟨⟨c', h, (hm _).2 ⟨⟨-2, 0⟩, by norm_num [OnCircle, sqDist], ?_⟩⟩, (C61_homothety_circle ⟨⟨1, 0⟩, 0⟩ _ hv).1 rfl⟩
  unfold IsHomothetic; ext <;> norm_num

/-! ## C62 -/

theorem dotSelf_pos {w : Pt} (hw : w ≠ ⟨0, 0⟩) : 0 < dot w w := by
  unfold dot
  by_contra hc
  apply hw
  have h1 : w.x = 0 := by nlinarith [sq_nonneg w.x, sq_nonneg w.y]
  have h2 : w.y = 0 := by nlinarith [sq_nonneg w.x, sq_nonneg w.y]
  ext <;> assumption

/-- A vector in polar coordinates. -/
theorem polar {w : Pt} (hw : w ≠ ⟨0, 0⟩) : ∃ L, 0 < L ∧ L = vlength_ w ∧ w.x = L * cos (atan2 w.y w.x) ∧
    w.y = L * sin (atan2 w.y w.x) := by
  have hp := dotSelf_pos hw
  have hL : 0 < vlength_ w := Real.sqrt_pos.2 hp
  refine ⟨_, hL, rfl, ?_, ?_⟩
  · rw [cos_atan2 (by
      by_contra hc
      push Not at hc
      exact hw (Pt.ext hc.1 hc.2))]
    unfold vlength_ at hL ⊢
    rw [← mul_div_assoc, mul_div_cancel_left₀ _ hL.ne']
  · rw [sin_atan2]
    unfold vlength_ at hL ⊢
    rw [← mul_div_assoc, mul_div_cancel_left₀ _ hL.ne']

/-- C62: for a nonzero direction, `transform` multiplies the coordinate along the direction by the scale, keeps the
orthogonal coordinate, and fixes the center. -/
theorem C62_scaling (S : Scaling) (hw : S.direction ≠ ⟨0, 0⟩) (P : Pt) :
    (∃ Q, S.transformPt P = .ok Q ∧ IsScaled S.center S.direction S.scale P Q) ∧
    S.transformPt S.center = .ok S.center := by
  obtain ⟨L, hL, -, hx, hy⟩ := polar hw
  obtain ⟨c, hc⟩ : ∃ c, c = cos (atan2 S.direction.y S.direction.x) := ⟨_, rfl⟩
  obtain ⟨s, hs⟩ : ∃ s, s = sin (atan2 S.direction.y S.direction.x) := ⟨_, rfl⟩
  have hcs : s ^ 2 + c ^ 2 = 1 := by rw [hs, hc]; exact sin_sq_add_cos_sq _
  refine ⟨⟨_, S.transformPt_eq P c s hc hs, ?_⟩, ?_⟩
  · rw [← hc] at hx
    rw [← hs] at hy
    unfold IsScaled dot cross
    rw [hx, hy]
    simp only [Pt.sub_x, Pt.sub_y]
    constructor
    · linear_combination L * S.scale * (c * (P.x - S.center.x) + s * (P.y - S.center.y)) * hcs
    · linear_combination L * (-s * (P.x - S.center.x) + c * (P.y - S.center.y)) * hcs
  · rw [S.transformPt_eq _ c s hc hs]
    congr 1
    ext <;> simp

theorem isScaled_unique {O w P Q Q' : Pt} {k : ℝ} (hw : w ≠ ⟨0, 0⟩) (h : IsScaled O w k P Q) (h' : IsScaled O w k P Q') :
    Q = Q' := by
  have hp := dotSelf_pos hw
  obtain ⟨h1, h2⟩ := h
  obtain ⟨h3, h4⟩ := h'
  have e1 : dot w (Q - O) = dot w (Q' - O) := by rw [h1, h3]
  have e2 : cross w (Q - O) = cross w (Q' - O) := by rw [h2, h4]
  simp only [dot, cross, Pt.sub_x, Pt.sub_y] at e1 e2 hp
  ext
  · apply mul_left_cancel₀ hp.ne'
    linear_combination w.x * e1 - w.y * e2
  · apply mul_left_cancel₀ hp.ne'
    linear_combination w.y * e1 + w.x * e2

/-- C62: `as_affine` agrees with `transform`. -/
theorem C62_as_affine (S : Scaling) (hw : S.direction ≠ ⟨0, 0⟩) :
    ∃ f, S.as_affine = .ok f ∧ ∀ P, S.transformPt P = .ok (f.transform P) := by
  have hp := dotSelf_pos hw
  obtain ⟨O, w, k⟩ := S
  dsimp only at hw hp
  have hD : cross w ⟨-w.y, w.x⟩ = dot w w := by simp only [cross, dot]; ring
  obtain ⟨M, hM, hf⟩ := moveRow_eq w ⟨-w.y, w.x⟩ (k • w) ⟨-w.y, w.x⟩ O (by rw [hD]; exact hp.ne')
  refine ⟨Affine.ofMatrix3 (moveRow M), ?_, fun P => ?_⟩
  · unfold Scaling.as_affine Scaling.get3x3matrix
    simp only [hM, Res.ok_bind]
    rfl
  · obtain ⟨⟨Q, e, hQ⟩, -⟩ := C62_scaling ⟨O, w, k⟩ hw P
    rw [e, (hf P).1]
    congr 1
    apply isScaled_unique hw hQ
    obtain ⟨D, hDe⟩ : ∃ D, D = dot w w := ⟨_, rfl⟩
    rw [hD, ← hDe]
    rw [← hDe] at hp
    have h1 := hp.ne'
    unfold IsScaled
    simp only [dot, cross, Pt.sub_x, Pt.sub_y, Pt.smul_x, Pt.smul_y] at hDe ⊢
    constructor
    · field_simp
      rw [hDe]; ring
    · field_simp
      rw [hDe]; ring

theorem ellipse_rad_deg (O : Pt) (a b t : ℝ) : (⟨O, a, b, t * 180 / π, true⟩ : Ellipse).rad = t := by
  unfold Ellipse.rad
  have := pi_ne_zero
  simp only [if_true]
  field_simp

set_option maxHeartbeats 1000000 in
/-- C62: for a nonzero direction and a nonzero scale, `scale_circle` returns an ellipse, which is the image of the circle;
for the scale 0 it raises `ValueError`. -/
theorem C62_scale_circle (S : Scaling) (hw : S.direction ≠ ⟨0, 0⟩) (c : Circle) (hc : c.Valid) :
    (S.scale ≠ 0 → ∃ e, S.scale_circle c = .ok e ∧ e.Valid ∧
      MapsOnto (IsScaled S.center S.direction S.scale) (OnCircle c.center c.radius)
        (OnEllipse e.center e.rmajor e.rminor e.rad)) ∧
    (S.scale = 0 → S.scale_circle c = .error (.valueError "`rminor` is not positive.")) := by
  have hcR : 0 < c.radius := hc
  obtain ⟨L, hL, hLe, hx, hy⟩ := polar hw
  obtain ⟨k, hk⟩ : ∃ k, k = S.scale := ⟨_, rfl⟩
  obtain ⟨w, hwe⟩ : ∃ w, w = S.direction := ⟨_, rfl⟩
  obtain ⟨C, hC⟩ : ∃ C, C = c.center := ⟨_, rfl⟩
  obtain ⟨R, hR⟩ : ∃ R, R = c.radius := ⟨_, rfl⟩
  obtain ⟨φ, hφ⟩ : ∃ φ, φ = atan2 S.direction.y S.direction.x := ⟨_, rfl⟩
  rw [← hφ, ← hwe] at hx hy
  rw [← hwe] at hw hLe
  rw [← hR] at hcR
  have hcs := sin_sq_add_cos_sq φ
  have hLL : dot w w = L ^ 2 := by
    unfold dot; rw [hx, hy]; linear_combination L ^ 2 * hcs
  have tr : ∀ P, ∃ Q, S.transformPt P = .ok Q ∧ IsScaled S.center w k P Q := by
    intro P
    rw [hwe, hk]
    exact (C62_scaling S (hwe ▸ hw) P).1
  obtain ⟨O', e0, s0⟩ := tr C
  -- differences of images
  have diff : ∀ P Q, IsScaled S.center w k P Q → dot w (Q - O') = k * dot w (P - C) ∧ cross w (Q - O') = cross w (P - C) := by
    rintro P Q ⟨h1, h2⟩
    obtain ⟨h3, h4⟩ := s0
    simp only [dot, cross, Pt.sub_x, Pt.sub_y] at *
    constructor
    · linear_combination h1 - h3
    · linear_combination h2 - h4
  -- coordinates from the dot and cross products
  have coord : ∀ X : Pt, X.x = (dot w X * cos φ - cross w X * sin φ) / L ∧ X.y = (dot w X * sin φ + cross w X * cos φ) / L := by
    intro X
    unfold dot cross
    rw [hx, hy]
    constructor
    · field_simp; linear_combination (-X.x) * hcs
    · field_simp; linear_combination (-X.y) * hcs
  obtain ⟨A1, e1, s1⟩ := tr (C + (R • w) / L)
  obtain ⟨A2, e2, s2⟩ := tr (C + (R • (⟨-w.y, w.x⟩ : Pt)) / L)
  obtain ⟨d1, x1⟩ := diff _ _ s1
  obtain ⟨d2, x2⟩ := diff _ _ s2
  have d1' : dot w (A1 - O') = k * R * L := by
    rw [d1]
    simp only [dot, Pt.add_x, Pt.add_y, Pt.sub_x, Pt.sub_y, Pt.div_x, Pt.div_y, Pt.smul_x, Pt.smul_y] at hLL ⊢
    field_simp
    linear_combination k * R * hLL
  have x1' : cross w (A1 - O') = 0 := by
    rw [x1]
    simp only [cross, Pt.add_x, Pt.add_y, Pt.sub_x, Pt.sub_y, Pt.div_x, Pt.div_y, Pt.smul_x, Pt.smul_y]
    ring
  have d2' : dot w (A2 - O') = 0 := by
    rw [d2]
    simp only [dot, Pt.add_x, Pt.add_y, Pt.sub_x, Pt.sub_y, Pt.div_x, Pt.div_y, Pt.smul_x, Pt.smul_y]
    ring
  have x2' : cross w (A2 - O') = R * L := by
    rw [x2]
    simp only [cross, dot, Pt.add_x, Pt.add_y, Pt.sub_x, Pt.sub_y, Pt.div_x, Pt.div_y, Pt.smul_x, Pt.smul_y] at hLL ⊢
    field_simp
    linear_combination R * hLL
  have a1x : A1.x - O'.x = k * R * cos φ := by
    have := (coord (A1 - O')).1
    rw [d1', x1'] at this
    simp only [Pt.sub_x] at this
    rw [this]; field_simp; ring
  have a1y : A1.y - O'.y = k * R * sin φ := by
    have := (coord (A1 - O')).2
    rw [d1', x1'] at this
    simp only [Pt.sub_y] at this
    rw [this]; field_simp; ring
  have a2x : A2.x - O'.x = -(R * sin φ) := by
    have := (coord (A2 - O')).1
    rw [d2', x2'] at this
    simp only [Pt.sub_x] at this
    rw [this]; field_simp; ring
  have a2y : A2.y - O'.y = R * cos φ := by
    have := (coord (A2 - O')).2
    rw [d2', x2'] at this
    simp only [Pt.sub_y] at this
    rw [this]; field_simp; ring
  have dA1 : distance_ A1 O' = |k| * R := by
    rw [distance_eq, dist_eq_iff (by positivity), mul_pow, sq_abs]
    unfold sqDist
    rw [a1x, a1y]
    linear_combination k ^ 2 * R ^ 2 * hcs
  have dA2 : distance_ A2 O' = R := by
    rw [distance_eq, dist_eq_iff hcR.le]
    unfold sqDist
    rw [a2x, a2y]
    linear_combination R ^ 2 * hcs
  -- the equation of the image
  have circ : ∀ P, OnCircle C R P ↔ dot w (P - C) ^ 2 + cross w (P - C) ^ 2 = (L * R) ^ 2 := by
    intro P
    have : dot w (P - C) ^ 2 + cross w (P - C) ^ 2 = L ^ 2 * sqDist P C := by
      rw [← hLL]; simp only [dot, cross, sqDist, Pt.sub_x, Pt.sub_y]; ring
    rw [this, mul_pow]
    unfold OnCircle
    constructor
    · intro h; rw [h]
    · intro h; exact mul_left_cancel₀ (by positivity) h
  have surj : k ≠ 0 → ∀ Q, ∃ P, IsScaled S.center w k P Q := by
    intro hk0 Q
    obtain ⟨P, -, h1, h2⟩ := (C62_scaling ⟨S.center, w, 1 / k⟩ hw Q).1
    dsimp only at h1 h2
    refine ⟨P, ?_, h2.symm⟩
    rw [h1]; field_simp
  have onto : ∀ (T : Pt → Prop), k ≠ 0 →
      (∀ Q, T Q ↔ (dot w (Q - O') / k) ^ 2 + cross w (Q - O') ^ 2 = (L * R) ^ 2) →
      MapsOnto (IsScaled S.center w k) (OnCircle C R) T := by
    intro T hk0 hT Q
    constructor
    · intro hQ
      obtain ⟨P, hP⟩ := surj hk0 Q
      refine ⟨P, ?_, hP⟩
      rw [circ, ← (diff P Q hP).2, show dot w (P - C) = dot w (Q - O') / k by rw [(diff P Q hP).1]; field_simp]
      exact (hT Q).1 hQ
    · rintro ⟨P, hP, hPQ⟩
      rw [hT, (diff P Q hPQ).2, (diff P Q hPQ).1, mul_div_cancel_left₀ _ hk0]
      exact (circ P).1 hP
  have hrun : S.scale_circle c = (if k ≥ 1 then
      mkEllipse O' (|k| * R) R (atan2 (A1.y - O'.y) (A1.x - O'.x) * 180 / π) true
      else mkEllipse O' R (|k| * R) (atan2 (A2.y - O'.y) (A2.x - O'.x) * 180 / π) true) := by
    unfold Scaling.scale_circle
    simp only [← hwe, ← hC, ← hR, ← hk, ← hLe]
    rw [e0, Res.ok_bind, if_neg hL.ne', e1, Res.ok_bind, e2, Res.ok_bind, dA1, dA2]
  rw [← hk, hrun, ← hwe, ← hC, ← hR]
  constructor
  · intro hk0
    by_cases hk1 : k ≥ 1
    · have hkp : 0 < k := by linarith
      rw [if_pos hk1, abs_of_pos hkp]
      have ca : cos (atan2 (A1.y - O'.y) (A1.x - O'.x)) = cos φ := by
        have hne : A1.x - O'.x ≠ 0 ∨ A1.y - O'.y ≠ 0 := by
          rw [a1x, a1y]
          by_contra hh
          push Not at hh
          have e1 := (mul_eq_zero.1 hh.1).resolve_left (by positivity)
          have e2 := (mul_eq_zero.1 hh.2).resolve_left (by positivity)
          rw [e1, e2] at hcs; norm_num at hcs
        rw [cos_atan2 hne, a1x, a1y, show k * R * cos φ * (k * R * cos φ) + k * R * sin φ * (k * R * sin φ) = (k * R) ^ 2 by
          linear_combination (k * R) ^ 2 * hcs, Real.sqrt_sq (by positivity)]
        field_simp
      have sa : sin (atan2 (A1.y - O'.y) (A1.x - O'.x)) = sin φ := by
        rw [sin_atan2, a1x, a1y, show k * R * cos φ * (k * R * cos φ) + k * R * sin φ * (k * R * sin φ) = (k * R) ^ 2 by
          linear_combination (k * R) ^ 2 * hcs, Real.sqrt_sq (by positivity)]
        field_simp
      refine ⟨⟨O', k * R, R, atan2 (A1.y - O'.y) (A1.x - O'.x) * 180 / π, true⟩, ?_, ⟨by positivity, hcR⟩, ?_⟩
      · unfold mkEllipse
        rw [if_neg (not_le.2 (by positivity)), if_neg (not_le.2 hcR)]
      · apply onto _ hk0
        intro Q
        rw [onEllipse_iff (by positivity) hcR, ellipse_rad_deg]
        unfold ellVal axisCoord
        rw [ca, sa]
        dsimp only
        have p1 : (Q.x - O'.x) * cos φ + (Q.y - O'.y) * sin φ = dot w (Q - O') / L := by
          unfold dot; rw [hx, hy]; simp only [Pt.sub_x, Pt.sub_y]; field_simp
        have p2 : -(Q.x - O'.x) * sin φ + (Q.y - O'.y) * cos φ = cross w (Q - O') / L := by
          unfold cross; rw [hx, hy]; simp only [Pt.sub_x, Pt.sub_y]; field_simp; ring
        rw [p1, p2]
        have : (dot w (Q - O') / k) ^ 2 + cross w (Q - O') ^ 2 =
            (L * R) ^ 2 * ((dot w (Q - O') / L / (k * R)) ^ 2 + (cross w (Q - O') / L / R) ^ 2 - 1) + (L * R) ^ 2 := by
          field_simp; ring
        rw [this, add_eq_right, mul_eq_zero]
        constructor
        · intro h; exact Or.inr h
        · intro h; exact h.resolve_left (by positivity)
    · rw [if_neg hk1]
      have hkp : 0 < |k| := abs_pos.2 hk0
      have ca : cos (atan2 (A2.y - O'.y) (A2.x - O'.x)) = -sin φ := by
        have hne : A2.x - O'.x ≠ 0 ∨ A2.y - O'.y ≠ 0 := by
          rw [a2x, a2y]
          by_contra hh
          push Not at hh
          have e1 := (mul_eq_zero.1 (neg_eq_zero.1 hh.1)).resolve_left hcR.ne'
          have e2 := (mul_eq_zero.1 hh.2).resolve_left hcR.ne'
          rw [e1, e2] at hcs; norm_num at hcs
        rw [cos_atan2 hne, a2x, a2y, show -(R * sin φ) * -(R * sin φ) + R * cos φ * (R * cos φ) = R ^ 2 by
          linear_combination R ^ 2 * hcs, Real.sqrt_sq hcR.le]
        field_simp
      have sa : sin (atan2 (A2.y - O'.y) (A2.x - O'.x)) = cos φ := by
        rw [sin_atan2, a2x, a2y, show -(R * sin φ) * -(R * sin φ) + R * cos φ * (R * cos φ) = R ^ 2 by
          linear_combination R ^ 2 * hcs, Real.sqrt_sq hcR.le]
        field_simp
      refine ⟨⟨O', R, |k| * R, atan2 (A2.y - O'.y) (A2.x - O'.x) * 180 / π, true⟩, ?_, ⟨hcR, by positivity⟩, ?_⟩
      · unfold mkEllipse
        rw [if_neg (not_le.2 hcR), if_neg (not_le.2 (by positivity))]
      · apply onto _ hk0
        intro Q
        rw [onEllipse_iff hcR (by positivity), ellipse_rad_deg]
        unfold ellVal axisCoord
        rw [ca, sa]
        dsimp only
        have p1 : (Q.x - O'.x) * -sin φ + (Q.y - O'.y) * cos φ = cross w (Q - O') / L := by
          unfold cross; rw [hx, hy]; simp only [Pt.sub_x, Pt.sub_y]; field_simp; ring
        have p2 : -(Q.x - O'.x) * cos φ + (Q.y - O'.y) * -sin φ = -(dot w (Q - O') / L) := by
          unfold dot; rw [hx, hy]; simp only [Pt.sub_x, Pt.sub_y]; field_simp; ring
        rw [p1, p2]
        have hkk : |k| ^ 2 = k ^ 2 := sq_abs k
        have e : (-(dot w (Q - O') / L) / (|k| * R)) ^ 2 = (dot w (Q - O') / L / (k * R)) ^ 2 := by
          rw [div_pow, div_pow (dot w (Q - O') / L), mul_pow, mul_pow, hkk, neg_sq]
        rw [e]
        have : (dot w (Q - O') / k) ^ 2 + cross w (Q - O') ^ 2 =
            (L * R) ^ 2 * ((cross w (Q - O') / L / R) ^ 2 + (dot w (Q - O') / L / (k * R)) ^ 2 - 1) + (L * R) ^ 2 := by
          field_simp; ring
        rw [this, add_eq_right, mul_eq_zero]
        constructor
        · intro h; exact Or.inr h
        · intro h; exact h.resolve_left (by positivity)
  · intro h0
    rw [h0, if_neg (by norm_num)]
    unfold mkEllipse
    rw [if_neg (not_le.2 hcR), if_pos (by simp)]

/-- The scaling by 3 along the diagonal with center `(1, 1)` maps `(3, 1)` to `(5, 3)`, and so does its matrix. -/
example : (⟨⟨1, 1⟩, ⟨1, 1⟩, 3⟩ : Scaling).transformPt ⟨3, 1⟩ = .ok ⟨5, 3⟩ ∧
    ∃ f, (⟨⟨1, 1⟩, ⟨1, 1⟩, 3⟩ : Scaling).as_affine = .ok f ∧ f.transform ⟨3, 1⟩ = ⟨5, 3⟩ := by
  have hw : (⟨⟨1, 1⟩, ⟨1, 1⟩, 3⟩ : Scaling).direction ≠ ⟨0, 0⟩ := by simp
  obtain ⟨⟨Q, h, h1, h2⟩, -⟩ := C62_scaling _ hw ⟨3, 1⟩
  have e : Q = ⟨5, 3⟩ := by
    norm_num [dot, cross] at h1 h2; ext <;> simp only <;> linarith
  subst e
  obtain ⟨f, hf, ha⟩ := C62_as_affine _ hw
  have := ha ⟨3, 1⟩
  rw [h] at this
  exact ⟨h, f, hf, by injection this with this; exact this.symm⟩

/-- The image of the unit circle around `(1, 1)` by this scaling is an ellipse through `(1 + 3 √2 / 2, 1 + 3 √2 / 2)`. -/
example : ∃ e, (⟨⟨1, 1⟩, ⟨1, 1⟩, 3⟩ : Scaling).scale_circle ⟨⟨1, 1⟩, 1⟩ = .ok e ∧
    OnEllipse e.center e.rmajor e.rminor e.rad ⟨1 + 3 * (√2 / 2), 1 + 3 * (√2 / 2)⟩ := by
  obtain ⟨e, h, -, hm⟩ := (C62_scale_circle ⟨⟨1, 1⟩, ⟨1, 1⟩, 3⟩ (by simp) ⟨⟨1, 1⟩, 1⟩
    (by unfold Circle.Valid; norm_num)).1 (by norm_num)
  refine ⟨e, h, (hm _).2 ⟨⟨1 + √2 / 2, 1 + √2 / 2⟩, ?_, ?_, ?_⟩⟩
  · have := Real.sq_sqrt (show (0 : ℝ) ≤ 2 by norm_num)
    simp only [OnCircle, sqDist]; linear_combination this / 2
  · simp [dot]; ring
  · simp [cross]

/-- C62, outside the hypothesis: for the zero direction `transform` scales along the x-axis, `as_affine` raises
`LinAlgError` and `scale_circle` computes with non finite numbers. -/
theorem C62_zero_direction (S : Scaling) (hw : S.direction = ⟨0, 0⟩) (P : Pt) (c : Circle) :
    S.transformPt P = (⟨S.center, ⟨1, 0⟩, S.scale⟩ : Scaling).transformPt P ∧
    S.as_affine = .error .linAlgError ∧ S.scale_circle c = .error .nonFinite := by
  refine ⟨?_, ?_, ?_⟩
  · have h : atan2 S.direction.y S.direction.x = atan2 (0 : ℝ) 1 := by
      rw [hw]
      unfold atan2
      rw [show (⟨1, 0⟩ : ℂ) = 1 from rfl, show (⟨0, 0⟩ : ℂ) = 0 from rfl, Complex.arg_one, Complex.arg_zero]
    rw [S.transformPt_eq P _ _ rfl rfl, (⟨S.center, ⟨1, 0⟩, S.scale⟩ : Scaling).transformPt_eq P _ _ rfl rfl, h]
  · unfold Scaling.as_affine Scaling.get3x3matrix invMul
    simp only [hw]
    rw [if_pos (by simp [rows3, Matrix.det_fin_three])]
    rfl
  · obtain ⟨Q, hQ⟩ : ∃ Q, S.transformPt c.center = .ok Q := ⟨_, S.transformPt_eq _ _ _ rfl rfl⟩
    unfold Scaling.scale_circle
    dsimp only
    rw [hQ, Res.ok_bind, if_pos (by rw [hw]; simp [vlength_])]

/-- Hypotheses met: the scaling of ratio 3 along the direction (1, 3). -/
example : (⟨⟨1, 1⟩, ⟨1, 3⟩, 3⟩ : Scaling).direction ≠ ⟨0, 0⟩ := by
  intro h
  have := congrArg Pt.x h
  norm_num at this

/-! ## C63 -/

/-- C63: an n x 2 matrix is transformed row by row. -/
def RowWise (T : Arr → Res Out) : Prop :=
  ∀ (n : ℕ) (M : Matrix (Fin n) (Fin 2) ℝ), ∃ N : Matrix (Fin n) (Fin 2) ℝ, T (.mat n 2 M) = .ok (.mat n N) ∧
    ∀ i, T (.vec [M i 0, M i 1]) = .ok (.pt ⟨N i 0, N i 1⟩)

/-- C63: an argument which is neither a vector with two entries nor an n x 2 matrix raises `ValueError`. -/
def RejectsOthers (T : Arr → Res Out) : Prop :=
  ∀ a : Arr, (∀ x y, a ≠ .vec [x, y]) → (∀ n M, a ≠ .mat n 2 M) → ∃ msg, T a = .error (.valueError msg)

theorem onPoints_rejects (core : (n : ℕ) → Matrix (Fin n) (Fin 2) ℝ → Res (Matrix (Fin n) (Fin 2) ℝ)) :
    RejectsOthers (onPoints core) := by
  intro a h1 h2
  unfold onPoints
  split
  · exact ⟨_, rfl⟩
  · rename_i x y
    exact absurd rfl (h1 x y)
  · exact ⟨_, rfl⟩
  · rename_i n f
    exact absurd rfl (h2 n f)
  · exact ⟨_, rfl⟩

theorem onPoints_rowWise (core : (n : ℕ) → Matrix (Fin n) (Fin 2) ℝ → Res (Matrix (Fin n) (Fin 2) ℝ)) (g : ℝ → ℝ → Fin 2 → ℝ)
    (h : ∀ n M, core n M = .ok (Matrix.of fun i => g (M i 0) (M i 1))) : RowWise (onPoints core) := by
  intro n M
  refine ⟨Matrix.of fun i => g (M i 0) (M i 1), ?_, fun i => ?_⟩
  · simp only [onPoints, h, Res.ok_bind]
    rfl
  · simp only [onPoints, h, Res.ok_bind]
    rfl

/-- C63 for `Rotation.rotate`. -/
theorem C63_rotation (R : Rotation) : RowWise R.rotate ∧ RejectsOthers R.rotate := by
  refine ⟨onPoints_rowWise _ (fun x y => ![cos R.rad * (x - R.center.x) - sin R.rad * (y - R.center.y) + R.center.x,
    sin R.rad * (x - R.center.x) + cos R.rad * (y - R.center.y) + R.center.y]) fun n M => ?_, onPoints_rejects _⟩
  unfold Rotation.rotateMat Rotation.rad
  refine congrArg Except.ok ?_
  ext i j
  fin_cases j <;> simp [addRows, columnStack, sub_eq_add_neg]

/-- C63 for `ScalingXY.transform`. -/
theorem C63_scalingXY (s : ScalingXY) : RowWise s.transform ∧ RejectsOthers s.transform := by
  refine ⟨onPoints_rowWise _ (fun x y => ![s.sx * (x - s.center.x) + s.center.x,
    s.sy * (y - s.center.y) + s.center.y]) fun n M => ?_, onPoints_rejects _⟩
  unfold ScalingXY.transformMat
  refine congrArg Except.ok ?_
  ext i j
  fin_cases j <;> simp [addRows, sub_eq_add_neg]

/-- C63 for `Homothety.transform`. -/
theorem C63_homothety (h : Homothety) : RowWise h.transform ∧ RejectsOthers h.transform := by
  refine ⟨onPoints_rowWise _ (fun x y => ![h.scale * x + (1 - h.scale) * h.center.x,
    h.scale * y + (1 - h.scale) * h.center.y]) fun n M => ?_, onPoints_rejects _⟩
  unfold Homothety.transformMat
  refine congrArg Except.ok ?_
  ext i j
  fin_cases j <;> simp [addRows]

/-- C63 for `Scaling.transform`. -/
theorem C63_scaling (S : Scaling) : RowWise S.transform ∧ RejectsOthers S.transform := by
  refine ⟨onPoints_rowWise _ (fun x y =>
    let c := cos (-atan2 S.direction.y S.direction.x)
    let s := sin (-atan2 S.direction.y S.direction.x)
    let x0 := x - S.center.x
    let y0 := y - S.center.y
    let x1 := S.scale * (c * x0 - s * y0)
    let y1 := s * x0 + c * y0
    ![c * x1 + s * y1 + S.center.x, -s * x1 + c * y1 + S.center.y]) fun n M => ?_, onPoints_rejects _⟩
  unfold Scaling.transformMat
  refine congrArg Except.ok ?_
  ext i j
  fin_cases j
  · simp [addRows, columnStack]; ring
  · simp [addRows, columnStack]; ring

/-- C63 for `Shear.transform`; for a zero vector every argument of the right shape raises (`C60_zero_vector`). -/
theorem C63_shear (s : Shear) (hw : s.vector ≠ ⟨0, 0⟩) (hr : s.ratio ≠ 0) :
    RowWise s.transform ∧ RejectsOthers s.transform := by
  have hm : ∃ M, s.get3x3matrix = .ok M := by
    have hd := (dotSelf_pos hw).ne'
    have hD : cross s.vector (s.ratio • ⟨-s.vector.y, s.vector.x⟩) ≠ 0 := by
      have : cross s.vector (s.ratio • ⟨-s.vector.y, s.vector.x⟩) = s.ratio * dot s.vector s.vector := by
        simp only [cross, dot, Pt.smul_x, Pt.smul_y]; ring
      rw [this]
      exact mul_ne_zero hr hd
    unfold Shear.get3x3matrix
    obtain ⟨M, hM, -⟩ := moveRow_eq s.vector (s.ratio • ⟨-s.vector.y, s.vector.x⟩) s.vector
      (Real.tan (if s.degrees = true then s.angle * (π / 180) else s.angle) • s.vector +
        s.ratio • ⟨-s.vector.y, s.vector.x⟩) s.vertex hD
    exact ⟨moveRow M, by simp only [hM, Res.ok_bind]; rfl⟩
  obtain ⟨A, hA⟩ := hm
  refine ⟨onPoints_rowWise _ (fun x y => ![A 0 0 * x + A 0 1 * y + A 0 2, A 1 0 * x + A 1 1 * y + A 1 2]) fun n M => ?_,
    onPoints_rejects _⟩
  unfold Shear.transformMat
  rw [hA, Res.ok_bind]
  refine congrArg Except.ok ?_
  ext i j
  fin_cases j <;> simp [Matrix.mul_apply, Fin.sum_univ_three]

/-- C63 for `Affine.transform`: row by row, and it agrees with the transform of points; every argument of dimension at most
2 and of another shape raises.  Missing: arrays of dimension 3 or more, see `C63_affine_counterexample`. -/
theorem C63_affine_partial (f : Affine) : RowWise f.transformArr ∧
    (∀ P : Pt, f.transformArr P.arr = .ok (.pt (f.transform P))) ∧
    (∀ x, ∃ msg, f.transformArr (.scalar x) = .error (.valueError msg)) ∧
    (∀ l : List ℝ, l.length ≠ 2 → ∃ msg, f.transformArr (.vec l) = .error (.valueError msg)) ∧
    (∀ n m M, m ≠ 2 → ∃ msg, f.transformArr (.mat n m M) = .error (.valueError msg)) ∧
    (∀ e, f.transformArr (.bad e) = .error e) := by
  refine ⟨fun n M => ?_, fun P => ?_, fun x => ⟨_, rfl⟩, fun l hl => ?_, fun n m M hm => ?_, fun e => rfl⟩
  · refine ⟨Matrix.of fun i => ![f.A 0 0 * M i 0 + f.A 0 1 * M i 1 + f.b.x, f.A 1 0 * M i 0 + f.A 1 1 * M i 1 + f.b.y],
      ?_, fun i => ?_⟩
    · unfold Affine.transformArr
      refine congrArg (fun N => Except.ok (Out.mat n N)) ?_
      ext i j
      fin_cases j <;> simp [Matrix.mul_apply, Fin.sum_univ_two]
    · unfold Affine.transformArr
      simp [Matrix.mulVec, dotProduct, Fin.sum_univ_two]
  · unfold Affine.transformArr Pt.arr Affine.transform
    simp [Matrix.mulVec, dotProduct, Fin.sum_univ_two]
  · unfold Affine.transformArr
    split <;> simp_all
  · unfold Affine.transformArr
    split <;> simp_all

/-- On an array of two points each row is transformed as the point: here the points `(2, 2)` and `(1, 1)` and the
scaling of center `(1, 1)` by 2 and 3; a vector of length three is rejected by all the transformations. -/
example : (∃ N : Matrix (Fin 2) (Fin 2) ℝ, (⟨⟨1, 1⟩, 2, 3⟩ : ScalingXY).transform (.mat 2 2 !![2, 2; 1, 1]) = .ok (.mat 2 N) ∧
      (⟨⟨1, 1⟩, 2, 3⟩ : ScalingXY).transform (.vec [2, 2]) = .ok (.pt ⟨N 0 0, N 0 1⟩)) ∧
    (∃ msg, (⟨⟨1, 1⟩, 1, true⟩ : Rotation).rotate (.vec [1, 2, 3]) = .error (.valueError msg)) ∧
    (∃ msg, (⟨⟨1, 1⟩, 2⟩ : Homothety).transform (.vec [1, 2, 3]) = .error (.valueError msg)) ∧
    (∃ msg, (⟨⟨1, 1⟩, ⟨1, 3⟩, 3⟩ : Scaling).transform (.vec [1, 2, 3]) = .error (.valueError msg)) ∧
    (∃ msg, (⟨⟨1, 0⟩, ⟨1, 0⟩, 1, 45, true⟩ : Shear).transform (.vec [1, 2, 3]) = .error (.valueError msg)) ∧
    (∃ msg, (⟨!![1, 2; 3, 4], ⟨5, 6⟩⟩ : Affine).transformArr (.vec [1, 2, 3]) = .error (.valueError msg)) := by
  refine ⟨?_, (C63_rotation _).2 _ (by simp) (by simp), (C63_homothety _).2 _ (by simp) (by simp),
    (C63_scaling _).2 _ (by simp) (by simp),
    (C63_shear _ (by simp) (by norm_num)).2 _ (by simp) (by simp), (C63_affine_partial _).2.2.2.1 _ (by simp)⟩
  obtain ⟨N, h, hr⟩ := (C63_scalingXY ⟨⟨1, 1⟩, 2, 3⟩).1 2 !![2, 2; 1, 1]
  refine ⟨N, h, ?_⟩
  have := hr 0
  simpa using this

/-- C63 fails for `Affine.transform` on three dimensional arrays: one of shape (2, 2, r) is accepted. -/
theorem C63_affine_counterexample (f : Affine) (r : ℕ) :
    f.transformArr (.nd 2 2 r []) = .ok .nd ∧ ¬ RejectsOthers f.transformArr := by
  have h : f.transformArr (.nd 2 2 r []) = .ok .nd := by
    unfold Affine.transformArr
    simp
  refine ⟨h, fun hr => ?_⟩
  obtain ⟨msg, hm⟩ := hr (.nd 2 2 r []) (by simp) (by simp)
  rw [h] at hm
  cases hm

/-- Hypotheses met: a shear with a nonzero vector and ratio. -/
example : (⟨⟨1, 0⟩, ⟨1, 0⟩, 1, 45, true⟩ : Shear).vector ≠ ⟨0, 0⟩ := by
  intro h
  have := congrArg Pt.x h
  norm_num at this
