import Verif.Props.Exact2
import Verif.Props.MobiusLine
import Verif.Props.FivePoints

/-!
# Exact conditions, continued: C23, C54, C79
-/

open Spec Real Classical

/-! ## C79 -/

/-- C79, exactly when a returned ellipse is the ellipse through the five points: iff `A ≠ C` or `B = 0` in its equation. -/
theorem C79_exact (e : Ellipse) (he : e.Valid) (P : Fin 5 → Pt) (hinj : Function.Injective P)
    (hP : ∀ i, OnE e (P i)) (eigvals : ℝ × ℝ)
    (hev : ∀ q, Ellipse.equation_from_five_points P = .ok q → Ellipse.IsEigvals (Ellipse.eqMatrix q.A q.B q.C) eigvals) :
    ((∃ e', Ellipse.from_five_points P eigvals = .ok e') ↔
      4 * (e.equation.A + e.equation.C) * e.equation.F < e.equation.D * e.equation.D + e.equation.E * e.equation.E) ∧
    ∀ e', Ellipse.from_five_points P eigvals = .ok e' →
      ((∀ X, OnE e' X ↔ OnE e X) ↔ e.equation.A ≠ e.equation.C ∨ e.equation.B = 0) := by
  obtain ⟨q, k, h1, hk, hq, hz⟩ := C67_five_points_of_ellipse e he P hinj hP
  have hv := hev q h1
  have hrun : Ellipse.from_five_points P eigvals = Ellipse.from_equation q.A q.B q.C q.D q.E q.F eigvals := by
    unfold Ellipse.from_five_points
    rw [h1]
    rfl
  constructor
  · refine ⟨fun h => ?_, C79_accepts_partial e he P hinj hP eigvals hev⟩
    rw [hrun, C66_accepts_exact _ _ _ _ _ _ _ hv] at h
    obtain ⟨-, -, h⟩ := h
    rw [hq] at h
    dsimp only at h
    have hk2 : 0 < k ^ 2 := by positivity
    refine lt_of_mul_lt_mul_left ?_ hk2.le
    linarith
  · intro e' h
    rw [hrun] at h
    have := C66_exact _ _ _ _ _ _ _ hv e' h
    have e1 : (∀ X, OnE e' X ↔ OnE e X) ↔ ∀ X, OnE e' X ↔ (Coeffs.mk q.A q.B q.C q.D q.E q.F).eval X = 0 :=
      forall_congr' fun X => by rw [← hz X]
    rw [e1, this, hq]
    dsimp only
    simp [hk]

/-- The ellipse of center `(0, 0)` and semi-axes 10 and 5 is recovered from five of its points, whatever the order
of the eigenvalues. -/
example (ev : ℝ × ℝ) (P : Fin 5 → Pt) (hP : P = ![⟨10, 0⟩, ⟨-10, 0⟩, ⟨0, 5⟩, ⟨0, -5⟩, ⟨6, 4⟩])
    (hev : ∀ q, Ellipse.equation_from_five_points P = .ok q → Ellipse.IsEigvals (Ellipse.eqMatrix q.A q.B q.C) ev) :
    ∃ e', Ellipse.from_five_points P ev = .ok e' ∧ ∀ X, OnE e' X ↔ OnE ⟨⟨0, 0⟩, 10, 5, 0, true⟩ X := by
  obtain ⟨h1, h2, h3⟩ := Ex.five
  rw [← hP] at h2 h3
  obtain ⟨a, b⟩ := C79_exact _ h1 P h2 h3 ev hev
  obtain ⟨e', he'⟩ := a.2 (by norm_num [Ellipse.equation])
  exact ⟨e', he', (b e' he').2 (Or.inl (by norm_num [Ellipse.equation]))⟩

/-! ## C54 -/

/-- A circle is returned only if the pole is beyond the tolerance from the line. -/
theorem transform_line_circle (f : Mobius) (h : Matrix.det f.M ≠ 0) (l : Line) (hl : l.Valid) (c : Circle)
    (hc : f.transform_line l = .ok (.circle c)) : ∃ M, f.transform (.fin M) = .ok .inf ∧
      sepsilon_ * Spec.dist l.A l.B < 2 * ‖f.M 1 0‖ ^ 2 * |cross (l.B - l.A) (M - l.A)| := by
  obtain ⟨-, -, -, hline⟩ := C03_direction_offset l hl
  obtain ⟨u, hu⟩ : ∃ u, u = cos l.direction_offset.1 := ⟨_, rfl⟩
  obtain ⟨v, hv⟩ : ∃ v, v = sin l.direction_offset.1 := ⟨_, rfl⟩
  obtain ⟨o, ho⟩ : ∃ o, o = l.direction_offset.2 := ⟨_, rfl⟩
  rw [← hu, ← hv, ← ho] at hline
  have huv : u ^ 2 + v ^ 2 = 1 := by rw [hu, hv]; exact cos_sq_add_sin_sq _
  have hg0 : toC (unit_vector_ l.direction_offset.1) = ⟨u, v⟩ := by rw [hu, hv]; rfl
  obtain ⟨A, hA⟩ : ∃ A : ℝ, A = -2 * ((⟨u, v⟩ : ℂ) * f.c * (starRingEnd ℂ) f.d).re - 2 * o * Complex.normSq f.c := ⟨_, rfl⟩
  have hbig : |A| > sepsilon_ := by
    by_contra hn
    unfold Mobius.transform_line at hc
    dsimp only at hc
    rw [hg0, ← ho] at hc
    simp only [normSq_mod2] at hc
    rw [← hA, if_neg hn] at hc
    obtain ⟨P', hP', hg⟩ := Res.bind_ok.1 hc
    obtain ⟨Q', hQ', hg⟩ := Res.bind_ok.1 hg
    obtain ⟨l', hl', hg⟩ := Res.bind_ok.1 hg
    have := Res.pure_ok.1 hg
    simp at this
  have hc0 : f.c ≠ 0 := by
    intro e
    rw [hA, e] at hbig
    simp at hbig
    linarith [sepsilon_pos]
  have hM : f.transform (.fin (from_complex_ (-f.d / f.c))) = .ok .inf := by
    rw [transform_inf_iff _ h, cpx_from]; field_simp; ring
  refine ⟨_, hM, ?_⟩
  generalize from_complex_ (-f.d / f.c) = M at *
  have hpole : A = 2 * Complex.normSq f.c * (u * M.x + v * M.y - o) := by
    rw [transform_inf_iff _ h] at hM
    have : f.d = -(f.c * cpx M) := by linear_combination hM
    rw [hA, this]
    simp [Complex.normSq_apply, cpx]
    ring
  have hAl := (hline l.A).1 (onLine_left _ _)
  have hBl := (hline l.B).1 (onLine_right _ _)
  have hcr := normal_cross huv hAl hBl (M := M)
  have hd : 0 < Spec.dist l.A l.B := Real.sqrt_pos.2 (sqDist_pos (ne_of_not_allclose hl))
  rw [hpole, abs_mul, abs_of_nonneg (by have := Complex.normSq_nonneg f.c; positivity)] at hbig
  rw [← hcr, ← Complex.normSq_eq_norm_sq]
  calc _ < 2 * Complex.normSq f.c * |u * M.x + v * M.y - o| * Spec.dist l.A l.B := mul_lt_mul_of_pos_right hbig hd
    _ = _ := by show _ = 2 * Complex.normSq f.c * _; ring

/-- The points of a generalised circle; a line is completed with `inf`. -/
def Spec.XGSet : GCircle → XPt → Prop
  | .circle c, P => XOnCircle c.center c.radius P
  | .line l, P => XOnLine l.A l.B P

/-- C54, exactly when a returned value is the image of the line: iff every point sent to `inf` is on the line or beyond the
tolerance from it. -/
theorem C54_exact (f : Mobius) (h : Matrix.det f.M ≠ 0) (l : Line) (hl : l.Valid) (g : GCircle)
    (hg : f.transform_line l = .ok g) :
    (∀ P Q, f.transform P = .ok Q → (XOnLine l.A l.B P ↔ XGSet g Q)) ↔
      ∀ M, f.transform (.fin M) = .ok .inf → OnLine l.A l.B M ∨
        sepsilon_ * Spec.dist l.A l.B < 2 * ‖f.M 1 0‖ ^ 2 * |cross (l.B - l.A) (M - l.A)| := by
  have uniq : ∀ M M', f.transform (.fin M) = .ok .inf → f.transform (.fin M') = .ok .inf → M = M' := by
    intro M M' h1 h2
    rw [transform_inf_iff _ h] at h1 h2
    have hc0 : f.c ≠ 0 := by
      intro e
      apply (det_ne_iff _).1 h
      rw [e, zero_mul, zero_add] at h1
      show f.a * f.d - f.b * f.c = 0
      rw [h1, e]; ring
    have : f.c * (cpx M - cpx M') = 0 := by linear_combination h1 - h2
    exact cpx_inj (sub_eq_zero.1 ((mul_eq_zero.1 this).resolve_left hc0))
  obtain ⟨t1, t2⟩ := C54_transform_line_partial f h l hl
  constructor
  · intro hP M hM
    cases g with
    | line l' => left; exact (hP _ _ hM).2 trivial
    | circle c =>
      right
      obtain ⟨M', hM', hfar⟩ := transform_line_circle f h l hl c hg
      rw [uniq M M' hM hM']
      exact hfar
  · intro hM
    by_cases hex : ∃ M, f.transform (.fin M) = .ok .inf ∧ ¬ OnLine l.A l.B M
    · obtain ⟨M, h1, h2⟩ := hex
      obtain ⟨c, hc, -, hm⟩ := t1 M h1 ((hM M h1).resolve_left h2)
      rw [hg, Except.ok.injEq] at hc
      subst hc
      exact hm
    · push Not at hex
      obtain ⟨l', rfl, -, -, -, hm⟩ := t2 hex g hg
      exact hm

/-- The image of the line `x = 1` under `z ↦ 1 / z` is right, that of the line `x = 10^-9` is not. -/
example (g : GCircle) : ((⟨!![0, 1; 1, 0]⟩ : Mobius).transform_line ⟨⟨1, 0⟩, ⟨1, 1⟩, true, true⟩ = .ok g →
      ∀ P Q, (⟨!![0, 1; 1, 0]⟩ : Mobius).transform P = .ok Q → (XOnLine ⟨1, 0⟩ ⟨1, 1⟩ P ↔ XGSet g Q)) ∧
    ((⟨!![0, 1; 1, 0]⟩ : Mobius).transform_line ⟨⟨1 / 10 ^ 9, 0⟩, ⟨1 / 10 ^ 9, 1⟩, true, true⟩ = .ok g →
      ¬ ∀ P Q, (⟨!![0, 1; 1, 0]⟩ : Mobius).transform P = .ok Q → (XOnLine ⟨1 / 10 ^ 9, 0⟩ ⟨1 / 10 ^ 9, 1⟩ P ↔ XGSet g Q)) := by
  have hd : Matrix.det (⟨!![0, 1; 1, 0]⟩ : Mobius).M ≠ 0 := by rw [Matrix.det_fin_two]; norm_num
  have h0 : (⟨!![0, 1; 1, 0]⟩ : Mobius).transform (.fin ⟨0, 0⟩) = .ok .inf := by
    rw [C49_transform _ hd]; norm_num [IsMobImage, num, den, cpx]; rfl
  have hz : ∀ M, (⟨!![0, 1; 1, 0]⟩ : Mobius).transform (.fin M) = .ok .inf → M = ⟨0, 0⟩ := by
    intro M hM
    rw [C49_transform _ hd] at hM
    norm_num [IsMobImage, num, den, cpx] at hM
    exact Pt.ext (by simpa using (congrArg Complex.re hM).symm) (by simpa using (congrArg Complex.im hM).symm)
  constructor
  · intro hg
    refine (C54_exact _ hd _ (by unfold Line.Valid allclose npClose; norm_num) g hg).2 fun M hM => Or.inr ?_
    rw [hz M hM, show Spec.dist (⟨1, 0⟩ : Pt) ⟨1, 1⟩ = 1 by rw [dist_eq_iff (by norm_num)]; norm_num [sqDist]]
    unfold sepsilon_
    norm_num [cross]
  · intro hg h
    rcases (C54_exact _ hd _ (by unfold Line.Valid allclose npClose; norm_num) g hg).1 h _ h0 with ⟨t, ht⟩ | ht
    · have := congrArg Pt.x ht; norm_num at this
    · rw [show Spec.dist (⟨1 / 10 ^ 9, 0⟩ : Pt) ⟨1 / 10 ^ 9, 1⟩ = 1 by rw [dist_eq_iff (by norm_num)]; norm_num [sqDist]] at ht
      unfold sepsilon_ at ht
      norm_num [cross, abs_of_pos] at ht

/-! ## C23 -/

/-- An inversion does not map a circle onto two circles with the same radius and different centers. -/
theorem inv_circle_unique {I C C' : Pt} {k r : ℝ} {S : Pt → Prop} (hk : k ≠ 0) (hr : 0 < r)
    (h1 : InvMapsOnto I k S (OnCircle C r)) (h2 : InvMapsOnto I k S (OnCircle C' r)) (hI : ¬ OnCircle C' r I) : C = C' := by
  by_contra hne
  have hd := dist_pos_of_ne (Ne.symm hne)
  have hd2 := dist_sq C' C
  obtain ⟨D, hD⟩ : ∃ D, D = Spec.dist C' C := ⟨_, rfl⟩
  rw [← hD] at hd hd2
  have hX : OnCircle C' r (C' + (r / D) • (C' - C)) := by
    unfold OnCircle sqDist at *
    simp only [Pt.add_x, Pt.add_y, Pt.smul_x, Pt.smul_y, Pt.sub_x, Pt.sub_y]
    have : (C'.x + r / D * (C'.x - C.x) - C'.x) ^ 2 + (C'.y + r / D * (C'.y - C.y) - C'.y) ^ 2 =
        r ^ 2 / D ^ 2 * ((C'.x - C.x) ^ 2 + (C'.y - C.y) ^ 2) := by ring
    rw [this, ← hd2]; field_simp
  have hX' : ¬ OnCircle C r (C' + (r / D) • (C' - C)) := by
    unfold OnCircle sqDist at *
    simp only [Pt.add_x, Pt.add_y, Pt.smul_x, Pt.smul_y, Pt.sub_x, Pt.sub_y]
    have : (C'.x + r / D * (C'.x - C.x) - C.x) ^ 2 + (C'.y + r / D * (C'.y - C.y) - C.y) ^ 2 =
        (1 + r / D) ^ 2 * ((C'.x - C.x) ^ 2 + (C'.y - C.y) ^ 2) := by ring
    rw [this, ← hd2]
    have : (1 + r / D) ^ 2 * D ^ 2 = (D + r) ^ 2 := by field_simp
    rw [this]
    nlinarith
  generalize C' + (r / D) • (C' - C) = X at *
  have hXI : X ≠ I := by rintro rfl; exact hI hX
  have hinv : IsInverse I k (I + (k / dot (X - I) (X - I)) • (X - I)) X := isInverse_symm hk (isInverse_iff.2 ⟨hXI, rfl⟩)
  exact hX' ((h1 _ _ hinv).1 ((h2 _ _ hinv).2 hX))

/-- C23 for congruent circles. -/
theorem mid_circles_congruent {c1 c2 : Circle} (h1 : c1.Valid) (g1 : c1.radius = c2.radius) {res : MidRes}
    (h : mid_circles c1 c2 = .ok res) :
    res.all (fun g => Swaps g c1 c2) ↔ (allclose c1.center c2.center → c1.center = c2.center) := by
  have q1 := h1
  unfold Circle.Valid at q1
  unfold mid_circles at h
  dsimp only at h
  rw [dot1_eq, if_pos g1] at h
  have hself : mkCircle c1.center (Real.sqrt (c1.radius ^ 2)) = .ok c1 := by
    rw [Real.sqrt_sq h1.le, mkCircle_ok]; exact ⟨h1, rfl⟩
  by_cases g2 : allclose c1.center c2.center
  · rw [if_pos g2] at h
    injection h with h
    subst h
    simp only [g2, true_imp_iff]
    constructor
    · rintro ⟨-, hs, -⟩
      have hk : (Inversion.on_circle c1).power ≠ 0 := by
        simp only [Inversion.on_circle]; positivity
      refine (inv_circle_unique (k := (Inversion.on_circle c1).power) (I := c1.center) (r := c1.radius)
        (S := OnCircle c1.center c1.radius) hk q1 (by rw [← g1] at hs; exact hs) ?_ ?_).symm
      · refine inv_circle_image hk (s := -1) ?_ ?_ (by ring)
        · simp only [Inversion.on_circle]; rw [sqDist_eq_zero.2 rfl]; ring
        · ext <;> simp
      · unfold OnCircle
        rw [sqDist_eq_zero.2 rfl]
        exact (by positivity : c1.radius ^ 2 ≠ 0).symm
    · intro hc
      have hc : c2 = c1 := by ext1; exacts [hc.symm, g1.symm]
      subst hc
      refine swaps_circle hself (s := -1) ?_ ?_ (by ring)
      · rw [sqDist_eq_zero.2 rfl]; ring
      · ext <;> simp
  · rw [if_neg g2] at h
    simp only [g2, false_imp_iff, iff_true]
    have hne := ne_of_not_allclose g2
    have hline : ∀ l, mkLine ((c1.center + c2.center) / (2 : ℝ) + ⟨(c2.center - c1.center).y, -(c2.center - c1.center).x⟩)
        ((c1.center + c2.center) / (2 : ℝ) - ⟨(c2.center - c1.center).y, -(c2.center - c1.center).x⟩) = .ok l →
        Swaps (.line l) c1 c2 := by
      intro l hl
      have v := mkLine_valid hl
      have n := ne_of_not_allclose v
      obtain ⟨-, rfl⟩ := mkLine_ok.1 hl
      refine ⟨v, rfl, rfl, ?_, ?_⟩
      · rw [g1]
        refine swaps_line hne ?_ ?_ n
        · simp [sqDist]; ring
        · simp [Perp, dot]; ring
      · rw [g1]
        refine swaps_line hne.symm ?_ ?_ n
        · simp [sqDist]; ring
        · simp [Perp, dot]; ring
    obtain ⟨l, hl, h⟩ := Res.bind_ok.1 h
    split_ifs at h with g3
    · simp only [Res.bind_ok, Res.pure_ok] at h
      obtain ⟨c, hc, rfl⟩ := h
      refine ⟨swaps_circle hc (s := -1) ?_ ?_ (by rw [g1]; ring), hline l hl⟩
      · have e : dot1_ ((c1.center + c2.center) / (2 : ℝ) - c2.center) = sqDist c1.center c2.center / 4 := by
          simp [dot1_, dot_, sqDist]; ring
        have e' : sqDist c1.center ((c1.center + c2.center) / (2 : ℝ)) = sqDist c1.center c2.center / 4 := by
          simp [sqDist]; ring
        rw [e, e', g1, abs_of_nonpos (by rw [g1] at g3; nlinarith)]; ring
      · ext <;> simp <;> ring
    · rw [Res.pure_ok] at h
      subst h
      exact hline l hl

/-- The circle built on the external center of similitude exchanges the circles exactly when they are not nested, or are
concentric. -/
theorem swaps_ext_iff {c1 c2 m : Circle} (h1 : c1.Valid) (h2 : c2.Valid) (hne : c1.radius ≠ c2.radius)
    (hm : mkCircle (c1.center - (c1.radius / c2.radius / (1 - c1.radius / c2.radius)) • (c2.center - c1.center))
      (Real.sqrt (c1.radius / c2.radius * |dot1_ ((c1.center - (c1.radius / c2.radius / (1 - c1.radius / c2.radius)) •
        (c2.center - c1.center)) - c2.center) - c2.radius * c2.radius|)) = .ok m) :
    Swaps (.circle m) c1 c2 ↔ ¬ (0 < sqDist c1.center c2.center ∧
      sqDist c1.center c2.center < (c1.radius - c2.radius) ^ 2) := by
  obtain ⟨a1, a2, a3⟩ := iext_rel (O₁ := c1.center) (O₂ := c2.center) h1 h2 hne
  have p1 : 0 < c1.radius := h1
  have p2 : 0 < c2.radius := h2
  have hp : 0 < (c1.radius - c2.radius) ^ 2 := by
    have := sub_ne_zero.2 hne; positivity
  obtain ⟨I, hI⟩ : ∃ I, I = c1.center - (c1.radius / c2.radius / (1 - c1.radius / c2.radius)) • (c2.center - c1.center) :=
    ⟨_, rfl⟩
  have hm' := hm
  rw [← hI] at a1 a2 a3 hm'
  obtain ⟨d, hd⟩ : ∃ d, d = sqDist c1.center c2.center := ⟨_, rfl⟩
  have hd0 : 0 ≤ d := by rw [hd]; unfold sqDist; positivity
  rw [← hd] at a2 a3
  rcases lt_trichotomy d ((c1.radius - c2.radius) ^ 2) with hlt | heq | hgt
  · -- nested circles
    have hle : c2.radius ^ 2 / (c1.radius - c2.radius) ^ 2 * d - c2.radius * c2.radius ≤ 0 := by
      have : c2.radius ^ 2 / (c1.radius - c2.radius) ^ 2 * d - c2.radius * c2.radius =
        -(c2.radius ^ 2 * (((c1.radius - c2.radius) ^ 2 - d) / (c1.radius - c2.radius) ^ 2)) := by
        rw [sub_div, div_self hp.ne']; ring
      rw [this, neg_nonpos]
      exact mul_nonneg (sq_nonneg _) (div_nonneg (by linarith) hp.le)
    have hs : -(c2.radius / c1.radius) * (sqDist c1.center I - c1.radius ^ 2) =
        c1.radius / c2.radius * |dot1_ (I - c2.center) - c2.radius * c2.radius| := by
      rw [a2, a3, abs_of_nonpos hle]; field_simp
    have hr : c2.radius ^ 2 = (-(c2.radius / c1.radius)) ^ 2 * c1.radius ^ 2 := by field_simp
    obtain ⟨k, hk⟩ : ∃ k, k = c1.radius / c2.radius * |dot1_ (I - c2.center) - c2.radius * c2.radius| := ⟨_, rfl⟩
    rw [← hk] at hs hm'
    rw [← hd]
    constructor
    · rintro ⟨-, hsw, -⟩ ⟨hpos, -⟩
      obtain ⟨hk0, rfl⟩ := mkCircle_ok.1 hm'
      have hk0' := Real.sqrt_pos.1 hk0
      simp only [Inversion.on_circle, Real.sq_sqrt hk0'.le] at hsw
      have himg := inv_circle_image (C' := I + (-(c2.radius / c1.radius)) • (c1.center - I)) hk0'.ne' hs rfl hr
      have hc := inv_circle_unique hk0'.ne' p2 hsw himg (by
        unfold OnCircle
        have : sqDist I (I + (-(c2.radius / c1.radius)) • (c1.center - I)) =
            (c2.radius / c1.radius) ^ 2 * sqDist c1.center I := by simp [sqDist]; ring
        rw [this, a2]
        have : (c2.radius / c1.radius) ^ 2 * (c1.radius ^ 2 / (c1.radius - c2.radius) ^ 2 * d) =
          c2.radius ^ 2 * (d / (c1.radius - c2.radius) ^ 2) := by field_simp
        rw [this]
        have hlt1 : d / (c1.radius - c2.radius) ^ 2 < 1 := (div_lt_one hp).2 hlt
        have : 0 < c2.radius ^ 2 := by positivity
        nlinarith)
      have hOI : c1.center = I := by
        have hx := congrArg Pt.x (a1.symm.trans hc)
        have hy := congrArg Pt.y (a1.symm.trans hc)
        have hρ : 0 < c2.radius / c1.radius := by positivity
        generalize c2.radius / c1.radius = ρ at *
        simp only [Pt.add_x, Pt.add_y, Pt.smul_x, Pt.smul_y, Pt.sub_x, Pt.sub_y] at hx hy
        ext
        · have : ρ * (c1.center.x - I.x) = 0 := by linarith
          linarith [(mul_eq_zero.1 this).resolve_left hρ.ne']
        · have : ρ * (c1.center.y - I.y) = 0 := by linarith
          linarith [(mul_eq_zero.1 this).resolve_left hρ.ne']
      rw [sqDist_eq_zero.2 hOI] at a2
      have : c1.radius ^ 2 / (c1.radius - c2.radius) ^ 2 * d > 0 := by positivity
      linarith
    · intro hn
      have hz : d = 0 := by
        by_contra hne0
        exact hn ⟨lt_of_le_of_ne hd0 (Ne.symm hne0), hlt⟩
      have hcc : c1.center = c2.center := sqDist_eq_zero.1 (by rw [← hd, hz])
      have hII : I = c1.center := by rw [hI, hcc]; ext <;> simp
      refine swaps_circle hm' hs ?_ hr
      rw [← hcc, hII]; ext <;> simp
  · -- tangent circles: nothing is returned
    exfalso
    rw [a3, heq] at hm'
    have : c2.radius ^ 2 / (c1.radius - c2.radius) ^ 2 * (c1.radius - c2.radius) ^ 2 - c2.radius * c2.radius = 0 := by
      field_simp; ring
    rw [this, abs_zero, mul_zero, Real.sqrt_zero] at hm'
    exact lt_irrefl _ (mkCircle_ok.1 hm').1
  · have := swaps_ext h1 h2 hne (by rw [← hd]; exact hgt) hm
    rw [← hd]
    simp only [this, true_iff]
    rintro ⟨-, h⟩
    linarith

/-- C23, exactly when every returned circle or line exchanges the two circles: iff the circles are not congruent with
different `np.allclose` centers, and are not nested, non-concentric circles with `(r1 + r2)² - d² < 2⁻²⁶`. -/
theorem C23_exact (c1 c2 : Circle) (h1 : c1.Valid) (h2 : c2.Valid) (res : MidRes) (h : mid_circles c1 c2 = .ok res) :
    res.all (fun g => Swaps g c1 c2) ↔
      ¬ (c1.radius = c2.radius ∧ allclose c1.center c2.center ∧ c1.center ≠ c2.center) ∧
      ¬ (0 < sqDist c1.center c2.center ∧ sqDist c1.center c2.center < (c1.radius - c2.radius) ^ 2 ∧
        (c1.radius + c2.radius) ^ 2 - sqDist c1.center c2.center < 1 / 2 ^ 26) := by
  have hs := sepsilon_pos
  have he : sepsilon_ = 1 / 2 ^ 26 := rfl
  have q1 : 0 < c1.radius := h1
  have q2 : 0 < c2.radius := h2
  have hd0 : 0 ≤ sqDist c1.center c2.center := by unfold sqDist; positivity
  by_cases g1 : c1.radius = c2.radius
  · rw [mid_circles_congruent h1 g1 h]
    have : ¬ (0 < sqDist c1.center c2.center ∧ sqDist c1.center c2.center < (c1.radius - c2.radius) ^ 2 ∧
        (c1.radius + c2.radius) ^ 2 - sqDist c1.center c2.center < 1 / 2 ^ 26) := by
      rintro ⟨a, b, -⟩
      rw [g1, sub_self] at b
      norm_num at b
      linarith
    exact ⟨fun hh => ⟨fun ⟨_, a, b⟩ => b (hh a), this⟩, fun ⟨hh, _⟩ a => by_contra fun b => hh ⟨g1, a, b⟩⟩
  · simp only [g1, false_and, not_false_eq_true, true_and]
    rw [← he]
    have hrr : (c1.radius - c2.radius) ^ 2 < (c1.radius + c2.radius) ^ 2 := by nlinarith [mul_pos q1 q2]
    unfold mid_circles at h
    dsimp only at h
    rw [dot1_eq, if_neg g1] at h
    split_ifs at h with g4 g5 g6 g7
    all_goals simp only [Res.bind_ok, Res.pure_ok] at h
    · obtain ⟨c, hc, rfl⟩ := h
      refine (swaps_ext_iff h1 h2 g1 hc).trans ⟨fun hn ⟨a, b, _⟩ => hn ⟨a, b⟩, fun _ ⟨_, b⟩ => ?_⟩
      linarith
    · obtain ⟨c, hc, rfl⟩ := h
      refine ⟨fun _ ⟨_, _, b⟩ => by linarith, fun _ => swaps_int h1 h2 (by linarith) hc⟩
    · obtain ⟨c, hc, rfl⟩ := h
      exact (swaps_ext_iff h1 h2 g1 hc).trans ⟨fun hn ⟨a, b, _⟩ => hn ⟨a, b⟩, fun hn ⟨a, b⟩ => hn ⟨a, b, g6⟩⟩
    · obtain ⟨c, hc, rfl⟩ := h
      exact ⟨fun _ ⟨_, _, b⟩ => g6 b, fun _ => swaps_int h1 h2 (by linarith) hc⟩
    · obtain ⟨c, hc, d, hd, rfl⟩ := h
      exact ⟨fun _ ⟨_, _, b⟩ => g6 b, fun _ => ⟨swaps_ext h1 h2 g1 (by linarith) hc, swaps_int h1 h2 (by linarith) hd⟩⟩

/-- Two tiny nested circles are in the exceptional case of `C23_exact`. -/
example : 0 < sqDist (⟨0, 0⟩ : Pt) ⟨1 / 10 ^ 6, 0⟩ ∧
    sqDist (⟨0, 0⟩ : Pt) ⟨1 / 10 ^ 6, 0⟩ < (1 / 10 ^ 5 - 2 / 10 ^ 5) ^ 2 ∧
    (1 / 10 ^ 5 + 2 / 10 ^ 5) ^ 2 - sqDist (⟨0, 0⟩ : Pt) ⟨1 / 10 ^ 6, 0⟩ < 1 / 2 ^ 26 := by
  unfold sqDist; norm_num
