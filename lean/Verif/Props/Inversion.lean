import Verif.Props.Circle2

/-!
# C24, C25, C27, C29, C30: inversions
-/

open Spec Real Classical

/-! ## C24 -/

/-- C24: the image of a point that is not `np.allclose` to the pole is its inverse. -/
theorem C24_invert (iota : Inversion) (M : Pt) (h : ¬ allclose iota.pole M) :
    ∃ N, iota.invert (.fin M) = .fin N ∧ OnLine iota.pole M N ∧
      dot (M - iota.pole) (N - iota.pole) = iota.power ∧ IsInverse iota.pole iota.power M N := by
  have hne := ne_of_not_allclose h
  have hi : IsInverse iota.pole iota.power M (iota.pole + (iota.power / dot1_ (M - iota.pole)) • (M - iota.pole)) :=
    isInverse_iff.2 ⟨hne.symm, rfl⟩
  refine ⟨_, ?_, ?_, hi.2.2, hi⟩
  · unfold Inversion.invert; dsimp only; rw [if_neg h]
  · exact ⟨_, rfl⟩

/-- The inverse of `(3, 4)` for the pole `(0, 0)` and the power 50 is `(6, 8)`. -/
example : (⟨⟨0, 0⟩, 50⟩ : Inversion).invert (.fin ⟨3, 4⟩) = .fin ⟨6, 8⟩ := by
  obtain ⟨N, h, ⟨t, rfl⟩, hd, -⟩ := C24_invert ⟨⟨0, 0⟩, 50⟩ ⟨3, 4⟩ (by unfold allclose npClose; norm_num [abs_of_pos])
  rw [h]
  norm_num [dot] at hd
  have : t = 2 := by linarith
  subst this
  congr 1
  ext <;> norm_num

/-- C24: `inf` is sent to the pole and the pole to `inf`. -/
theorem C24_invert_inf (iota : Inversion) :
    iota.invert .inf = .fin iota.pole ∧ iota.invert (.fin iota.pole) = .inf := by
  unfold Inversion.invert
  exact ⟨rfl, by simp [allclose_refl]⟩

/-- C24, partial: inverting twice gives the point back.  Missing from the full claim: images that are `np.allclose` to
the pole, for which it is false (`C24_involution_counterexample`). -/
theorem C24_involution_partial (iota : Inversion) (hk : iota.power ≠ 0) (M : Pt)
    (N : Pt) (hN : iota.invert (.fin M) = .fin N) (h' : ¬ allclose iota.pole N) :
    iota.invert (iota.invert (.fin M)) = .fin M := by
  rw [hN]
  obtain ⟨M', e, -, -, hi⟩ := C24_invert iota N h'
  rw [e, isInverse_unique hi (isInverse_symm hk (invert_fin hN).2)]

/-- Twice: `(3, 4)` again. -/
example : (⟨⟨0, 0⟩, 50⟩ : Inversion).invert ((⟨⟨0, 0⟩, 50⟩ : Inversion).invert (.fin ⟨3, 4⟩)) = .fin ⟨3, 4⟩ := by
  obtain ⟨N, h, ⟨t, rfl⟩, hd, -⟩ := C24_invert ⟨⟨0, 0⟩, 50⟩ ⟨3, 4⟩ (by unfold allclose npClose; norm_num [abs_of_pos])
  norm_num [dot] at hd
  have : t = 2 := by linarith
  subst this
  exact C24_involution_partial _ (by norm_num) _ _ h (by unfold allclose npClose; norm_num [abs_of_pos])

/-- C24, failure: inverting the point `(10^9, 0)` twice in the unit circle gives `inf`. -/
theorem C24_involution_counterexample :
    (⟨⟨0, 0⟩, 1⟩ : Inversion).invert ((⟨⟨0, 0⟩, 1⟩ : Inversion).invert (.fin ⟨10 ^ 9, 0⟩)) = .inf := by
  have : (⟨⟨0, 0⟩, 1⟩ : Inversion).invert (.fin ⟨10 ^ 9, 0⟩) = .fin ⟨1 / 10 ^ 9, 0⟩ := by
    unfold Inversion.invert
    dsimp only
    rw [if_neg (by unfold allclose npClose; norm_num)]
    congr 1; ext <;> norm_num [dot1_, dot_]
  rw [this]
  unfold Inversion.invert
  dsimp only
  rw [if_pos (by unfold allclose npClose; norm_num [abs_of_pos])]

/-- C24: the points fixed by the inversion on a circle are the points of the circle (among the points that are not
`np.allclose` to its center). -/
theorem C24_on_circle_fixed (c : Circle) (M : Pt) (h : ¬ allclose c.center M) :
    (Inversion.on_circle c).invert (.fin M) = .fin M ↔ OnCircle c.center c.radius M := by
  obtain ⟨N, e, -, hd, hi⟩ := C24_invert (Inversion.on_circle c) M h
  simp only [Inversion.on_circle] at hd hi e ⊢
  rw [e, XPt.fin.injEq]
  constructor
  · rintro rfl
    unfold OnCircle sqDist
    simp only [dot, Pt.sub_x, Pt.sub_y] at hd
    linarith
  · intro ho
    refine isInverse_unique hi ⟨(ne_of_not_allclose h).symm, ?_, ?_⟩
    · simp only [cross]; ring
    · unfold OnCircle sqDist at ho
      simp only [dot, Pt.sub_x, Pt.sub_y]
      linarith

example : ¬ allclose (⟨1, 2⟩ : Pt) ⟨3, 5⟩ ∧
    (⟨⟨1, 2⟩, 13⟩ : Inversion).invert (.fin ⟨3, 5⟩) = .fin ⟨3, 5⟩ := by
  have h : ¬ allclose (⟨1, 2⟩ : Pt) ⟨3, 5⟩ := by unfold allclose npClose; norm_num [abs_of_pos]
  refine ⟨h, ?_⟩
  unfold Inversion.invert
  dsimp only
  rw [if_neg h]
  congr 1; ext <;> simp [dot1_, dot_] <;> norm_num

/-! ## C25 -/

/-- C25: image of a circle that does not pass through the pole (beyond the tolerance). -/
theorem C25_invert_circle (iota : Inversion) (hk : iota.power ≠ 0) (c : Circle) (hc : c.Valid)
    (hD : 1 / 2 ^ 26 < |sqDist c.center iota.pole - c.radius ^ 2|) :
    ∃ c', iota.invert_circle c = .ok (.circle c') ∧ c'.Valid ∧
      InvMapsOnto iota.pole iota.power (OnCircle c.center c.radius) (OnCircle c'.center c'.radius) := by
  have hs := sepsilon_pos
  have eD : (c.center.x - iota.pole.x) ^ 2 + (c.center.y - iota.pole.y) ^ 2 - c.radius * c.radius =
      sqDist c.center iota.pole - c.radius ^ 2 := by unfold sqDist; ring
  obtain ⟨D, hDe⟩ : ∃ D, D = sqDist c.center iota.pole - c.radius ^ 2 := ⟨_, rfl⟩
  rw [← hDe] at hD eD
  have hD0 : D ≠ 0 := by
    rintro rfl; rw [abs_zero] at hD; norm_num at hD
  have hr : 0 < |iota.power / D| * c.radius := mul_pos (abs_pos.2 (div_ne_zero hk hD0)) hc
  refine ⟨⟨iota.pole + (iota.power / D) • (c.center - iota.pole), |iota.power / D| * c.radius⟩, ?_, hr, ?_⟩
  · unfold Inversion.invert_circle
    dsimp only
    rw [eD, if_pos (show |D| > sepsilon_ from hD), mkCircle_pos hr]
    rfl
  · refine inv_circle_image hk (s := iota.power / D) ?_ rfl ?_
    · rw [← hDe]; field_simp
    · simp only [mul_pow, sq_abs]

/-- C25: image of a circle through the pole: whatever is returned is the line of the inverses. -/
theorem C25_invert_circle_through_pole (iota : Inversion) (hk : iota.power ≠ 0) (c : Circle) (hc : c.Valid)
    (hD : OnCircle c.center c.radius iota.pole) (g : GCircle) (h : iota.invert_circle c = .ok g) :
    ∃ l, g = .line l ∧ l.Valid ∧ l.extendA = true ∧ l.extendB = true ∧
      InvMapsOnto iota.pole iota.power (OnCircle c.center c.radius) (OnLine l.A l.B) := by
  have hs := sepsilon_pos
  have hD' : sqDist c.center iota.pole = c.radius ^ 2 := by rw [sqDist_comm]; exact hD
  have eD : (c.center.x - iota.pole.x) ^ 2 + (c.center.y - iota.pole.y) ^ 2 - c.radius * c.radius = 0 := by
    unfold sqDist at hD'; linarith
  unfold Inversion.invert_circle at h
  dsimp only at h
  rw [eD, abs_zero, if_neg (by linarith)] at h
  simp only [Res.bind_ok, Res.pure_ok] at h
  obtain ⟨l, hl, rfl⟩ := h
  refine ⟨l, rfl, ?_⟩
  cases e1 : iota.invert (.fin (c.center - (iota.pole - c.center))) with
  | inf => rw [e1] at hl; simp [mkLineX] at hl
  | fin A =>
  cases e2 : iota.invert (.fin ((⟨-(iota.pole - c.center).y, (iota.pole - c.center).x⟩ : Pt) + c.center)) with
  | inf => rw [e1, e2] at hl; simp [mkLineX] at hl
  | fin B =>
  rw [e1, e2] at hl
  simp only [mkLineX] at hl
  have v := mkLine_valid hl
  have n := ne_of_not_allclose v
  obtain ⟨-, rfl⟩ := mkLine_ok.1 hl
  refine ⟨v, rfl, rfl, ?_⟩
  intro P Q hPQ
  have i1 := (inv_circle_through_pole hD' hk (invert_fin e1).2).1 (by
    unfold OnCircle; rw [← hD']; simp [sqDist])
  have i2 := (inv_circle_through_pole hD' hk (invert_fin e2).2).1 (by
    unfold OnCircle; rw [← hD']; simp [sqDist]; ring)
  rw [inv_circle_through_pole hD' hk hPQ, onLine_iff_cross n]
  have hcp : c.center ≠ iota.pole := by
    intro h0; rw [h0, sqDist_eq_zero.2 rfl] at hD'
    exact absurd hD'.symm (by have := hc; unfold Circle.Valid at this; positivity)
  simp only at n ⊢
  have hABp := sqDist_pos n
  have hwp := sqDist_pos hcp
  obtain ⟨w, hw⟩ : ∃ w, w = c.center - iota.pole := ⟨_, rfl⟩
  have hwp' : 0 < w.x ^ 2 + w.y ^ 2 := by rw [hw]; unfold sqDist at hwp; simpa using hwp
  rw [← hw] at i1 i2 ⊢
  simp only [dot, cross, sqDist, Pt.sub_x, Pt.sub_y] at *
  have hperp : w.x * (B.x - A.x) + w.y * (B.y - A.y) = 0 := by linarith
  have hpar : w.x * ((A.x - B.x) ^ 2 + (A.y - B.y) ^ 2) = (w.x * (B.y - A.y) - w.y * (B.x - A.x)) * (B.y - A.y) ∧
      w.y * ((A.x - B.x) ^ 2 + (A.y - B.y) ^ 2) = -(w.x * (B.y - A.y) - w.y * (B.x - A.x)) * (B.x - A.x) := by
    constructor
    · linear_combination (B.x - A.x) * hperp
    · linear_combination (B.y - A.y) * hperp
  obtain ⟨m, hm⟩ : ∃ m, m = w.x * (B.y - A.y) - w.y * (B.x - A.x) := ⟨_, rfl⟩
  obtain ⟨L, hL⟩ : ∃ L, L = (A.x - B.x) ^ 2 + (A.y - B.y) ^ 2 := ⟨_, rfl⟩
  rw [← hm, ← hL] at hpar
  rw [← hL] at hABp
  have hm0 : m ≠ 0 := by
    rintro rfl
    have a1 : w.x * L = 0 := by linarith [hpar.1]
    have a2 : w.y * L = 0 := by linarith [hpar.2]
    have b1 := (mul_eq_zero.1 a1).resolve_right hABp.ne'
    have b2 := (mul_eq_zero.1 a2).resolve_right hABp.ne'
    rw [b1, b2] at hwp'; norm_num at hwp'
  have key : L * (2 * (w.x * (Q.x - iota.pole.x) + w.y * (Q.y - iota.pole.y)) - iota.power) =
      -2 * m * ((B.x - A.x) * (Q.y - A.y) - (B.y - A.y) * (Q.x - A.x)) := by
    rw [← i1]
    linear_combination 2 * (Q.x - A.x) * hpar.1 + 2 * (Q.y - A.y) * hpar.2
  constructor
  · intro hq
    rw [hq, sub_self, mul_zero] at key
    exact (mul_eq_zero.1 key.symm).resolve_left (by simpa using hm0)
  · intro hq
    rw [hq, mul_zero] at key
    linarith [(mul_eq_zero.1 key).resolve_left hABp.ne']

/-- C25, partial: inverting twice gives the circle back.  The hypothesis on the power of the image is the tolerance test of
the second call; circles through the pole are not covered here (the image is a line). -/
theorem C25_invert_circle_twice_partial (iota : Inversion) (hk : iota.power ≠ 0) (c : Circle) (hc : c.Valid)
    (hD : 1 / 2 ^ 26 < |sqDist c.center iota.pole - c.radius ^ 2|)
    (hD2 : 1 / 2 ^ 26 < |iota.power ^ 2 / (sqDist c.center iota.pole - c.radius ^ 2)|)
    (c' : Circle) (h : iota.invert_circle c = .ok (.circle c')) : iota.invert_circle c' = .ok (.circle c) := by
  have eD : (c.center.x - iota.pole.x) ^ 2 + (c.center.y - iota.pole.y) ^ 2 - c.radius * c.radius =
      sqDist c.center iota.pole - c.radius ^ 2 := by unfold sqDist; ring
  obtain ⟨D, hDe⟩ : ∃ D, D = sqDist c.center iota.pole - c.radius ^ 2 := ⟨_, rfl⟩
  rw [← hDe] at hD eD hD2
  have hD0 : D ≠ 0 := by
    rintro rfl; rw [abs_zero] at hD; norm_num at hD
  have hr : 0 < |iota.power / D| * c.radius := mul_pos (abs_pos.2 (div_ne_zero hk hD0)) hc
  unfold Inversion.invert_circle at h
  dsimp only at h
  rw [eD, if_pos (show |D| > sepsilon_ from hD), mkCircle_pos hr] at h
  simp only [Res.ok_bind, Res.pure_ok, GCircle.circle.injEq] at h
  subst h
  unfold Inversion.invert_circle
  dsimp only
  have e2 : (iota.pole + (iota.power / D) • (c.center - iota.pole)).x - iota.pole.x = iota.power / D * (c.center.x - iota.pole.x) := by
    simp
  have e3 : (iota.pole + (iota.power / D) • (c.center - iota.pole)).y - iota.pole.y = iota.power / D * (c.center.y - iota.pole.y) := by
    simp
  have e4 : |iota.power / D| * c.radius * (|iota.power / D| * c.radius) = (iota.power / D) ^ 2 * c.radius ^ 2 := by
    rw [← sq_abs (iota.power / D)]; ring
  have e5 : (iota.power / D * (c.center.x - iota.pole.x)) ^ 2 + (iota.power / D * (c.center.y - iota.pole.y)) ^ 2 -
      (iota.power / D) ^ 2 * c.radius ^ 2 = iota.power ^ 2 / D := by
    have : (iota.power / D * (c.center.x - iota.pole.x)) ^ 2 + (iota.power / D * (c.center.y - iota.pole.y)) ^ 2 -
      (iota.power / D) ^ 2 * c.radius ^ 2 = (iota.power / D) ^ 2 * D := by rw [← eD]; ring
    rw [this]; field_simp
  rw [e2, e3, e4, e5, if_pos (show |iota.power ^ 2 / D| > sepsilon_ from hD2)]
  have e6 : iota.power / (iota.power ^ 2 / D) = D / iota.power := by field_simp
  rw [e6]
  have e7 : |D / iota.power| * (|iota.power / D| * c.radius) = c.radius := by
    rw [← mul_assoc, ← abs_mul]
    have : D / iota.power * (iota.power / D) = 1 := by field_simp
    rw [this, abs_one, one_mul]
  rw [e7, mkCircle_pos hc, Res.ok_bind, Res.pure_ok, GCircle.circle.injEq]
  ext
  · simp; field_simp; ring
  · simp; field_simp; ring
  · rfl

/-- A circle through the pole is mapped to the line through the images of its points, here `(1, 0)` and `(1, 1)`. -/
example (g : GCircle) (h : (⟨⟨0, 0⟩, 2⟩ : Inversion).invert_circle ⟨⟨1, 0⟩, 1⟩ = .ok g) :
    ∃ l, g = .line l ∧ OnLine l.A l.B ⟨1, 0⟩ ∧ OnLine l.A l.B ⟨1, 1⟩ := by
  obtain ⟨l, rfl, -, -, -, hm⟩ := C25_invert_circle_through_pole ⟨⟨0, 0⟩, 2⟩ (by norm_num) ⟨⟨1, 0⟩, 1⟩
    (by unfold Circle.Valid; norm_num) (by norm_num [OnCircle, sqDist]) g h
  refine ⟨l, rfl, (hm ⟨2, 0⟩ ⟨1, 0⟩ ?_).1 ?_, (hm ⟨1, 1⟩ ⟨1, 1⟩ ?_).1 ?_⟩
  all_goals norm_num [IsInverse, OnCircle, sqDist, cross, dot]

/-- Inverting a circle that does not go through the pole twice gives the circle back. -/
example (c' : Circle) (h : (⟨⟨0, 0⟩, 1⟩ : Inversion).invert_circle ⟨⟨3, 4⟩, 2⟩ = .ok (.circle c')) :
    (⟨⟨0, 0⟩, 1⟩ : Inversion).invert_circle c' = .ok (.circle ⟨⟨3, 4⟩, 2⟩) :=
  C25_invert_circle_twice_partial _ (by norm_num) _ (by unfold Circle.Valid; norm_num) (by norm_num [sqDist])
    (by norm_num [sqDist]) _ h

/-- C25, a limit of the claim: when the pole is nearly on the circle a line is returned, which does not contain the
inverses of the points of the circle. -/
theorem C25_near_pole_counterexample :
    ∃ l, (⟨⟨0, 0⟩, 1⟩ : Inversion).invert_circle ⟨⟨1, 0⟩, 1 - 1 / 10 ^ 10⟩ = .ok (.line l) ∧
      ¬ InvMapsOnto (⟨0, 0⟩ : Pt) 1 (OnCircle (⟨1, 0⟩ : Pt) (1 - 1 / 10 ^ 10)) (OnLine l.A l.B) := by
  refine ⟨⟨⟨1 / 2, 0⟩, ⟨1 / 2, -1 / 2⟩, true, true⟩, ?_, ?_⟩
  · have i1 : (⟨⟨0, 0⟩, 1⟩ : Inversion).invert (.fin ((⟨1, 0⟩ : Pt) - (⟨0, 0⟩ - ⟨1, 0⟩))) = .fin ⟨1 / 2, 0⟩ := by
      unfold Inversion.invert
      dsimp only
      rw [if_neg (by unfold allclose npClose; norm_num)]
      congr 1; ext <;> simp [dot1_, dot_]; norm_num
    have i2 : (⟨⟨0, 0⟩, 1⟩ : Inversion).invert
        (.fin ((⟨-((⟨0, 0⟩ : Pt) - ⟨1, 0⟩).y, ((⟨0, 0⟩ : Pt) - ⟨1, 0⟩).x⟩ : Pt) + ⟨1, 0⟩)) = .fin ⟨1 / 2, -1 / 2⟩ := by
      unfold Inversion.invert
      dsimp only
      rw [if_neg (by unfold allclose npClose; norm_num)]
      congr 1; ext <;> simp [dot1_, dot_] <;> norm_num
    unfold Inversion.invert_circle
    dsimp only
    rw [if_neg (by unfold sepsilon_; norm_num [abs_of_pos]), i1, i2]
    unfold mkLineX mkLine
    dsimp only
    rw [if_neg (by unfold allclose npClose; norm_num [abs_of_pos])]
    rfl
  · intro h
    have := (h ⟨2 - 1 / 10 ^ 10, 0⟩ ⟨1 / (2 - 1 / 10 ^ 10), 0⟩ (by
      refine ⟨?_, ?_, ?_⟩
      · intro h; have := congrArg Pt.x h; norm_num at this
      · simp [cross]
      · simp [dot]; norm_num)).1 (by unfold OnCircle sqDist; norm_num)
    obtain ⟨t, ht⟩ := this
    have hx := congrArg Pt.x ht
    norm_num at hx

example : (1 : ℝ) / 2 ^ 26 < |sqDist (⟨3, 4⟩ : Pt) ⟨0, 0⟩ - 2 ^ 2| ∧ OnCircle (⟨3, 4⟩ : Pt) 5 ⟨0, 0⟩ := by
  unfold OnCircle sqDist; norm_num [abs_of_pos]

/-! ## C27 -/

/-- C27 fails for every input: `invert_gcircle` always ends with `TypeError`, whereas `invert_circle` and `invert_line`
never do. -/
theorem C27_invert_gcircle_counterexample (iota : Inversion) (g : GCircle) :
    iota.invert_gcircle g = .error .typeError := by
  unfold Inversion.invert_gcircle pyIsinstance; rfl

/-- Even for a circle that `invert_circle` handles. -/
example : (⟨⟨0, 0⟩, 1⟩ : Inversion).invert_gcircle (.circle ⟨⟨3, 4⟩, 2⟩) = .error .typeError :=
  C27_invert_gcircle_counterexample _ _

/-! ## C29 -/

/-- Two circles, one of which is contained in the other as a set, are equal. -/
theorem circle_subset {C₁ C₂ : Pt} {r₁ r₂ : ℝ} (p1 : 0 < r₁) (p2 : 0 < r₂)
    (h : ∀ P, OnCircle C₁ r₁ P → OnCircle C₂ r₂ P) : C₁ = C₂ ∧ r₁ = r₂ := by
  have a1 := h ⟨C₁.x + r₁, C₁.y⟩ (by unfold OnCircle sqDist; ring)
  have a2 := h ⟨C₁.x - r₁, C₁.y⟩ (by unfold OnCircle sqDist; ring)
  have a3 := h ⟨C₁.x, C₁.y + r₁⟩ (by unfold OnCircle sqDist; ring)
  have a4 := h ⟨C₁.x, C₁.y - r₁⟩ (by unfold OnCircle sqDist; ring)
  unfold OnCircle sqDist at *
  simp only at *
  have x0 : C₁.x = C₂.x := by
    have : r₁ * (C₁.x - C₂.x) = 0 := by linear_combination (a1 - a2) / 4
    have := (mul_eq_zero.1 this).resolve_left p1.ne'
    linarith
  have y0 : C₁.y = C₂.y := by
    have : r₁ * (C₁.y - C₂.y) = 0 := by linear_combination (a3 - a4) / 4
    have := (mul_eq_zero.1 this).resolve_left p1.ne'
    linarith
  refine ⟨Pt.ext x0 y0, ?_⟩
  rw [x0, y0] at a1
  have : (r₁ - r₂) * (r₁ + r₂) = 0 := by linear_combination a1
  rcases mul_eq_zero.1 this with h | h
  · linarith
  · linarith

/-- Classification of the inversions that map a circle onto another circle. -/
theorem inv_circle_classify {O C₁ C₂ : Pt} {k r₁ r₂ : ℝ} (hk : k ≠ 0) (p1 : 0 < r₁) (p2 : 0 < r₂)
    (h : InvMapsOnto O k (OnCircle C₁ r₁) (OnCircle C₂ r₂)) :
    ∃ s, (s = r₂ / r₁ ∨ s = -(r₂ / r₁)) ∧ s * (sqDist C₁ O - r₁ ^ 2) = k ∧ C₂ = O + s • (C₁ - O) := by
  by_cases hD : sqDist C₁ O = r₁ ^ 2
  · exfalso
    -- the image of the circle minus the pole is a line, which a circle cannot contain
    have hw : 0 < sqDist C₁ O := by rw [hD]; positivity
    obtain ⟨w, hwe⟩ : ∃ w, w = C₁ - O := ⟨_, rfl⟩
    have hw2 : 0 < w.x ^ 2 + w.y ^ 2 := by rw [hwe]; simpa [sqDist] using hw
    obtain ⟨n, hn⟩ : ∃ n, n = w.x ^ 2 + w.y ^ 2 := ⟨_, rfl⟩
    rw [← hn] at hw2
    have key : ∀ t : ℝ, OnCircle C₂ r₂ ⟨O.x + k / (2 * n) * w.x - t * w.y, O.y + k / (2 * n) * w.y + t * w.x⟩ := by
      intro t
      obtain ⟨Q, hQ⟩ : ∃ Q : Pt, Q = ⟨O.x + k / (2 * n) * w.x - t * w.y, O.y + k / (2 * n) * w.y + t * w.x⟩ := ⟨_, rfl⟩
      rw [← hQ]
      have e : 2 * dot (C₁ - O) (Q - O) = k := by
        rw [← hwe, hQ]; simp [dot]; field_simp; rw [hn]; ring
      have hQO : Q ≠ O := by
        rintro rfl; apply hk; rw [← e]; simp [dot]
      obtain ⟨P, hP⟩ := isInverse_exists k hQO
      have hPQ := isInverse_symm hk hP
      exact (h P Q hPQ).1 ((inv_circle_through_pole hD hk hPQ).2 e)
    have k0 := key 0
    have k1 := key 1
    have k2 := key (-1)
    unfold OnCircle sqDist at k0 k1 k2
    simp only at k0 k1 k2
    have : w.x ^ 2 + w.y ^ 2 = 0 := by linear_combination (k1 + k2) / 2 - k0
    linarith
  · obtain ⟨D, hDe⟩ : ∃ D, D = sqDist C₁ O - r₁ ^ 2 := ⟨_, rfl⟩
    have hD0 : D ≠ 0 := by rw [hDe]; exact sub_ne_zero.2 hD
    have hs0 : k / D ≠ 0 := div_ne_zero hk hD0
    have him := inv_circle_image (O := O) (C := C₁) (C' := O + (k / D) • (C₁ - O)) (k := k) (r := r₁)
      (r' := |k / D| * r₁) (s := k / D) hk (by rw [← hDe]; field_simp) rfl (by rw [mul_pow, sq_abs])
    have hr' : 0 < |k / D| * r₁ := mul_pos (abs_pos.2 hs0) p1
    have hsub := circle_subset (C₁ := O + (k / D) • (C₁ - O)) (C₂ := C₂) hr' p2 (fun Q hQ => by
      have hQO : Q ≠ O := by
        rintro rfl
        unfold OnCircle at hQ
        rw [mul_pow, sq_abs] at hQ
        have : (k / D) ^ 2 * D = 0 := by
          obtain ⟨s, hs⟩ : ∃ s, s = k / D := ⟨_, rfl⟩
          rw [← hs] at hQ ⊢
          rw [hDe]
          simp only [sqDist, Pt.add_x, Pt.add_y, Pt.smul_x, Pt.smul_y, Pt.sub_x, Pt.sub_y] at *
          linear_combination hQ
        exact absurd this (mul_ne_zero (pow_ne_zero 2 hs0) hD0)
      obtain ⟨P, hP⟩ := isInverse_exists k hQO
      have hPQ := isInverse_symm hk hP
      exact (h P Q hPQ).1 ((him P Q hPQ).2 hQ))
    refine ⟨k / D, ?_, ?_, hsub.1.symm⟩
    · have : |k / D| = r₂ / r₁ := by rw [← hsub.2]; field_simp
      rcases abs_choice (k / D) with h | h
      · left; rw [← h, this]
      · right; rw [← this, h]; ring
    · rw [← hDe]; field_simp

/-- An inversion that exchanges two circles. -/
def InvSwaps (O : Pt) (k : ℝ) (c1 c2 : Circle) : Prop :=
  k ≠ 0 ∧ InvMapsOnto O k (OnCircle c1.center c1.radius) (OnCircle c2.center c2.radius) ∧
    InvMapsOnto O k (OnCircle c2.center c2.radius) (OnCircle c1.center c1.radius)

/-- A positive inversion exists only for a distance of the centers in a certain range, and a negative one too. -/
theorem swap_signs {O : Pt} {k : ℝ} {c1 c2 : Circle} (h1 : c1.Valid) (h2 : c2.Valid) (hne : c1 ≠ c2)
    (h : InvSwaps O k c1 c2) :
    (k < 0 → Spec.dist c1.center c2.center < |c1.radius - c2.radius| ∨
      c1.radius + c2.radius < Spec.dist c1.center c2.center) ∧
    (0 < k → |c1.radius - c2.radius| < Spec.dist c1.center c2.center ∨
      Spec.dist c1.center c2.center < c1.radius + c2.radius) := by
  obtain ⟨hk, h, -⟩ := h
  obtain ⟨s, hs, e1, e2⟩ := inv_circle_classify hk h1 h2 h
  have p1 : 0 < c1.radius := h1
  have p2 : 0 < c2.radius := h2
  have hd0 := dist_nonneg c1.center c2.center
  have hd2 := dist_sq c1.center c2.center
  have e3 : sqDist c1.center c2.center = (1 - s) ^ 2 * sqDist c1.center O := by
    rw [e2]; simp [sqDist]; ring
  have e4 : sqDist c1.center c2.center - (1 - s) ^ 2 * c1.radius ^ 2 = (1 - s) ^ 2 * (sqDist c1.center O - c1.radius ^ 2) := by
    rw [e3]; ring
  obtain ⟨p, hp⟩ : ∃ p, p = sqDist c1.center O - c1.radius ^ 2 := ⟨_, rfl⟩
  rw [← hp] at e1 e4
  have hsp : 0 < c2.radius / c1.radius := div_pos p2 p1
  rcases hs with rfl | rfl
  · have e5 : (1 - c2.radius / c1.radius) ^ 2 * c1.radius ^ 2 = |c1.radius - c2.radius| ^ 2 := by
      rw [sq_abs]; field_simp
    rw [e5, ← hd2] at e4
    have h1s : c1.radius ≠ c2.radius := by
      intro he
      apply hne
      ext1
      · rw [he, div_self p2.ne'] at e2; rw [e2]; ext <;> simp
      · exact he
    have : 0 < (1 - c2.radius / c1.radius) ^ 2 := by
      have : 1 - c2.radius / c1.radius ≠ 0 := by
        rw [sub_ne_zero]; intro he; rw [eq_div_iff p1.ne'] at he; apply h1s; linarith
      positivity
    constructor
    · intro hkn
      left
      have hpn : p < 0 := by
        by_contra hc; push Not at hc; nlinarith [mul_nonneg hsp.le hc]
      have : Spec.dist c1.center c2.center ^ 2 < |c1.radius - c2.radius| ^ 2 := by nlinarith
      exact lt_of_pow_lt_pow_left₀ 2 (abs_nonneg _) this
    · intro hkp
      left
      have hpn : 0 < p := by
        by_contra hc; push Not at hc; nlinarith [mul_nonneg hsp.le (neg_nonneg.2 hc)]
      have : |c1.radius - c2.radius| ^ 2 < Spec.dist c1.center c2.center ^ 2 := by nlinarith
      exact lt_of_pow_lt_pow_left₀ 2 hd0 this
  · have e5 : (1 - -(c2.radius / c1.radius)) ^ 2 * c1.radius ^ 2 = (c1.radius + c2.radius) ^ 2 := by
      field_simp; ring
    rw [e5, ← hd2] at e4
    have : 0 < (1 - -(c2.radius / c1.radius)) ^ 2 := by
      have : 0 < 1 - -(c2.radius / c1.radius) := by linarith
      positivity
    constructor
    · intro hkn
      right
      have hpn : 0 < p := by
        by_contra hc; push Not at hc; nlinarith [mul_nonneg hsp.le (neg_nonneg.2 hc)]
      have : (c1.radius + c2.radius) ^ 2 < Spec.dist c1.center c2.center ^ 2 := by nlinarith
      exact lt_of_pow_lt_pow_left₀ 2 hd0 this
    · intro hkp
      right
      have hpn : p < 0 := by
        by_contra hc; push Not at hc; nlinarith [mul_nonneg hsp.le hc]
      have : Spec.dist c1.center c2.center ^ 2 < (c1.radius + c2.radius) ^ 2 := by nlinarith
      exact lt_of_pow_lt_pow_left₀ 2 (by linarith) this

theorem invSwaps_of {O : Pt} {k s : ℝ} {c1 c2 : Circle} (hk : k ≠ 0)
    (hs : s * (sqDist c1.center O - c1.radius ^ 2) = k)
    (hC : c2.center = O + s • (c1.center - O)) (hr : c2.radius ^ 2 = s ^ 2 * c1.radius ^ 2) : InvSwaps O k c1 c2 := by
  have := inv_circle_image hk hs hC hr
  exact ⟨hk, this, this.symm hk⟩

theorem swap_ext {c1 c2 : Circle} (h1 : c1.Valid) (h2 : c2.Valid) (hne : c1.radius ≠ c2.radius) {O : Pt}
    (hO : O = c1.center - (c1.radius / c2.radius / (1 - c1.radius / c2.radius)) • (c2.center - c1.center)) {k : ℝ}
    (hk : k = c1.radius / c2.radius * (dot1_ (O - c2.center) - c2.radius * c2.radius)) (hk0 : k ≠ 0) :
    InvSwaps O k c1 c2 := by
  obtain ⟨a1, a2, a3⟩ := iext_rel (O₁ := c1.center) (O₂ := c2.center) h1 h2 hne
  rw [← hO] at a1 a2 a3
  have n1 : c1.radius ≠ 0 := ne_of_gt h1
  have n2 : c2.radius ≠ 0 := ne_of_gt h2
  refine invSwaps_of hk0 (s := c2.radius / c1.radius) ?_ a1 ?_
  · rw [hk, a2, a3]; field_simp
  · field_simp

theorem swap_int {c1 c2 : Circle} (h1 : c1.Valid) (h2 : c2.Valid) {O : Pt}
    (hO : O = c1.center + (c1.radius / c2.radius / (1 + c1.radius / c2.radius)) • (c2.center - c1.center)) {k : ℝ}
    (hk : k = -(c1.radius / c2.radius * (dot1_ (O - c2.center) - c2.radius * c2.radius))) (hk0 : k ≠ 0) :
    InvSwaps O k c1 c2 := by
  obtain ⟨a1, a2, a3⟩ := iint_rel (O₁ := c1.center) (O₂ := c2.center) h1 h2
  rw [← hO] at a1 a2 a3
  have n1 : c1.radius ≠ 0 := ne_of_gt h1
  have n2 : c2.radius ≠ 0 := ne_of_gt h2
  refine invSwaps_of hk0 (s := -(c2.radius / c1.radius)) ?_ a1 ?_
  · rw [hk, a2, a3]; field_simp
  · field_simp

/-- Sign of the power of the external center. -/
theorem ext_sign {c1 c2 : Circle} (h1 : c1.Valid) (h2 : c2.Valid) (hne : c1.radius ≠ c2.radius) :
    dot1_ ((c1.center - (c1.radius / c2.radius / (1 - c1.radius / c2.radius)) • (c2.center - c1.center)) - c2.center) -
      c2.radius * c2.radius = c2.radius ^ 2 / (c1.radius - c2.radius) ^ 2 *
        (Spec.dist c1.center c2.center ^ 2 - (c1.radius - c2.radius) ^ 2) := by
  obtain ⟨-, -, a3⟩ := iext_rel (O₁ := c1.center) (O₂ := c2.center) h1 h2 hne
  have : c1.radius - c2.radius ≠ 0 := sub_ne_zero.2 hne
  rw [a3, dist_sq]; field_simp

theorem int_sign {c1 c2 : Circle} (h1 : c1.Valid) (h2 : c2.Valid) :
    dot1_ ((c1.center + (c1.radius / c2.radius / (1 + c1.radius / c2.radius)) • (c2.center - c1.center)) - c2.center) -
      c2.radius * c2.radius = c2.radius ^ 2 / (c1.radius + c2.radius) ^ 2 *
        (Spec.dist c1.center c2.center ^ 2 - (c1.radius + c2.radius) ^ 2) := by
  obtain ⟨-, -, a3⟩ := iint_rel (O₁ := c1.center) (O₂ := c2.center) h1 h2
  have p1 : 0 < c1.radius := h1
  have p2 : 0 < c2.radius := h2
  have : c1.radius + c2.radius ≠ 0 := by positivity
  rw [a3, dist_sq]; field_simp

/-- C29: the returned inversion exchanges the two circles, and the sign of its power is the requested one whenever some
inversion of that sign exchanges the circles (for distinct circles). -/
theorem C29_swaps (c1 c2 : Circle) (h1 : c1.Valid) (h2 : c2.Valid) (positive : Bool)
    (hnt : ¬ (c1.radius = c2.radius ∧ Spec.dist c1.center c2.center = c1.radius + c2.radius)) :
    ∃ i, Inversion.from_swapping_two_circles c1 c2 positive = some i ∧ InvSwaps i.pole i.power c1 c2 ∧
      (c1 ≠ c2 → (∃ O k, InvSwaps O k c1 c2 ∧ (if positive = true then 0 < k else k < 0)) →
        (if positive = true then 0 < i.power else i.power < 0)) := by
  have p1 : 0 < c1.radius := h1
  have p2 : 0 < c2.radius := h2
  have hd0 := dist_nonneg c1.center c2.center
  have hd2 := dist_sq c1.center c2.center
  obtain ⟨d, hd⟩ : ∃ d, d = Spec.dist c1.center c2.center := ⟨_, rfl⟩
  have ha : 0 < c1.radius / c2.radius := div_pos p1 p2
  unfold Inversion.from_swapping_two_circles
  dsimp only
  rw [distance_eq]
  by_cases g1 : c1.radius = c2.radius
  · rw [if_pos g1]
    have e : dot1_ ((c1.center + c2.center) / (2 : ℝ) - c2.center) = d ^ 2 / 4 := by
      rw [hd, hd2]; simp [dot1_, dot_, sqDist]; ring
    have e' : sqDist c1.center ((c1.center + c2.center) / (2 : ℝ)) = d ^ 2 / 4 := by
      rw [hd, hd2]; simp [sqDist]; ring
    rw [e, ← hd]
    rw [← hd] at hd0 hnt
    have key : ∀ k, k ≠ 0 → k = -(d ^ 2 / 4 - c2.radius * c2.radius) →
        InvSwaps ((c1.center + c2.center) / (2 : ℝ)) k c1 c2 := by
      intro k hk0 hk
      refine invSwaps_of hk0 (s := -1) ?_ ?_ (by rw [g1]; ring)
      · rw [hk, e', g1]; ring
      · ext <;> simp <;> ring
    rcases lt_trichotomy d (c1.radius + c2.radius) with g2 | g2 | g2
    · rw [if_pos g2]
      have hn : d ^ 2 / 4 - c2.radius * c2.radius < 0 := by rw [g1] at g2; nlinarith
      refine ⟨_, rfl, key _ (abs_pos.2 hn.ne).ne' (by rw [abs_of_neg hn]), ?_⟩
      rintro hne ⟨O, k, hO, hk⟩
      have hsg := swap_signs h1 h2 hne hO
      rw [← hd] at hsg
      cases positive
      · simp only [Bool.false_eq_true, if_false] at hk ⊢
        rcases hsg.1 hk with h | h
        · rw [g1, sub_self, abs_zero] at h; linarith
        · linarith
      · simp only [if_true]; exact abs_pos.2 hn.ne
    · exact absurd ⟨g1, g2⟩ hnt
    · rw [if_neg (by linarith), if_pos g2]
      have hn : 0 < d ^ 2 / 4 - c2.radius * c2.radius := by rw [g1] at g2; nlinarith
      refine ⟨_, rfl, key _ (by simpa using hn.ne') (by rw [abs_of_pos hn]), ?_⟩
      rintro hne ⟨O, k, hO, hk⟩
      cases positive
      · simp only [Bool.false_eq_true, if_false]; rw [neg_lt_zero]; exact abs_pos.2 hn.ne'
      · simp only [if_true] at hk ⊢
        obtain ⟨hk0, hO', -⟩ := hO
        -- only the midpoint is possible, and its power is negative
        obtain ⟨s, hs, a1, a2⟩ := inv_circle_classify hk0 h1 h2 hO'
        rw [g1, div_self p2.ne'] at hs
        have hcc : c1.center ≠ c2.center := by
          intro h0; apply hne; ext1; exacts [h0, g1]
        rcases hs with rfl | rfl
        · exfalso; apply hcc; rw [a2]; ext <;> simp
        · exfalso
          have a3 : sqDist c1.center c2.center = 4 * sqDist c1.center O := by
            rw [a2]; simp [sqDist]; ring
          rw [← hd2, ← hd] at a3
          rw [g1] at a1
          nlinarith
  · rw [if_neg g1]
    have hq : c1.radius - c2.radius ≠ 0 := sub_ne_zero.2 g1
    have habs : max c1.radius c2.radius - min c1.radius c2.radius = |c1.radius - c2.radius| := max_sub_min_eq_abs' _ _
    have hpd : 0 < |c1.radius - c2.radius| := abs_pos.2 hq
    have es := ext_sign h1 h2 g1
    have is := int_sign h1 h2
    rw [← hd] at es is hd0
    have f1 : 0 < c2.radius ^ 2 / (c1.radius - c2.radius) ^ 2 := by positivity
    have f2 : 0 < c2.radius ^ 2 / (c1.radius + c2.radius) ^ 2 := by positivity
    have hsqabs : (c1.radius - c2.radius) ^ 2 = |c1.radius - c2.radius| ^ 2 := (sq_abs _).symm
    have habslt : |c1.radius - c2.radius| < c1.radius + c2.radius := by
      rw [abs_lt]; constructor <;> linarith
    rw [← hd]
    by_cases gp : positive = true ∨ ((¬ max c1.radius c2.radius ≥ d + min c1.radius c2.radius ∨
        (max c1.radius c2.radius ≥ d + min c1.radius c2.radius ∧ max c1.radius c2.radius = d + min c1.radius c2.radius)) ∧
        d ≤ c1.radius + c2.radius)
    · rw [if_pos gp]
      have hfin : ∀ i : Inversion, 0 < i.power → (c1 ≠ c2 → (∃ O k, InvSwaps O k c1 c2 ∧ (if positive = true then 0 < k else k < 0)) →
          (if positive = true then 0 < i.power else i.power < 0)) := by
        rintro i hi hne ⟨O, k, hO, hk⟩
        have hsg := swap_signs h1 h2 hne hO
        rw [← hd] at hsg
        cases positive
        · exfalso
          simp only [Bool.false_eq_true, if_false, false_or] at hk gp
          rcases hsg.1 hk with h | h
          · rcases gp.1 with h' | h'
            · push Not at h'; linarith
            · linarith [h'.2]
          · linarith [gp.2]
        · simpa using hi
      by_cases gi : max c1.radius c2.radius ≥ d + min c1.radius c2.radius
      · rw [if_pos gi]
        have hn : dot1_ ((c1.center + (c1.radius / c2.radius / (1 + c1.radius / c2.radius)) • (c2.center - c1.center)) - c2.center) -
            c2.radius * c2.radius < 0 := by
          rw [is]; apply mul_neg_of_pos_of_neg f2; nlinarith
        have hp := mul_pos ha (abs_pos.2 hn.ne)
        refine ⟨_, rfl, swap_int h1 h2 rfl ?_ hp.ne', hfin _ hp⟩
        rw [abs_of_neg hn]; ring
      · rw [if_neg gi]
        push Not at gi
        have hn : 0 < dot1_ ((c1.center - (c1.radius / c2.radius / (1 - c1.radius / c2.radius)) • (c2.center - c1.center)) - c2.center) -
            c2.radius * c2.radius := by
          rw [es]; apply mul_pos f1; rw [hsqabs]; nlinarith
        have hp := mul_pos ha (abs_pos.2 hn.ne')
        refine ⟨_, rfl, swap_ext h1 h2 g1 rfl ?_ hp.ne', hfin _ hp⟩
        rw [abs_of_pos hn]
    · rw [if_neg gp]
      push Not at gp
      obtain ⟨gp1, gp2⟩ := gp
      have hfin : ∀ i : Inversion, i.power < 0 → (c1 ≠ c2 → (∃ O k, InvSwaps O k c1 c2 ∧ (if positive = true then 0 < k else k < 0)) →
          (if positive = true then 0 < i.power else i.power < 0)) := by
        rintro i hi - -
        simpa [gp1] using hi
      by_cases gi : max c1.radius c2.radius ≥ d + min c1.radius c2.radius
      · rw [if_pos gi]
        have hlt : d < |c1.radius - c2.radius| := by
          rcases lt_or_eq_of_le gi with h | h
          · linarith
          · have := gp2 (Or.inr ⟨gi, h.symm⟩); linarith
        have hn : dot1_ ((c1.center - (c1.radius / c2.radius / (1 - c1.radius / c2.radius)) • (c2.center - c1.center)) - c2.center) -
            c2.radius * c2.radius < 0 := by
          rw [es]; apply mul_neg_of_pos_of_neg f1; rw [hsqabs]; nlinarith
        have hp : -(c1.radius / c2.radius) * |dot1_ ((c1.center - (c1.radius / c2.radius / (1 - c1.radius / c2.radius)) • (c2.center - c1.center)) - c2.center) -
            c2.radius * c2.radius| < 0 := by
          have := mul_pos ha (abs_pos.2 hn.ne); linarith
        refine ⟨_, rfl, swap_ext h1 h2 g1 rfl ?_ hp.ne, hfin _ hp⟩
        rw [abs_of_neg hn]; ring
      · rw [if_neg gi]
        have hlt := gp2 (Or.inl (by push Not at gi; exact gi))
        have hn : 0 < dot1_ ((c1.center + (c1.radius / c2.radius / (1 + c1.radius / c2.radius)) • (c2.center - c1.center)) - c2.center) -
            c2.radius * c2.radius := by
          rw [is]; apply mul_pos f2; nlinarith
        have hp : -(c1.radius / c2.radius) * |dot1_ ((c1.center + (c1.radius / c2.radius / (1 + c1.radius / c2.radius)) • (c2.center - c1.center)) - c2.center) -
            c2.radius * c2.radius| < 0 := by
          have := mul_pos ha (abs_pos.2 hn.ne'); linarith
        refine ⟨_, rfl, swap_int h1 h2 rfl ?_ hp.ne, hfin _ hp⟩
        rw [abs_of_pos hn]; ring

/-- C29: the excluded case.  Congruent tangent circles give `None` (the documentation announces a `Reflection`). -/
theorem C29_tangent_none (c1 c2 : Circle) (positive : Bool) (h : c1.radius = c2.radius)
    (hd : Spec.dist c1.center c2.center = c1.radius + c2.radius) :
    Inversion.from_swapping_two_circles c1 c2 positive = none := by
  unfold Inversion.from_swapping_two_circles
  dsimp only
  rw [distance_eq, hd, if_pos h]
  simp

/-- C29, a limit: for equal circles a negative inversion exists but a positive one is always returned. -/
theorem C29_equal_circles_counterexample :
    InvSwaps (⟨0, 0⟩ : Pt) (-1) ⟨⟨0, 0⟩, 1⟩ ⟨⟨0, 0⟩, 1⟩ ∧
    Inversion.from_swapping_two_circles ⟨⟨0, 0⟩, 1⟩ ⟨⟨0, 0⟩, 1⟩ false = some ⟨⟨0, 0⟩, 1⟩ := by
  constructor
  · refine invSwaps_of (by norm_num) (s := 1) ?_ ?_ (by norm_num)
    · simp [sqDist]
    · ext <;> simp
  · unfold Inversion.from_swapping_two_circles
    dsimp only
    rw [if_pos rfl, distance_eq, if_pos]
    · congr 1; ext <;> simp [dot1_, dot_]
    · rw [(dist_eq_iff le_rfl).2]
      · norm_num
      · simp [sqDist]

/-- Two circles of radii 1 and 2 are exchanged by an inversion of positive power; two tangent circles of radius 1 by
none. -/
example : (∃ i, Inversion.from_swapping_two_circles ⟨⟨0, 0⟩, 1⟩ ⟨⟨5, 0⟩, 2⟩ true = some i ∧
      InvSwaps i.pole i.power ⟨⟨0, 0⟩, 1⟩ ⟨⟨5, 0⟩, 2⟩) ∧
    Inversion.from_swapping_two_circles ⟨⟨0, 0⟩, 1⟩ ⟨⟨2, 0⟩, 1⟩ true = none := by
  obtain ⟨i, h1, h2, -⟩ := C29_swaps ⟨⟨0, 0⟩, 1⟩ ⟨⟨5, 0⟩, 2⟩ (by unfold Circle.Valid; norm_num)
    (by unfold Circle.Valid; norm_num) true (by norm_num)
  refine ⟨⟨i, h1, h2⟩, C29_tangent_none _ _ _ rfl ?_⟩
  rw [dist_eq_iff (by norm_num)]; norm_num [sqDist]

example : (⟨⟨0, 0⟩, 1⟩ : Circle) ≠ ⟨⟨1, 0⟩, 5⟩ ∧
    ∃ O k, InvSwaps O k (⟨⟨0, 0⟩, 1⟩ : Circle) ⟨⟨1, 0⟩, 5⟩ ∧ k < 0 := by
  refine ⟨by intro h; have := congrArg Circle.radius h; norm_num at this, ⟨-1 / 4, 0⟩, -75 / 16, ?_, by norm_num⟩
  refine invSwaps_of (by norm_num) (s := 5) ?_ ?_ (by norm_num)
  · norm_num [sqDist]
  · ext <;> norm_num

/-! ## C30 -/

theorem inv_fixes {O C : Pt} {r k : ℝ} (hk : k ≠ 0) (h : k = specPower C r O) :
    InvMapsOnto O k (OnCircle C r) (OnCircle C r) := by
  refine inv_circle_image hk (s := 1) ?_ ?_ (by ring)
  · rw [h, specPower, sqDist_comm]; ring
  · ext <;> simp

theorem power_eq (c : Circle) (P : Pt) : c.power P = specPower c.center c.radius P := by
  unfold Circle.power specPower; rw [dot1_eq]; ring

/-- C30: the inversion fixing two circles with distinct centers. -/
theorem C30_fixing_two (c1 c2 : Circle) (h : c1.center ≠ c2.center) :
    ∃ i, Inversion.from_fixing_two_circles c1 c2 = .ok i ∧ (i.power ≠ 0 →
      InvMapsOnto i.pole i.power (OnCircle c1.center c1.radius) (OnCircle c1.center c1.radius) ∧
      InvMapsOnto i.pole i.power (OnCircle c2.center c2.radius) (OnCircle c2.center c2.radius)) := by
  obtain ⟨R, hR, -, he⟩ := C15_radical_center c1 c2 h
  refine ⟨⟨R, c1.power R⟩, ?_, ?_⟩
  · unfold Inversion.from_fixing_two_circles; rw [hR]; rfl
  · intro hk
    exact ⟨inv_fixes hk (power_eq _ _), inv_fixes hk (by rw [← he]; exact power_eq _ _)⟩

/-- C30: concentric circles give no finite pole. -/
theorem C30_fixing_two_concentric (c1 c2 : Circle) (h : c1.center = c2.center) :
    Inversion.from_fixing_two_circles c1 c2 = .error .nonFinite := by
  unfold Inversion.from_fixing_two_circles; rw [C15_radical_center_concentric c1 c2 h]; rfl

/-- Two circles apart are fixed by the inversion found; concentric circles raise no exception but give infinities. -/
example : (∃ i, Inversion.from_fixing_two_circles ⟨⟨0, 0⟩, 1⟩ ⟨⟨4, 0⟩, 1⟩ = .ok i ∧ (i.power ≠ 0 →
      InvMapsOnto i.pole i.power (OnCircle ⟨0, 0⟩ 1) (OnCircle ⟨0, 0⟩ 1))) ∧
    Inversion.from_fixing_two_circles ⟨⟨4, 0⟩, 2⟩ ⟨⟨4, 0⟩, 1⟩ = .error .nonFinite := by
  obtain ⟨i, h1, h2⟩ := C30_fixing_two ⟨⟨0, 0⟩, 1⟩ ⟨⟨4, 0⟩, 1⟩ (by simp)
  exact ⟨⟨i, h1, fun h => (h2 h).1⟩, C30_fixing_two_concentric _ _ rfl⟩

/-- C30: the inversion fixing three circles. -/
theorem C30_fixing_three (c1 c2 c3 : Circle) (i : Inversion)
    (h : Inversion.from_fixing_three_circles c1 c2 c3 = .ok i) (hk : i.power ≠ 0) :
    InvMapsOnto i.pole i.power (OnCircle c1.center c1.radius) (OnCircle c1.center c1.radius) ∧
    InvMapsOnto i.pole i.power (OnCircle c2.center c2.radius) (OnCircle c2.center c2.radius) ∧
    InvMapsOnto i.pole i.power (OnCircle c3.center c3.radius) (OnCircle c3.center c3.radius) := by
  unfold Inversion.from_fixing_three_circles at h
  simp only [Res.bind_ok] at h
  obtain ⟨o, ho, h⟩ := h
  cases o with
  | none => simp at h
  | some R =>
    simp only [Res.pure_ok] at h
    subst h
    obtain ⟨⟨e1, e2⟩, -⟩ := C16_radical_center_three c1 c2 c3 R ho
    exact ⟨inv_fixes hk (power_eq _ _), inv_fixes hk (by rw [← e1]; exact power_eq _ _),
      inv_fixes hk (by rw [← e2]; exact power_eq _ _)⟩

example : ∃ i, Inversion.from_fixing_two_circles ⟨⟨0, 0⟩, 1⟩ ⟨⟨4, 0⟩, 1⟩ = .ok i ∧ i.power ≠ 0 := by
  refine ⟨⟨⟨2, 0⟩, 3⟩, ?_, by norm_num⟩
  unfold Inversion.from_fixing_two_circles Circle.radical_center Circle.power
  dsimp only
  rw [if_neg (by norm_num [dot1_, dot_]), Res.ok_bind, Res.pure_ok]
  ext <;> norm_num [dot1_, dot_]
