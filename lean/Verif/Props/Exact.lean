import Verif.Props.InvLine
import Verif.Props.InvCompose
import Verif.Props.Transforms
import Verif.Props.Projection

/-!
# The exact sets of failures of some properties

For several properties that fail near a tolerance test the theorems of this file say exactly for which inputs they hold.
-/

open Spec Real Classical

/-! ## C09, C10, C59: reflections and projections -/

/-- C09, exactly: `transform` returns the mirror image of `P` iff `P` is on the line, or neither the defining points nor the foot `H` of
the perpendicular is `np.allclose` to `P`. -/
theorem C09_exact (R : Reflection) (hR : R.line.Valid) (P H : Pt) (hH : OnLine R.line.A R.line.B H)
    (hp : Perp (P - H) (R.line.B - R.line.A)) :
    (∃ Q, R.transformPt P = .ok Q ∧ IsMirror R.line.A R.line.B P Q) ↔
      OnLine R.line.A R.line.B P ∨ (¬ allclose R.line.A P ∧ ¬ allclose R.line.B P ∧ ¬ allclose H P) := by
  have hne := ne_of_not_allclose hR
  constructor
  · rintro ⟨Q, hQ, hm⟩
    by_cases hon : OnLine R.line.A R.line.B P
    · exact Or.inl hon
    · right
      cases hi : R.line.includes P with
      | true =>
        have hQP := (C09_reflection_mirror R hR P Q hQ).1 hi
        rw [hQP] at hm
        exfalso
        apply hon
        have := hm.1
        have e : (P + P) / (2 : ℝ) = P := by ext <;> simp
        rwa [e] at this
      | false =>
        have hn : ¬ R.line.includes P = true := by simp [hi]
        rw [C05_includes _ hR] at hn
        push Not at hn
        refine ⟨hn.2.1, hn.2.2, fun hc => ?_⟩
        obtain ⟨e, he⟩ := (C09_reflection_total R hR P hi H hH hp).1 hc
        rw [hQ] at he
        cases he
  · rintro (hon | ⟨h1, h2, h3⟩)
    · exact ⟨P, C09_reflection_fixes_line R hR P hon⟩
    · by_cases hon : OnLine R.line.A R.line.B P
      · exact ⟨P, C09_reflection_fixes_line R hR P hon⟩
      · have hi : R.line.includes P = false := by
          rw [← Bool.not_eq_true, C05_includes _ hR]
          tauto
        exact (C09_reflection_total R hR P hi H hH hp).2 h3

/-- C09, exactly: for a point with a mirror image `Q` that is returned, reflecting `Q` gives back `P` iff `P` is on the line or neither the
defining points nor the foot of the perpendicular is `np.allclose` to `Q`. -/
theorem C09_involution_exact (R : Reflection) (hR : R.line.Valid) (P Q H : Pt) (hH : OnLine R.line.A R.line.B H)
    (hp : Perp (P - H) (R.line.B - R.line.A)) (h : R.transformPt P = .ok Q) (hm : IsMirror R.line.A R.line.B P Q) :
    R.transformPt Q = .ok P ↔
      OnLine R.line.A R.line.B P ∨ (¬ allclose R.line.A Q ∧ ¬ allclose R.line.B Q ∧ ¬ allclose H Q) := by
  have hne := ne_of_not_allclose hR
  have hmid : ∀ X Y : Pt, IsMirror R.line.A R.line.B X Y → IsMirror R.line.A R.line.B Y X := by
    rintro X Y ⟨a, b⟩
    refine ⟨by rwa [show (Y + X) / (2 : ℝ) = (X + Y) / (2 : ℝ) by ext <;> simp [add_comm]], ?_⟩
    simp only [Perp, dot, Pt.sub_x, Pt.sub_y] at b ⊢
    linarith
  have hself : ∀ X : Pt, IsMirror R.line.A R.line.B X X → OnLine R.line.A R.line.B X := by
    rintro X ⟨a, -⟩
    rwa [show (X + X) / (2 : ℝ) = X by ext <;> simp] at a
  have hpQ : Perp (Q - H) (R.line.B - R.line.A) := by
    have h2 := hm.2
    simp only [Perp, dot, Pt.sub_x, Pt.sub_y] at h2 hp ⊢
    linarith
  have hex := C09_exact R hR Q H hH hpQ
  have hQon : OnLine R.line.A R.line.B Q ↔ OnLine R.line.A R.line.B P := by
    constructor
    · intro hq
      have h1 := (C09_reflection_fixes_line R hR Q hq).2
      have := mirror_unique hne h1 (hmid _ _ hm)
      rw [← this]; exact hq
    · intro hq
      have h1 := (C09_reflection_fixes_line R hR P hq).2
      have := mirror_unique hne h1 hm
      rw [← this]; exact hq
  rw [hQon] at hex
  rw [← hex]
  constructor
  · intro hr
    exact ⟨P, hr, hmid _ _ hm⟩
  · rintro ⟨X, hX, hmX⟩
    rw [hX, mirror_unique hne hmX (hmid _ _ hm)]

/-- C10, exactly: `transform` agrees with `as_affine` at `P` iff `P` is on the line or neither the defining points nor the foot of the
perpendicular is `np.allclose` to `P`. -/
theorem C10_exact (R : Reflection) (hR : R.line.Valid) (f : Affine) (hf : R.as_affine = .ok f) (P H : Pt)
    (hH : OnLine R.line.A R.line.B H) (hp : Perp (P - H) (R.line.B - R.line.A)) :
    R.transformPt P = .ok (f.transform P) ↔
      OnLine R.line.A R.line.B P ∨ (¬ allclose R.line.A P ∧ ¬ allclose R.line.B P ∧ ¬ allclose H P) := by
  obtain ⟨g, hg, hm⟩ := C10_as_affine R hR
  rw [hf, Except.ok.injEq] at hg
  subst hg
  rw [← C09_exact R hR P H hH hp]
  constructor
  · intro h; exact ⟨_, h, hm P⟩
  · rintro ⟨Q, hQ, hmQ⟩
    rw [hQ, mirror_unique (ne_of_not_allclose hR) hmQ (hm P)]

/-- C59, exactly: `project` returns the projection of `M` iff `M` is on the line or not `np.allclose` to a defining point. -/
theorem C59_exact (p : Projection) (hp : p.Valid) (hpar : ¬ Parallel (p.D.B - p.D.A) p.u) (M : Pt) :
    (∃ Q, p.project M = .ok Q ∧ IsProjection p.D.A p.D.B p.u M Q) ↔
      OnLine p.D.A p.D.B M ∨ (¬ allclose p.D.A M ∧ ¬ allclose p.D.B M) := by
  constructor
  · rintro ⟨Q, hQ, hm⟩
    by_cases hon : OnLine p.D.A p.D.B M
    · exact Or.inl hon
    · right
      cases hi : p.D.includes M with
      | true =>
        unfold Projection.project at hQ
        rw [if_pos hi, Except.ok.injEq] at hQ
        rw [← hQ] at hm
        exact absurd hm.1 hon
      | false =>
        have hn : ¬ p.D.includes M = true := by simp [hi]
        rw [C05_includes _ hp.1] at hn
        tauto
  · intro h
    exact C59_project_partial p hp hpar M (by unfold Projection.ExactAt; tauto)

/-! ## C24 to C28: inversions -/

/-- C24, exactly: inverting twice gives `M` back iff `M` is the pole, or neither `M` nor its inverse is `np.allclose` to the pole. -/
theorem C24_exact (iota : Inversion) (hk : iota.power ≠ 0) (M : Pt) :
    iota.invert (iota.invert (.fin M)) = .fin M ↔
      M = iota.pole ∨ (¬ allclose iota.pole M ∧ ∀ N, IsInverse iota.pole iota.power M N → ¬ allclose iota.pole N) := by
  by_cases hc : allclose iota.pole M
  · have : iota.invert (.fin M) = .inf := by
      unfold Inversion.invert; dsimp only; rw [if_pos hc]
    rw [this, (C24_invert_inf iota).1, XPt.fin.injEq]
    constructor
    · intro h; exact Or.inl h.symm
    · rintro (h | ⟨h, -⟩)
      · exact h.symm
      · exact absurd hc h
  · obtain ⟨N, e, -, -, hi⟩ := C24_invert iota M hc
    constructor
    · intro h
      right
      refine ⟨hc, fun N' hN' hcN => ?_⟩
      rw [e, isInverse_unique hi hN'] at h
      have : iota.invert (.fin N') = .inf := by
        unfold Inversion.invert; dsimp only; rw [if_pos hcN]
      rw [this] at h
      cases h
    · rintro (h | ⟨-, h⟩)
      · exact absurd (h ▸ allclose_refl _) hc
      · exact C24_involution_partial iota hk M N e (h N hi)

/-- The points of a circle or line object. -/
def Spec.GSet : GCircle → Pt → Prop
  | .circle c => OnCircle c.center c.radius
  | .line l => OnLine l.A l.B

/-- A line is not the image of a circle that does not go through the pole. -/
theorem circle_image_not_line {O C A B : Pt} {k r : ℝ} (hk : k ≠ 0) (hr : 0 < r) (hD : sqDist C O - r ^ 2 ≠ 0) (hAB : A ≠ B) :
    ¬ InvMapsOnto O k (OnCircle C r) (OnLine A B) := by
  intro h
  obtain ⟨D, hDe⟩ : ∃ D, D = sqDist C O - r ^ 2 := ⟨_, rfl⟩
  rw [← hDe] at hD
  obtain ⟨s, hs⟩ : ∃ s, s = k / D := ⟨_, rfl⟩
  have hs0 : s ≠ 0 := by rw [hs]; exact div_ne_zero hk hD
  have him : InvMapsOnto O k (OnCircle C r) (OnCircle (O + s • (C - O)) (|s| * r)) := by
    refine inv_circle_image hk (s := s) ?_ rfl ?_
    · rw [← hDe, hs]; field_simp
    · simp only [mul_pow, sq_abs]
  have hr' : 0 < |s| * r := mul_pos (abs_pos.2 hs0) hr
  obtain ⟨C', hC'⟩ : ∃ C', C' = O + s • (C - O) := ⟨_, rfl⟩
  obtain ⟨r', hre⟩ : ∃ r', r' = |s| * r := ⟨_, rfl⟩
  have hO : ¬ OnCircle C' r' O := by
    intro ho
    apply hD
    have e : sqDist O C' = s ^ 2 * sqDist C O := by rw [hC']; unfold sqDist; simp; ring
    unfold OnCircle at ho
    rw [e, hre, mul_pow, sq_abs] at ho
    have : s ^ 2 * D = 0 := by rw [hDe]; linear_combination ho
    exact (mul_eq_zero.1 this).resolve_left (pow_ne_zero 2 hs0)
  have hsub : ∀ Q, OnCircle C' r' Q → OnLine A B Q := by
    intro Q hQ
    have hQO : Q ≠ O := by rintro rfl; exact hO hQ
    obtain ⟨P, hP⟩ := isInverse_exists k hQO
    have hP' := isInverse_symm hk hP
    refine (h P Q hP').1 ((him P Q hP').2 ?_)
    rw [← hC', ← hre]; exact hQ
  have a1 := hsub (⟨C'.x + r', C'.y⟩ : Pt) (by unfold OnCircle sqDist; simp)
  have a2 := hsub (⟨C'.x - r', C'.y⟩ : Pt) (by unfold OnCircle sqDist; simp)
  have a3 := hsub (⟨C'.x, C'.y + r'⟩ : Pt) (by unfold OnCircle sqDist; simp)
  rw [onLine_iff_cross hAB] at a1 a2 a3
  simp only [cross, Pt.sub_x, Pt.sub_y] at a1 a2 a3
  rw [← hre] at hr'
  have y0 : B.y - A.y = 0 := by
    have : (B.y - A.y) * (2 * r') = 0 := by linear_combination a2 - a1
    exact (mul_eq_zero.1 this).resolve_right (by positivity)
  have x0 : B.x - A.x = 0 := by
    have : (B.x - A.x) * r' = 0 := by rw [y0] at a1 a3; linear_combination a3 - a1
    exact (mul_eq_zero.1 this).resolve_right (by positivity)
  exact hAB (by ext <;> linarith)

/-- C25, exactly: what `invert_circle` returns is the image of the circle iff the pole is exactly on the circle or is away from it beyond
the tolerance. -/
theorem C25_exact (iota : Inversion) (hk : iota.power ≠ 0) (c : Circle) (hc : c.Valid) (g : GCircle) (h : iota.invert_circle c = .ok g) :
    InvMapsOnto iota.pole iota.power (OnCircle c.center c.radius) (GSet g) ↔
      OnCircle c.center c.radius iota.pole ∨ 1 / 2 ^ 26 < |sqDist c.center iota.pole - c.radius ^ 2| := by
  have eD : (c.center.x - iota.pole.x) ^ 2 + (c.center.y - iota.pole.y) ^ 2 - c.radius * c.radius =
      sqDist c.center iota.pole - c.radius ^ 2 := by unfold sqDist; ring
  by_cases hbig : 1 / 2 ^ 26 < |sqDist c.center iota.pole - c.radius ^ 2|
  · obtain ⟨c', e, -, hm⟩ := C25_invert_circle iota hk c hc hbig
    rw [h, Except.ok.injEq] at e
    subst e
    exact ⟨fun _ => Or.inr hbig, fun _ => hm⟩
  · by_cases hon : OnCircle c.center c.radius iota.pole
    · obtain ⟨l, rfl, -, -, -, hm⟩ := C25_invert_circle_through_pole iota hk c hc hon g h
      exact ⟨fun _ => Or.inl hon, fun _ => hm⟩
    · refine ⟨fun hm => ?_, fun h => absurd h (by tauto)⟩
      exfalso
      unfold Inversion.invert_circle at h
      dsimp only at h
      rw [eD, if_neg (show ¬ |sqDist c.center iota.pole - c.radius ^ 2| > sepsilon_ from hbig)] at h
      simp only [Res.bind_ok, Res.pure_ok] at h
      obtain ⟨l, hl, rfl⟩ := h
      have hv : l.A ≠ l.B := by
        cases e1 : iota.invert (.fin (c.center - (iota.pole - c.center))) with
        | inf => rw [e1] at hl; simp [mkLineX] at hl
        | fin A =>
        cases e2 : iota.invert (.fin ((⟨-(iota.pole - c.center).y, (iota.pole - c.center).x⟩ : Pt) + c.center)) with
        | inf => rw [e1, e2] at hl; simp [mkLineX] at hl
        | fin B =>
        rw [e1, e2] at hl
        simp only [mkLineX] at hl
        exact ne_of_not_allclose (mkLine_valid hl)
      refine circle_image_not_line hk hc ?_ hv hm
      intro h0
      apply hon
      unfold OnCircle
      rw [sqDist_comm]
      linarith

/-- A line is not its own image when it does not go through the pole. -/
theorem line_image_not_self {O A B : Pt} {k : ℝ} (hAB : A ≠ B) (hO : ¬ OnLine A B O) : ¬ InvMapsOnto O k (OnLine A B) (OnLine A B) := by
  intro h
  have key : ∀ P, OnLine A B P → dot (P - O) (P - O) = k := by
    intro P hP
    have hPO : P ≠ O := by rintro rfl; exact hO hP
    obtain ⟨Q, hQ⟩ := isInverse_exists k hPO
    have hQl := (h P Q hQ).1 hP
    obtain ⟨-, e⟩ := isInverse_iff.1 hQ
    have hd : dot (P - O) (P - O) ≠ 0 := by
      have := sqDist_pos hPO
      simp only [dot, sqDist, Pt.sub_x, Pt.sub_y] at this ⊢
      nlinarith
    rw [onLine_iff_cross hAB] at hO hP hQl
    obtain ⟨t, ht⟩ : ∃ t, t = k / dot (P - O) (P - O) := ⟨_, rfl⟩
    rw [← ht] at e
    have hx : Q.x = O.x + t * (P.x - O.x) := by rw [e]; simp
    have hy : Q.y = O.y + t * (P.y - O.y) := by rw [e]; simp
    have h1 : (1 - t) * cross (B - A) (O - A) = 0 := by
      simp only [cross, Pt.sub_x, Pt.sub_y] at hP hQl ⊢
      rw [hx, hy] at hQl
      linear_combination hQl - t * hP
    have ht1 : t = 1 := by
      have := (mul_eq_zero.1 h1).resolve_right hO
      linarith
    rw [ht1] at ht
    field_simp at ht
    exact ht
  have kA := key A ⟨0, by ext <;> simp⟩
  have kB := key B ⟨1, by ext <;> simp⟩
  have kM := key ⟨(A.x + B.x) / 2, (A.y + B.y) / 2⟩ ⟨1 / 2, by ext <;> simp <;> ring⟩
  have hp := sqDist_pos hAB
  simp only [dot, sqDist, Pt.sub_x, Pt.sub_y] at kA kB kM hp
  nlinarith

/-- C26, exactly: the image of the line is returned iff the line goes through the pole or none of its defining points is `np.allclose` to
the pole, in either order. -/
theorem C26_exact (iota : Inversion) (hk : iota.power ≠ 0) (l : Line) (hl : l.Valid) :
    (∃ g, iota.invert_line l = .ok (some g) ∧ InvMapsOnto iota.pole iota.power (OnLine l.A l.B) (GSet g)) ↔
      OnLine l.A l.B iota.pole ∨ (¬ allclose l.A iota.pole ∧ ¬ allclose l.B iota.pole ∧
        ¬ allclose iota.pole l.A ∧ ¬ allclose iota.pole l.B) := by
  have hne := ne_of_not_allclose hl
  constructor
  · rintro ⟨g, hg, hm⟩
    by_cases hon : OnLine l.A l.B iota.pole
    · exact Or.inl hon
    · right
      have hcl := collinear_of_valid hl iota.pole
      unfold Inversion.invert_line at hg
      dsimp only at hg
      by_cases hcol : collinear_ l.A l.B iota.pole
      · rw [if_pos hcol, Except.ok.injEq, Option.some.injEq] at hg
        subst hg
        exfalso
        exact line_image_not_self hne hon hm
      · rw [if_neg hcol] at hg
        rw [hcl] at hcol
        have hA' : ¬ allclose iota.pole l.A := by
          intro h
          have : iota.invert (.fin l.A) = .inf := by
            unfold Inversion.invert; dsimp only; rw [if_pos h]
          rw [this] at hg
          simp at hg
        have hB' : ¬ allclose iota.pole l.B := by
          intro h
          have : iota.invert (.fin l.B) = .inf := by
            unfold Inversion.invert; dsimp only; rw [if_pos h]
          obtain ⟨A', e, -⟩ := C24_invert iota l.A hA'
          rw [this, e] at hg
          simp at hg
        tauto
  · rintro (hon | ⟨h1, h2, h3, h4⟩)
    · exact ⟨_, C26_through_pole iota hk l hl hon⟩
    · by_cases hon : OnLine l.A l.B iota.pole
      · exact ⟨_, C26_through_pole iota hk l hl hon⟩
      · obtain ⟨c, e, -, -, hm⟩ := C26_invert_line_partial iota hk l hl hon h1 h2 h3 h4
        exact ⟨_, e, hm⟩

theorem isXInverse_unique {O : Pt} {k : ℝ} {M N N' : XPt} (h : IsXInverse O k M N) (h' : IsXInverse O k M N') : N = N' := by
  cases M <;> cases N <;> cases N' <;> simp only [IsXInverse] at h h'
  · rw [isInverse_unique h h']
  · exact absurd h' h.1
  · exact absurd h h'.1
  · rfl
  · rw [h, h']

theorem isXInverse_exists {O : Pt} {k : ℝ} (M : XPt) : ∃ N, IsXInverse O k M N := by
  cases M with
  | inf => exact ⟨.fin O, rfl⟩
  | fin P =>
    by_cases h : P = O
    · exact ⟨.inf, h⟩
    · obtain ⟨Q, hQ⟩ := isInverse_exists k h
      exact ⟨.fin Q, hQ⟩

/-- C28, exactly: the composition agrees with `invert` after `invert` at `M` iff neither `M` nor its image by the first inversion is a
point different from the pole and `np.allclose` to it. -/
theorem C28_exact (iota1 iota2 : Inversion) (h1 : iota1.power ≠ 0) (h2 : iota2.power ≠ 0) (M : XPt) :
    (iota1.compose iota2).transform M = .ok (iota2.invert (iota1.invert M)) ↔ ExactAt iota1 M ∧ ExactAt iota2 (iota1.invert M) := by
  refine ⟨fun h => ?_, fun ⟨a, b⟩ => (C28_compose_invert_partial iota1 iota2 h1 h2 M).1 a b⟩
  obtain ⟨N, hN⟩ := isXInverse_exists (O := iota1.pole) (k := iota1.power) M
  obtain ⟨K, hK⟩ := isXInverse_exists (O := iota2.pole) (k := iota2.power) N
  have hc := (C28_compose iota1 iota2 h1 h2).1.2 M N K hN hK
  rw [hc, Except.ok.injEq] at h
  have near : ∀ (i : Inversion) (X : XPt), ¬ ExactAt i X → i.invert X = .inf ∧ ∃ P, X = .fin P ∧ P ≠ i.pole := by
    intro i X hX
    unfold ExactAt at hX
    push Not at hX
    obtain ⟨P, rfl, ha, hne⟩ := hX
    refine ⟨?_, P, rfl, hne⟩
    unfold Inversion.invert; dsimp only; rw [if_pos ha]
  by_cases a : ExactAt iota1 M
  · refine ⟨a, ?_⟩
    have hN' := isXInverse_unique hN (invert_exact _ _ a)
    by_contra b
    obtain ⟨e, P, hP, hne⟩ := near _ _ b
    rw [e] at h
    rw [hN', hP, h] at hK
    exact hne hK
  · exfalso
    obtain ⟨e, P, rfl, hne⟩ := near _ _ a
    rw [e, (C24_invert_inf iota2).1] at h
    rw [h] at hK
    cases N with
    | inf => exact hne hN
    | fin N =>
      have := isInverse_symm h2 hK
      exact this.1 rfl

/-- The conditions are met, and are not met, by concrete points. -/
example : (¬ allclose (⟨0, 0⟩ : Pt) ⟨2, 0⟩ ∧ ∀ N, IsInverse ⟨0, 0⟩ 1 ⟨2, 0⟩ N → ¬ allclose (⟨0, 0⟩ : Pt) N) ∧
    allclose (⟨0, 0⟩ : Pt) ⟨1 / 10 ^ 9, 0⟩ := by
  refine ⟨⟨by unfold allclose npClose; norm_num [abs_of_pos], ?_⟩, by unfold allclose npClose; norm_num [abs_of_pos]⟩
  rintro ⟨x, y⟩ ⟨-, h1, h2⟩
  simp only [cross, dot, Pt.sub_x, Pt.sub_y] at h1 h2
  have hx : x = 1 / 2 := by linarith
  unfold allclose npClose
  rw [hx]
  norm_num [abs_of_pos]

/-- The reflection in the line through `(0, 0)` and `(4, 2)`: `(0, 5)` is mirrored and comes back. -/
example : ∃ Q, (⟨⟨⟨0, 0⟩, ⟨4, 2⟩, true, true⟩⟩ : Reflection).transformPt ⟨0, 5⟩ = .ok Q ∧
    IsMirror ⟨0, 0⟩ ⟨4, 2⟩ ⟨0, 5⟩ Q ∧ (⟨⟨⟨0, 0⟩, ⟨4, 2⟩, true, true⟩⟩ : Reflection).transformPt Q = .ok ⟨0, 5⟩ := by
  have hH : OnLine (⟨0, 0⟩ : Pt) ⟨4, 2⟩ ⟨2, 1⟩ := ⟨1 / 2, by ext <;> norm_num⟩
  have hp : Perp ((⟨0, 5⟩ : Pt) - ⟨2, 1⟩) ((⟨4, 2⟩ : Pt) - ⟨0, 0⟩) := by norm_num [Perp, dot]
  obtain ⟨Q, h, hm⟩ := (C09_exact ⟨⟨⟨0, 0⟩, ⟨4, 2⟩, true, true⟩⟩ (Ex.valid _ _) ⟨0, 5⟩ ⟨2, 1⟩ hH hp).2
    (Or.inr ⟨by unfold allclose npClose; norm_num [abs_of_pos], by unfold allclose npClose; norm_num [abs_of_pos],
      by unfold allclose npClose; norm_num [abs_of_pos]⟩)
  have e : Q = ⟨4, -3⟩ := mirror_unique (by simp) hm Ex.mirror
  subst e
  refine ⟨_, h, hm, (C09_involution_exact _ (Ex.valid _ _) _ _ _ hH hp h hm).2 (Or.inr ⟨?_, ?_, ?_⟩)⟩ <;>
    (unfold allclose npClose; norm_num [abs_of_pos])

/-- A point of the line that is `np.allclose` to `(0, 0)` without being on the line is left unchanged, and the matrix
of the reflection does not agree. -/
example (f : Affine) (hf : (⟨⟨⟨0, 0⟩, ⟨4, 2⟩, true, true⟩⟩ : Reflection).as_affine = .ok f) :
    (⟨⟨⟨0, 0⟩, ⟨4, 2⟩, true, true⟩⟩ : Reflection).transformPt ⟨-1 / 10 ^ 9, 2 / 10 ^ 9⟩ ≠
      .ok (f.transform ⟨-1 / 10 ^ 9, 2 / 10 ^ 9⟩) := by
  rw [ne_eq, C10_exact _ (Ex.valid _ _) f hf _ ⟨0, 0⟩ (onLine_left _ _) (by norm_num [Perp, dot])]
  rintro (⟨t, h⟩ | ⟨h, -⟩)
  · have hx := congrArg Pt.x h
    have hy := congrArg Pt.y h
    norm_num at hx hy
    linarith
  · apply h; unfold allclose npClose; norm_num [abs_of_pos]

/-- The projection on the horizontal axis along the diagonal: `(3, 2)` has an image on the axis. -/
example (p : Projection) (hp : p.Valid) (hA : p.D.A = ⟨0, 0⟩) (hB : p.D.B = ⟨4, 0⟩) (hu : p.u = ⟨1, 1⟩) :
    ∃ Q, p.project ⟨3, 2⟩ = .ok Q ∧ Q = ⟨1, 0⟩ := by
  obtain ⟨Q, h, hl, hq⟩ := (C59_exact p hp (by rw [hA, hB, hu]; norm_num [Parallel, cross]) ⟨3, 2⟩).2
    (Or.inr (by rw [hA, hB]; unfold allclose npClose; norm_num [abs_of_pos]))
  rw [hA, hB] at hl
  obtain ⟨t, rfl⟩ := hl
  rw [hu] at hq
  norm_num [Parallel, cross] at hq
  refine ⟨_, h, ?_⟩
  ext
  · norm_num; linarith
  · norm_num

/-- Inversions of pole `(0, 0)` and power 1 applied twice: `(2, 0)` comes back, `(10^9, 0)` does not. -/
example : (⟨⟨0, 0⟩, 1⟩ : Inversion).invert ((⟨⟨0, 0⟩, 1⟩ : Inversion).invert (.fin ⟨2, 0⟩)) = .fin ⟨2, 0⟩ ∧
    (⟨⟨0, 0⟩, 1⟩ : Inversion).invert ((⟨⟨0, 0⟩, 1⟩ : Inversion).invert (.fin ⟨10 ^ 9, 0⟩)) ≠ .fin ⟨10 ^ 9, 0⟩ := by
  constructor
  · rw [C24_exact _ (by norm_num)]
    refine Or.inr ⟨by unfold allclose npClose; norm_num, ?_⟩
    rintro N ⟨-, h1, h2⟩ ⟨hc, -⟩
    norm_num [cross, dot] at h1 h2
    have : N.x = 1 / 2 := by linarith
    unfold npClose at hc
    rw [this] at hc
    norm_num [abs_of_pos] at hc
  · rw [ne_eq, C24_exact _ (by norm_num)]
    rintro (h | ⟨-, h⟩)
    · have := congrArg Pt.x h; norm_num at this
    · refine h ⟨1 / 10 ^ 9, 0⟩ ?_ ?_
      · refine ⟨?_, by norm_num [cross], by norm_num [dot]⟩
        intro h; have := congrArg Pt.x h; norm_num at this
      · unfold allclose npClose; norm_num [abs_of_pos]

/-- The circle of center `(3, 4)` and radius 2 is mapped to its image; the circle of radius `1 - 10^-10` around `(1, 0)`,
which almost goes through the pole, is not. -/
example (g : GCircle) : ((⟨⟨0, 0⟩, 1⟩ : Inversion).invert_circle ⟨⟨3, 4⟩, 2⟩ = .ok g →
      InvMapsOnto ⟨0, 0⟩ 1 (OnCircle ⟨3, 4⟩ 2) (GSet g)) ∧
    ((⟨⟨0, 0⟩, 1⟩ : Inversion).invert_circle ⟨⟨1, 0⟩, 1 - 1 / 10 ^ 10⟩ = .ok g →
      ¬ InvMapsOnto ⟨0, 0⟩ 1 (OnCircle ⟨1, 0⟩ (1 - 1 / 10 ^ 10)) (GSet g)) := by
  constructor
  · intro h
    exact (C25_exact _ (by norm_num) _ (by unfold Circle.Valid; norm_num) g h).2 (Or.inr (by norm_num [sqDist]))
  · intro h
    rw [C25_exact _ (by norm_num) _ (by unfold Circle.Valid; norm_num) g h]
    norm_num [OnCircle, sqDist, abs_of_pos]

/-- The vertical line of abscissa 2 is mapped to a circle through the pole. -/
example : ∃ g, (⟨⟨0, 0⟩, 4⟩ : Inversion).invert_line ⟨⟨2, 0⟩, ⟨2, 1⟩, true, true⟩ = .ok (some g) ∧ GSet g ⟨2, 0⟩ := by
  obtain ⟨g, h, hm⟩ := (C26_exact ⟨⟨0, 0⟩, 4⟩ (by norm_num) ⟨⟨2, 0⟩, ⟨2, 1⟩, true, true⟩
    (by unfold Line.Valid allclose npClose; norm_num)).2 (Or.inr (by unfold allclose npClose; norm_num [abs_of_pos]))
  exact ⟨g, h, (hm ⟨2, 0⟩ ⟨2, 0⟩ (by norm_num [IsInverse, cross, dot])).1 (onLine_left _ _)⟩
