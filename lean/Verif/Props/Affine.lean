import Verif.Lemmas.Ellipse
import Verif.Props.Circle

/-!
# C45, C46, C47, C48, C70: affine maps
-/

open Spec Real Classical

theorem det2_eq (f : Affine) : Matrix.det f.A = f.A 0 0 * f.A 1 1 - f.A 0 1 * f.A 1 0 := Matrix.det_fin_two _

/-- The inverse of the augmented matrix. -/
theorem inv3 (f : Affine) (h : Matrix.det f.A ≠ 0) : f.get3x3matrix⁻¹ =
    !![f.A 1 1 / f.A.det, -f.A 0 1 / f.A.det, (f.A 0 1 * f.b.y - f.A 1 1 * f.b.x) / f.A.det;
       -f.A 1 0 / f.A.det, f.A 0 0 / f.A.det, (f.A 1 0 * f.b.x - f.A 0 0 * f.b.y) / f.A.det; 0, 0, 1] := by
  apply Matrix.inv_eq_right_inv
  obtain ⟨d, hd⟩ : ∃ d, d = f.A.det := ⟨_, rfl⟩
  rw [← hd] at h ⊢
  rw [det2_eq] at hd
  ext i j
  fin_cases i <;> fin_cases j <;>
    simp [Affine.get3x3matrix, Matrix.mul_apply, Fin.sum_univ_three] <;> field_simp <;> (try rw [hd]) <;> ring

/-- What `Affine.inverse` returns. -/
theorem inverse_some (f : Affine) (h : Matrix.det f.A ≠ 0) : ∃ g, f.inverse = some g ∧
    (∀ P, g.transform (f.transform P) = P) ∧ (∀ P, f.transform (g.transform P) = P) ∧ Matrix.det g.A = 1 / Matrix.det f.A := by
  refine ⟨_, if_neg h, ?_, ?_, ?_⟩
  · intro P
    rw [inv3 f h]
    obtain ⟨d, hd⟩ : ∃ d, d = f.A.det := ⟨_, rfl⟩
    rw [← hd] at h ⊢
    rw [det2_eq] at hd
    unfold Affine.ofMatrix3 Affine.transform
    ext <;> simp <;> field_simp <;> rw [hd] <;> ring
  · intro P
    rw [inv3 f h]
    obtain ⟨d, hd⟩ : ∃ d, d = f.A.det := ⟨_, rfl⟩
    rw [← hd] at h ⊢
    rw [det2_eq] at hd
    unfold Affine.ofMatrix3 Affine.transform
    ext <;> simp <;> field_simp <;> rw [hd] <;> ring
  · rw [inv3 f h]
    obtain ⟨d, hd⟩ : ∃ d, d = f.A.det := ⟨_, rfl⟩
    rw [← hd] at h ⊢
    rw [det2_eq] at hd ⊢
    unfold Affine.ofMatrix3
    simp
    field_simp
    rw [hd]; ring

theorem transform_injective_iff (f : Affine) : Function.Injective f.transform ↔ Matrix.det f.A ≠ 0 := by
  constructor
  · intro hi h0
    rw [det2_eq] at h0
    by_cases h1 : f.A 0 0 = 0 ∧ f.A 1 0 = 0
    · have : (⟨1, 0⟩ : Pt) = ⟨0, 0⟩ := hi (by unfold Affine.transform; ext <;> simp [h1])
      have := congrArg Pt.x this
      norm_num at this
    · by_cases h2 : f.A 0 1 = 0 ∧ f.A 1 1 = 0
      · have : (⟨0, 1⟩ : Pt) = ⟨0, 0⟩ := hi (by unfold Affine.transform; ext <;> simp [h2])
        have := congrArg Pt.y this
        norm_num at this
      · have e1 : (⟨f.A 0 1, -f.A 0 0⟩ : Pt) = ⟨0, 0⟩ := hi (by
          unfold Affine.transform; ext <;> simp <;> linarith)
        have e2 : (⟨f.A 1 1, -f.A 1 0⟩ : Pt) = ⟨0, 0⟩ := hi (by
          unfold Affine.transform; ext <;> simp <;> linarith)
        rw [Pt.ext_iff] at e1 e2
        simp at e1 e2
        exact h1 ⟨e1.2, e2.2⟩
  · intro h
    obtain ⟨g, -, hg, -⟩ := inverse_some f h
    exact Function.LeftInverse.injective hg

/-! ### C45 -/

/-- C45: composition. -/
theorem C45_compose (f g : Affine) (P : Pt) :
    (f.compose g).transform P = g.transform (f.transform P) ∧
    (f.compose g false).transform P = f.transform (g.transform P) := by
  constructor
  · unfold Affine.compose Affine.ofMatrix3 Affine.transform Affine.get3x3matrix
    ext <;> simp [Matrix.mul_apply, Fin.sum_univ_three] <;> ring
  · unfold Affine.compose Affine.ofMatrix3 Affine.transform Affine.get3x3matrix
    ext <;> simp [Matrix.mul_apply, Fin.sum_univ_three] <;> ring

/-- The rotation by a quarter turn followed by the translation by `(5, 0)`, and in the other order. -/
example : ((⟨!![0, -1; 1, 0], ⟨0, 0⟩⟩ : Affine).compose ⟨!![1, 0; 0, 1], ⟨5, 0⟩⟩).transform ⟨1, 0⟩ = ⟨5, 1⟩ ∧
    ((⟨!![0, -1; 1, 0], ⟨0, 0⟩⟩ : Affine).compose ⟨!![1, 0; 0, 1], ⟨5, 0⟩⟩ false).transform ⟨1, 0⟩ = ⟨0, 6⟩ := by
  rw [(C45_compose _ _ _).1, (C45_compose _ _ _).2]
  unfold Affine.transform
  constructor <;> ext <;> simp; norm_num

/-- C45: `inverse` returns a map exactly when the reference map is a bijection of the plane, and this map undoes it on
both sides.  The condition is `det ≠ 0`. -/
theorem C45_inverse (f : Affine) :
    ((∃ g, f.inverse = some g) ↔ Function.Bijective f.transform) ∧
    (Function.Bijective f.transform ↔ f.A 0 0 * f.A 1 1 - f.A 0 1 * f.A 1 0 ≠ 0) ∧
    ∀ g, f.inverse = some g → ∀ P, g.transform (f.transform P) = P ∧ f.transform (g.transform P) = P := by
  have key : Function.Bijective f.transform ↔ Matrix.det f.A ≠ 0 := by
    rw [← transform_injective_iff]
    refine ⟨fun h => h.1, fun h => ⟨h, ?_⟩⟩
    obtain ⟨g, -, -, hg, -⟩ := inverse_some f ((transform_injective_iff f).1 h)
    exact Function.RightInverse.surjective hg
  refine ⟨?_, by rw [key, det2_eq], ?_⟩
  · rw [key]
    constructor
    · rintro ⟨g, hg⟩ h0
      unfold Affine.inverse at hg
      rw [if_pos h0] at hg
      exact absurd hg (by simp)
    · intro h
      obtain ⟨g, hg, -⟩ := inverse_some f h
      exact ⟨g, hg⟩
  · intro g hg P
    by_cases h0 : Matrix.det f.A = 0
    · unfold Affine.inverse at hg
      rw [if_pos h0] at hg
      exact absurd hg (by simp)
    · obtain ⟨g', hg', h1, h2, -⟩ := inverse_some f h0
      rw [hg'] at hg
      obtain rfl := Option.some.inj hg
      exact ⟨h1 P, h2 P⟩

/-- An affine map is determined by its action on points. -/
theorem affine_ext {f g : Affine} (h : ∀ P, f.transform P = g.transform P) : f = g := by
  have h0 := h ⟨0, 0⟩
  have h1 := h ⟨1, 0⟩
  have h2 := h ⟨0, 1⟩
  unfold Affine.transform at h0 h1 h2
  rw [Pt.ext_iff] at h0 h1 h2
  simp at h0 h1 h2
  ext i j
  · fin_cases i <;> fin_cases j <;> simp <;> linarith [h0.1, h0.2, h1.1, h1.2, h2.1, h2.2]
  · exact h0.1
  · exact h0.2

/-- C45: composition is associative, in both orders. -/
theorem C45_compose_assoc (f g h : Affine) :
    (f.compose g).compose h = f.compose (g.compose h) ∧
    (f.compose g false).compose h false = f.compose (g.compose h false) false := by
  constructor <;> apply affine_ext <;> intro P
  · rw [(C45_compose _ _ _).1, (C45_compose _ _ _).1, (C45_compose _ _ _).1, (C45_compose _ _ _).1]
  · rw [(C45_compose _ _ _).2, (C45_compose _ _ _).2, (C45_compose _ _ _).2, (C45_compose _ _ _).2]

/-- A non-trivial instance: the map `(x, y) ↦ (x + 2y + 1, 3x + 4y - 1)` has an inverse. -/
example : ∃ g, (⟨!![1, 2; 3, 4], ⟨1, -1⟩⟩ : Affine).inverse = some g :=
  ((C45_inverse _).1.trans (C45_inverse _).2.1).2 (by norm_num)

/-! ### C46 -/

/-- The map sending `(0,0), (1,0), (0,1)` to three points. -/
theorem affine_unique {f g : Affine} {P1 P2 P3 : Pt} (h : cross (P2 - P1) (P3 - P1) ≠ 0)
    (h1 : f.transform P1 = g.transform P1) (h2 : f.transform P2 = g.transform P2) (h3 : f.transform P3 = g.transform P3) :
    f = g := by
  apply affine_ext
  intro P
  unfold Affine.transform at *
  rw [Pt.ext_iff] at h1 h2 h3 ⊢
  obtain ⟨a1, b1⟩ := h1
  obtain ⟨a2, b2⟩ := h2
  obtain ⟨a3, b3⟩ := h3
  simp only [cross, Pt.sub_x, Pt.sub_y] at h a1 a2 a3 b1 b2 b3 ⊢
  have key : ∀ m n c m' n' c' : ℝ, m * P1.x + n * P1.y + c = m' * P1.x + n' * P1.y + c' →
      m * P2.x + n * P2.y + c = m' * P2.x + n' * P2.y + c' →
      m * P3.x + n * P3.y + c = m' * P3.x + n' * P3.y + c' → m = m' ∧ n = n' ∧ c = c' := by
    intro m n c m' n' c' e1 e2 e3
    have hm : m = m' := by
      apply sub_eq_zero.1
      apply (mul_eq_zero.1 _).resolve_right h
      linear_combination (e2 - e1) * (P3.y - P1.y) - (e3 - e1) * (P2.y - P1.y)
    have hn : n = n' := by
      apply sub_eq_zero.1
      apply (mul_eq_zero.1 _).resolve_right h
      linear_combination (e3 - e1) * (P2.x - P1.x) - (e2 - e1) * (P3.x - P1.x)
    subst hm; subst hn
    exact ⟨rfl, rfl, by linarith⟩
  obtain ⟨c1, c2, c3⟩ := key _ _ _ _ _ _ a1 a2 a3
  obtain ⟨d1, d2, d3⟩ := key _ _ _ _ _ _ b1 b2 b3
  rw [c1, c2, c3, d1, d2, d3]
  exact ⟨rfl, rfl⟩

/-- Three points that the code regards as usable: pairwise not `np.allclose`, not collinear. -/
def GoodTriple (P1 P2 P3 : Pt) : Prop :=
  ¬ allclose P1 P2 ∧ ¬ allclose P1 P3 ∧ ¬ allclose P2 P3 ∧ ¬ Collinear P1 P2 P3

theorem goodTriple_iff (P1 P2 P3 : Pt) : GoodTriple P1 P2 P3 ↔ ¬ collinear_ P1 P2 P3 := by
  rw [collinear_iff]; unfold GoodTriple; tauto

/-- C46: `None` exactly for a collinear triple or a triple with `np.allclose` points; otherwise an invertible map sending
each point to its image, and no other affine map does so. -/
theorem C46_from_mapping_three_points (P1 P2 P3 Q1 Q2 Q3 : Pt) :
    (Affine.from_mapping_three_points P1 P2 P3 Q1 Q2 Q3 = .ok none ↔ ¬ (GoodTriple P1 P2 P3 ∧ GoodTriple Q1 Q2 Q3)) ∧
    (GoodTriple P1 P2 P3 → GoodTriple Q1 Q2 Q3 →
      ∃ f : Affine, Affine.from_mapping_three_points P1 P2 P3 Q1 Q2 Q3 = .ok (some f) ∧
        f.transform P1 = Q1 ∧ f.transform P2 = Q2 ∧ f.transform P3 = Q3 ∧ Function.Bijective f.transform ∧
        ∀ g : Affine, g.transform P1 = Q1 → g.transform P2 = Q2 → g.transform P3 = Q3 → g = f) := by
  have main : GoodTriple P1 P2 P3 → GoodTriple Q1 Q2 Q3 →
      ∃ f : Affine, Affine.from_mapping_three_points P1 P2 P3 Q1 Q2 Q3 = .ok (some f) ∧
        f.transform P1 = Q1 ∧ f.transform P2 = Q2 ∧ f.transform P3 = Q3 ∧ Function.Bijective f.transform ∧
        ∀ g : Affine, g.transform P1 = Q1 → g.transform P2 = Q2 → g.transform P3 = Q3 → g = f := by
    intro hP hQ
    have hcP := hP.2.2.2
    have hcQ := hQ.2.2.2
    unfold Collinear at hcP hcQ
    obtain ⟨f1, hf1⟩ : ∃ f1 : Affine, f1 = ⟨!![(P2 - P1).x, (P3 - P1).x; (P2 - P1).y, (P3 - P1).y], P1⟩ := ⟨_, rfl⟩
    obtain ⟨f2, hf2⟩ : ∃ f2 : Affine, f2 = ⟨!![(Q2 - Q1).x, (Q3 - Q1).x; (Q2 - Q1).y, (Q3 - Q1).y], Q1⟩ := ⟨_, rfl⟩
    have hd1 : Matrix.det f1.A ≠ 0 := by
      rw [det2_eq, hf1]
      intro h0
      apply hcP
      simp [cross] at h0 ⊢
      linarith
    have hd2 : Matrix.det f2.A ≠ 0 := by
      rw [det2_eq, hf2]
      intro h0
      apply hcQ
      simp [cross] at h0 ⊢
      linarith
    obtain ⟨g, hg, hgl, hgr, hgd⟩ := inverse_some f1 hd1
    have hP1 : f1.transform ⟨0, 0⟩ = P1 := by rw [hf1]; unfold Affine.transform; ext <;> simp
    have hP2 : f1.transform ⟨1, 0⟩ = P2 := by rw [hf1]; unfold Affine.transform; ext <;> simp
    have hP3 : f1.transform ⟨0, 1⟩ = P3 := by rw [hf1]; unfold Affine.transform; ext <;> simp
    have hQ1 : f2.transform ⟨0, 0⟩ = Q1 := by rw [hf2]; unfold Affine.transform; ext <;> simp
    have hQ2 : f2.transform ⟨1, 0⟩ = Q2 := by rw [hf2]; unfold Affine.transform; ext <;> simp
    have hQ3 : f2.transform ⟨0, 1⟩ = Q3 := by rw [hf2]; unfold Affine.transform; ext <;> simp
    have e1 : (g.compose f2).transform P1 = Q1 := by rw [(C45_compose _ _ _).1, ← hP1, hgl, hQ1]
    have e2 : (g.compose f2).transform P2 = Q2 := by rw [(C45_compose _ _ _).1, ← hP2, hgl, hQ2]
    have e3 : (g.compose f2).transform P3 = Q3 := by rw [(C45_compose _ _ _).1, ← hP3, hgl, hQ3]
    refine ⟨g.compose f2, ?_, e1, e2, e3, ?_, ?_⟩
    · unfold Affine.from_mapping_three_points
      rw [if_neg ((goodTriple_iff _ _ _).1 hP), if_neg ((goodTriple_iff _ _ _).1 hQ)]
      dsimp only
      rw [← hf1, hg, ← hf2]
    · have hc : (g.compose f2).transform = f2.transform ∘ g.transform := by
        funext P; exact (C45_compose _ _ _).1
      rw [hc]
      refine Function.Bijective.comp ?_ ?_
      · exact ((C45_inverse f2).2.1).2 (by rwa [← det2_eq])
      · exact ((C45_inverse g).2.1).2 (by rw [← det2_eq, hgd]; exact one_div_ne_zero hd1)
    · intro h a1 a2 a3
      apply affine_unique hcP
      · rw [a1, e1]
      · rw [a2, e2]
      · rw [a3, e3]
  refine ⟨?_, main⟩
  constructor
  · rintro h ⟨hP, hQ⟩
    obtain ⟨f, hf, -⟩ := main hP hQ
    rw [h] at hf
    simp at hf
  · intro h
    rw [goodTriple_iff, goodTriple_iff] at h
    unfold Affine.from_mapping_three_points
    by_cases h1 : collinear_ P1 P2 P3
    · rw [if_pos h1]
    · rw [if_neg h1, if_pos (by tauto)]

/-- The hypotheses hold for a triangle and its image. -/
example : GoodTriple ⟨0, 0⟩ ⟨10, 0⟩ ⟨3, 5⟩ ∧ GoodTriple ⟨1, 1⟩ ⟨-4, 7⟩ ⟨2, -3⟩ := by
  unfold GoodTriple allclose npClose Collinear cross; simp only [Pt.sub_x, Pt.sub_y]; norm_num [abs_le]

/-! ### C47 -/

/-- C47 (part): the image of a line.  Missing for the full claim: `transform_line` raises `ValueError` when the images of
the two points defining the line are `np.allclose`, see `C47_transform_line_counterexample`. -/
theorem C47_transform_line_partial (f : Affine) (l : Line) :
    (¬ Function.Bijective f.transform → f.transform_line l = .ok none) ∧
    (Function.Bijective f.transform → ¬ allclose (f.transform l.A) (f.transform l.B) →
      ∃ l' : Line, f.transform_line l = .ok (some l') ∧ l'.extendA = l.extendA ∧ l'.extendB = l.extendB ∧
        l'.A = f.transform l.A ∧ l'.B = f.transform l.B ∧
        (∀ P, OnLine l.A l.B P ↔ OnLine l'.A l'.B (f.transform P)) ∧
        (∀ P, OnSegment l.A l.B P ↔ OnSegment l'.A l'.B (f.transform P)) ∧
        (∀ P, OnRay l.A l.B P ↔ OnRay l'.A l'.B (f.transform P))) := by
  rw [(C45_inverse f).2.1, ← det2_eq]
  constructor
  · intro h
    push Not at h
    unfold Affine.transform_line
    rw [if_pos h]
  · intro h hc
    have hi := (transform_injective_iff f).2 h
    have lin : ∀ (P : Pt) (t : ℝ), P = l.A + t • (l.B - l.A) ↔
        f.transform P = f.transform l.A + t • (f.transform l.B - f.transform l.A) := by
      intro P t
      have : f.transform l.A + t • (f.transform l.B - f.transform l.A) = f.transform (l.A + t • (l.B - l.A)) := by
        unfold Affine.transform; ext <;> simp <;> ring
      rw [this, hi.eq_iff]
    refine ⟨⟨f.transform l.A, f.transform l.B, l.extendA, l.extendB⟩, ?_, rfl, rfl, rfl, rfl, ?_, ?_, ?_⟩
    · unfold Affine.transform_line
      rw [if_neg h, mkLine_ok.2 ⟨hc, rfl⟩]
      rfl
    · intro P
      unfold OnLine
      exact exists_congr fun t => lin P t
    · intro P
      unfold OnSegment
      simp only [lin]
    · intro P
      unfold OnRay
      simp only [lin]

/-- C47 fails for a contraction: `transform_line` raises although the map is invertible. -/
theorem C47_transform_line_counterexample :
    Function.Bijective (⟨!![1 / 10 ^ 9, 0; 0, 1 / 10 ^ 9], ⟨0, 0⟩⟩ : Affine).transform ∧
    ∃ m, (⟨!![1 / 10 ^ 9, 0; 0, 1 / 10 ^ 9], ⟨0, 0⟩⟩ : Affine).transform_line ⟨⟨0, 0⟩, ⟨1, 0⟩, true, true⟩ =
      .error (.valueError m) := by
  constructor
  · rw [(C45_inverse _).2.1]; norm_num
  · unfold Affine.transform_line
    rw [if_neg (by rw [det2_eq]; norm_num)]
    unfold mkLine
    rw [if_pos (by unfold Affine.transform allclose npClose; norm_num)]
    exact ⟨_, rfl⟩

/-- The shear `(x, y) ↦ (x + 2 y, y)` maps the segment from `(0, 0)` to `(0, 2)` to one that contains `(2, 1)`; the
projection on an axis, which is not invertible, gives `None`. -/
example : (∃ l' : Line, (⟨!![1, 2; 0, 1], ⟨0, 0⟩⟩ : Affine).transform_line ⟨⟨0, 0⟩, ⟨0, 2⟩, false, false⟩ = .ok (some l') ∧
      l'.extendA = false ∧ OnSegment l'.A l'.B ⟨2, 1⟩) ∧
    (⟨!![1, 0; 0, 0], ⟨0, 0⟩⟩ : Affine).transform_line ⟨⟨0, 0⟩, ⟨0, 2⟩, false, false⟩ = .ok none := by
  constructor
  · have e : ∀ P, (⟨!![1, 2; 0, 1], ⟨0, 0⟩⟩ : Affine).transform P = ⟨P.x + 2 * P.y, P.y⟩ := by
      intro P; unfold Affine.transform; ext <;> simp
    obtain ⟨l', h, h1, -, -, -, -, h2, -⟩ := (C47_transform_line_partial ⟨!![1, 2; 0, 1], ⟨0, 0⟩⟩
      ⟨⟨0, 0⟩, ⟨0, 2⟩, false, false⟩).2 ((C45_inverse _).2.1.2 (by norm_num))
      (by rw [e, e]; unfold allclose npClose; norm_num [abs_of_pos])
    refine ⟨l', h, h1, ?_⟩
    have := (h2 ⟨0, 1⟩).1 ⟨1 / 2, by norm_num, by norm_num, by ext <;> norm_num⟩
    rw [e] at this
    norm_num at this
    exact this
  · exact (C47_transform_line_partial _ _).1 (fun h => by have := (C45_inverse _).2.1.1 h; norm_num at this)

theorem image_coeffs (f : Affine) (q : Coeffs) (h : Matrix.det f.A ≠ 0) :
    (∀ P, (f.imageCoeffs q).eval (f.transform P) = q.eval P) ∧
    (∃ u v : ℝ, (u ≠ 0 ∨ v ≠ 0) ∧ (f.imageCoeffs q).A = q.A * u ^ 2 + q.B * u * v + q.C * v ^ 2) ∧
    (∃ d : ℝ, d ≠ 0 ∧ 4 * (f.imageCoeffs q).A * (f.imageCoeffs q).C - (f.imageCoeffs q).B * (f.imageCoeffs q).B =
      (4 * q.A * q.C - q.B * q.B) * d ^ 2 ∧ (f.imageCoeffs q).k = q.k * d ^ 2) := by
  obtain ⟨a, b, c, d, e, g, hM⟩ : ∃ a b c d e g : ℝ, f.get3x3matrix⁻¹ = !![a, b, c; d, e, g; 0, 0, 1] :=
    ⟨_, _, _, _, _, _, inv3 f h⟩
  have hmul : f.get3x3matrix⁻¹ * f.get3x3matrix = 1 := by
    rw [inv3 f h]
    obtain ⟨d, hd⟩ : ∃ d, d = f.A.det := ⟨_, rfl⟩
    rw [← hd] at h ⊢
    rw [det2_eq] at hd
    ext i j
    fin_cases i <;> fin_cases j <;>
      simp [Affine.get3x3matrix, Matrix.mul_apply, Fin.sum_univ_three] <;> field_simp <;> (try rw [hd]) <;> ring
  rw [hM] at hmul
  have m00 := congrFun (congrFun hmul 0) 0
  have m01 := congrFun (congrFun hmul 0) 1
  have m02 := congrFun (congrFun hmul 0) 2
  have m10 := congrFun (congrFun hmul 1) 0
  have m11 := congrFun (congrFun hmul 1) 1
  have m12 := congrFun (congrFun hmul 1) 2
  simp [Affine.get3x3matrix, Matrix.mul_apply, Fin.sum_univ_three] at m00 m01 m02 m10 m11 m12
  have hq : f.imageCoeffs q = ⟨q.A * a ^ 2 + q.B * a * d + q.C * d ^ 2,
      2 * q.A * a * b + q.B * (a * e + b * d) + 2 * q.C * d * e, q.A * b ^ 2 + q.B * b * e + q.C * e ^ 2,
      2 * q.A * a * c + q.B * (a * g + c * d) + 2 * q.C * d * g + q.D * a + q.E * d,
      2 * q.A * b * c + q.B * (b * g + c * e) + 2 * q.C * e * g + q.D * b + q.E * e,
      q.A * c ^ 2 + q.B * c * g + q.C * g ^ 2 + q.D * c + q.E * g + q.F⟩ := by
    unfold Affine.imageCoeffs
    rw [hM]
    simp only [Coeffs.mk.injEq]
    refine ⟨?_, ?_, ?_, ?_, ?_, ?_⟩ <;> simp [Matrix.mul_apply, Fin.sum_univ_three] <;> ring
  have hdet : a * e - b * d ≠ 0 := by
    intro h0
    have : (a * e - b * d) * f.A.det = 1 := by
      rw [det2_eq]
      linear_combination (d * f.A 0 1 + e * f.A 1 1) * m00 + m11 - (d * f.A 0 0 + e * f.A 1 0) * m01
    rw [h0, zero_mul] at this
    exact zero_ne_one this
  rw [hq]
  refine ⟨?_, ⟨a, d, ?_, rfl⟩, a * e - b * d, hdet, ?_, ?_⟩
  · intro P
    have hx : a * (f.transform P).x + b * (f.transform P).y + c = P.x := by
      unfold Affine.transform
      linear_combination P.x * m00 + P.y * m01 + m02
    have hy : d * (f.transform P).x + e * (f.transform P).y + g = P.y := by
      unfold Affine.transform
      linear_combination P.x * m10 + P.y * m11 + m12
    unfold Coeffs.eval
    rw [← hx, ← hy]; ring
  · by_contra hc
    push Not at hc
    exact hdet (by rw [hc.1, hc.2]; ring)
  · ring
  · unfold Coeffs.k; ring

/-- The points of an `Ellipse` or `Circle` argument. -/
def OnArg (x : EllArg) (P : Pt) : Prop :=
  match x with
  | .ell e => OnEllipse e.center e.rmajor e.rminor e.rad P
  | .circ c => OnCircle c.center c.radius P

/-- The region bounded by an `Ellipse` or `Circle` argument. -/
def InArg (x : EllArg) (P : Pt) : Prop :=
  match x with
  | .ell e => InEllipse e.center e.rmajor e.rminor e.rad P
  | .circ c => sqDist c.center P ≤ c.radius ^ 2

/-- The center of an `Ellipse` or `Circle` argument. -/
def centerArg (x : EllArg) : Pt :=
  match x with
  | .ell e => e.center
  | .circ c => c.center

/-- The invariant of the constructors. -/
def ValidArg (x : EllArg) : Prop :=
  match x with
  | .ell e => e.Valid
  | .circ c => c.Valid

theorem circle_onEllipse {c : Circle} (hc : c.Valid) (P : Pt) :
    OnEllipse c.center c.radius c.radius (⟨c.center, c.radius, c.radius, 0, true⟩ : Ellipse).rad P ↔
      OnCircle c.center c.radius P := by
  rw [onEllipse_iff hc hc]
  have hr : c.radius ≠ 0 := ne_of_gt hc
  unfold ellVal axisCoord Ellipse.rad OnCircle sqDist
  simp
  field_simp
  constructor <;> intro h <;> linarith

theorem circle_inEllipse {c : Circle} (hc : c.Valid) (P : Pt) :
    InEllipse c.center c.radius c.radius (⟨c.center, c.radius, c.radius, 0, true⟩ : Ellipse).rad P ↔
      sqDist c.center P ≤ c.radius ^ 2 := by
  have hr : 0 < c.radius := hc
  unfold InEllipse axisCoord Ellipse.rad sqDist
  simp
  rw [div_pow, div_pow, ← add_div, div_le_one (by positivity)]
  constructor <;> intro h <;> linarith

theorem ellVal_ge (O : Pt) (a b α : ℝ) (P : Pt) : -1 ≤ ellVal O a b α P := by
  unfold ellVal
  nlinarith [sq_nonneg ((axisCoord O α P).x / a), sq_nonneg ((axisCoord O α P).y / b)]

theorem ellVal_center (O : Pt) (a b α : ℝ) : ellVal O a b α O = -1 := by
  unfold ellVal axisCoord; simp

theorem center_of_ellVal {O : Pt} {a b α : ℝ} (ha : 0 < a) (hb : 0 < b) {P : Pt} (h : ellVal O a b α P = -1) : P = O := by
  have hcs := sin_sq_add_cos_sq α
  have h1 : (axisCoord O α P).x = 0 ∧ (axisCoord O α P).y = 0 := by
    unfold ellVal at h
    have e1 : ((axisCoord O α P).x / a) ^ 2 = 0 := by
      nlinarith [sq_nonneg ((axisCoord O α P).x / a), sq_nonneg ((axisCoord O α P).y / b)]
    have e2 : ((axisCoord O α P).y / b) ^ 2 = 0 := by
      nlinarith [sq_nonneg ((axisCoord O α P).x / a), sq_nonneg ((axisCoord O α P).y / b)]
    simp only [ne_eq, OfNat.ofNat_ne_zero, not_false_eq_true, pow_eq_zero_iff, div_eq_zero_iff] at e1 e2
    exact ⟨e1.resolve_right ha.ne', e2.resolve_right hb.ne'⟩
  obtain ⟨h1, h2⟩ := h1
  unfold axisCoord at h1 h2
  dsimp only at h1 h2
  ext
  · linear_combination cos α * h1 - sin α * h2 - (P.x - O.x) * hcs
  · linear_combination sin α * h1 + cos α * h2 - (P.y - O.y) * hcs

/-- The image of a valid ellipse. -/
theorem transform_ell (f : Affine) (e : Ellipse) (he : e.Valid) (h : Matrix.det f.A ≠ 0) :
    ∃ e' : Ellipse, Affine.ellipseOfCoeffs (f.imageCoeffs e.equation) e.degrees = .ok e' ∧ e'.Valid ∧
      e'.rminor ≤ e'.rmajor ∧ e'.degrees = e.degrees ∧ 0 ≤ e'.rad ∧ e'.rad < π ∧ e'.center = f.transform e.center ∧
      (∀ P, OnEllipse e.center e.rmajor e.rminor e.rad P ↔
        OnEllipse e'.center e'.rmajor e'.rminor e'.rad (f.transform P)) ∧
      (∀ P, InEllipse e.center e.rmajor e.rminor e.rad P ↔
        InEllipse e'.center e'.rmajor e'.rminor e'.rad (f.transform P)) := by
  obtain ⟨he1, ⟨u, v, huv, hA⟩, d, hd, hΔ, hk⟩ := image_coeffs f e.equation h
  obtain ⟨p1, p2, p3⟩ := equation_pos he
  have p4 := equation_k he
  have pab : 0 < e.rmajor * e.rminor := mul_pos he.1 he.2
  have hA' : 0 < (f.imageCoeffs e.equation).A := by
    rw [hA]
    have : 0 < 4 * e.equation.A * (e.equation.A * u ^ 2 + e.equation.B * u * v + e.equation.C * v ^ 2) := by
      have : 4 * e.equation.A * (e.equation.A * u ^ 2 + e.equation.B * u * v + e.equation.C * v ^ 2) =
          (2 * e.equation.A * u + e.equation.B * v) ^ 2 + 4 * (e.rmajor * e.rminor) ^ 2 * v ^ 2 := by
        rw [← p3]; ring
      rw [this]
      by_cases hv : v = 0
      · subst hv
        have hu : u ≠ 0 := by tauto
        have : 0 < (2 * e.equation.A * u + e.equation.B * 0) ^ 2 := by
          rw [mul_zero, add_zero]; positivity
        nlinarith
      · have : 0 < 4 * (e.rmajor * e.rminor) ^ 2 * v ^ 2 := by positivity
        nlinarith [sq_nonneg (2 * e.equation.A * u + e.equation.B * v)]
    exact (mul_pos_iff_of_pos_left (by linarith)).1 this
  obtain ⟨e', h1, h2, h3, h4, h5, h6, m, hm, hev⟩ := ellipseOfCoeffs_spec (q := f.imageCoeffs e.equation) hA'
    (by rw [hΔ, p3]; positivity) (by rw [hk]; positivity) e.degrees
  have hval : ∀ P, (e.rmajor * e.rminor) ^ 2 * ellVal e.center e.rmajor e.rminor e.rad P =
      m * ellVal e'.center e'.rmajor e'.rminor e'.rad (f.transform P) := by
    intro P
    rw [← equation_eval he, ← he1, hev]
  have pab2 : 0 < (e.rmajor * e.rminor) ^ 2 := by positivity
  refine ⟨e', h1, h2, h3, h4, h5, h6, ?_, ?_, ?_⟩
  · obtain ⟨g, -, -, hg, -⟩ := inverse_some f h
    have c1 := hval e.center
    have c2 := hval (g.transform e'.center)
    rw [hg, ellVal_center] at c2
    rw [ellVal_center] at c1
    have c3 := ellVal_ge e.center e.rmajor e.rminor e.rad (g.transform e'.center)
    have c4 := ellVal_ge e'.center e'.rmajor e'.rminor e'.rad (f.transform e.center)
    have hmk : m = (e.rmajor * e.rminor) ^ 2 := by
      have := mul_le_mul_of_nonneg_left c3 pab2.le
      have := mul_le_mul_of_nonneg_left c4 hm.le
      linarith
    rw [← hmk] at c1
    refine (center_of_ellVal (α := e'.rad) h2.1 h2.2 ?_).symm
    exact (mul_left_cancel₀ hm.ne' c1).symm
  · intro P
    rw [onEllipse_iff he.1 he.2, onEllipse_iff h2.1 h2.2]
    have := hval P
    constructor
    · intro h0
      rw [h0, mul_zero] at this
      exact (mul_eq_zero.1 this.symm).resolve_left hm.ne'
    · intro h0
      rw [h0, mul_zero] at this
      exact (mul_eq_zero.1 this).resolve_left pab2.ne'
  · intro P
    rw [inEllipse_iff, inEllipse_iff]
    have := hval P
    constructor
    · intro h0
      by_contra hc
      push Not at hc
      nlinarith [mul_pos hm hc, mul_nonneg pab2.le (neg_nonneg.2 h0)]
    · intro h0
      by_contra hc
      push Not at hc
      nlinarith [mul_pos pab2 hc, mul_nonneg hm.le (neg_nonneg.2 h0)]

/-- C47: `transform_ellipse` never fails for an ellipse or a circle; a singular map gives `None`, an invertible one gives
the image of the curve, of the region it bounds and of its center.  Moreover the semi-axes are ordered, the angle unit of the argument
is kept and the angle is in `[0, π)` radians. -/
theorem C47_transform_ellipse (f : Affine) (x : EllArg) (hx : ValidArg x) :
    (¬ Function.Bijective f.transform → f.transform_ellipse x = .ok none) ∧
    (Function.Bijective f.transform → ∃ e' : Ellipse, f.transform_ellipse x = .ok (some e') ∧ e'.Valid ∧
      e'.rminor ≤ e'.rmajor ∧ 0 ≤ e'.rad ∧ e'.rad < π ∧ e'.center = f.transform (centerArg x) ∧
      (∀ P, OnArg x P ↔ OnEllipse e'.center e'.rmajor e'.rminor e'.rad (f.transform P)) ∧
      (∀ P, InArg x P ↔ InEllipse e'.center e'.rmajor e'.rminor e'.rad (f.transform P))) := by
  rw [(C45_inverse f).2.1, ← det2_eq]
  constructor
  · intro h
    push Not at h
    unfold Affine.transform_ellipse
    rw [if_pos h]
  · intro h
    unfold Affine.transform_ellipse
    rw [if_neg h]
    cases x with
    | ell e =>
      obtain ⟨e', h1, h2, h3, h4, h5, h6, h9, h7, h8⟩ := transform_ell f e hx h
      refine ⟨e', ?_, h2, h3, h5, h6, h9, h7, h8⟩
      dsimp only
      rw [Res.ok_bind, h1]
      rfl
    | circ c =>
      have hc : c.Valid := hx
      obtain ⟨e', h1, h2, h3, h4, h5, h6, h9, h7, h8⟩ :=
        transform_ell f ⟨c.center, c.radius, c.radius, 0, true⟩ ⟨hc, hc⟩ h
      refine ⟨e', ?_, h2, h3, h5, h6, h9, ?_, ?_⟩
      · dsimp only
        unfold Circle.as_ellipse mkEllipse
        rw [if_neg (not_le.2 hc), if_neg (not_le.2 hc), Res.ok_bind, h1]
        rfl
      · intro P
        rw [← h7 P]
        exact (circle_onEllipse hc P).symm
      · intro P
        rw [← h8 P]
        exact (circle_inEllipse hc P).symm

/-- The hypotheses hold for an ellipse and a shear. -/
example : ValidArg (.ell ⟨⟨1, 2⟩, 4, 3, 30, true⟩) ∧ Function.Bijective (⟨!![1, 2; 0, 1], ⟨5, 6⟩⟩ : Affine).transform := by
  refine ⟨⟨by norm_num, by norm_num⟩, ?_⟩
  rw [(C45_inverse _).2.1]; norm_num

/-! ### C48 -/

theorem ofEllipse_spec {x : EllArg} (hx : ValidArg x) :
    Matrix.det (Affine.ofEllipse x).A ≠ 0 ∧ ∀ P, OnCircle ⟨0, 0⟩ 1 P ↔ OnArg x ((Affine.ofEllipse x).transform P) := by
  cases x with
  | circ c =>
    have hc : 0 < c.radius := hx
    constructor
    · rw [det2_eq]
      unfold Affine.ofEllipse
      simp
      exact hc.ne'
    · intro P
      unfold OnArg OnCircle sqDist Affine.transform Affine.ofEllipse
      simp
      have h2 : c.radius ^ 2 ≠ 0 := by positivity
      constructor
      · intro h; linear_combination c.radius ^ 2 * h
      · intro h
        apply mul_left_cancel₀ h2
        linear_combination h
  | ell e =>
    have h1 : 0 < e.rmajor := hx.1
    have h2 : 0 < e.rminor := hx.2
    have hcs := sin_sq_add_cos_sq e.rad
    have hf : Affine.ofEllipse (.ell e) = ⟨!![e.rmajor * cos e.rad, -(e.rminor * sin e.rad); e.rmajor * sin e.rad, e.rminor * cos e.rad], e.center⟩ := by
      unfold Affine.ofEllipse Ellipse.rad
      simp
    rw [hf]
    constructor
    · rw [det2_eq]
      have : e.rmajor * e.rminor ≠ 0 := by positivity
      simp
      intro h
      apply this
      linear_combination h - e.rmajor * e.rminor * hcs
    · intro P
      unfold OnArg
      dsimp only
      rw [onEllipse_iff h1 h2]
      have : ellVal e.center e.rmajor e.rminor e.rad (Affine.transform ⟨!![e.rmajor * cos e.rad, -(e.rminor * sin e.rad); e.rmajor * sin e.rad, e.rminor * cos e.rad], e.center⟩ P) = P.x ^ 2 + P.y ^ 2 - 1 := by
        have a1 : (axisCoord e.center e.rad (Affine.transform ⟨!![e.rmajor * cos e.rad, -(e.rminor * sin e.rad); e.rmajor * sin e.rad, e.rminor * cos e.rad], e.center⟩ P)).x = e.rmajor * P.x := by
          unfold axisCoord Affine.transform
          simp
          linear_combination e.rmajor * P.x * hcs
        have a2 : (axisCoord e.center e.rad (Affine.transform ⟨!![e.rmajor * cos e.rad, -(e.rminor * sin e.rad); e.rmajor * sin e.rad, e.rminor * cos e.rad], e.center⟩ P)).y = e.rminor * P.y := by
          unfold axisCoord Affine.transform
          simp
          linear_combination e.rminor * P.y * hcs
        unfold ellVal
        rw [a1, a2]
        field_simp
      rw [this]
      unfold OnCircle sqDist
      simp
      constructor <;> intro h <;> linarith

/-- C48: `from_ellipse_to_ellipse` never fails and the returned map is a bijection of the plane sending the points of the
first curve, and no other point, to the second curve (so it maps the first curve onto the second one). -/
theorem C48_from_ellipse_to_ellipse (x y : EllArg) (hx : ValidArg x) (hy : ValidArg y) :
    ∃ f : Affine, Affine.from_ellipse_to_ellipse x y = .ok f ∧ Function.Bijective f.transform ∧
      (∀ P, OnArg x P ↔ OnArg y (f.transform P)) ∧
      (∀ Q, OnArg y Q → ∃ P, OnArg x P ∧ f.transform P = Q) := by
  obtain ⟨d1, h1⟩ := ofEllipse_spec hx
  obtain ⟨d2, h2⟩ := ofEllipse_spec hy
  obtain ⟨g, hg, hl, hr, hd⟩ := inverse_some _ d1
  have hb : Function.Bijective (g.compose (Affine.ofEllipse y)).transform := by
    have hc : (g.compose (Affine.ofEllipse y)).transform = (Affine.ofEllipse y).transform ∘ g.transform := by
      funext P; exact (C45_compose _ _ _).1
    rw [hc]
    refine Function.Bijective.comp ?_ ?_
    · exact ((C45_inverse _).2.1).2 (by rwa [← det2_eq])
    · exact ((C45_inverse g).2.1).2 (by rw [← det2_eq, hd]; exact one_div_ne_zero d1)
  have hon : ∀ P, OnArg x P ↔ OnArg y ((g.compose (Affine.ofEllipse y)).transform P) := by
    intro P
    rw [(C45_compose _ _ _).1, ← h2, h1, hr]
  refine ⟨g.compose (Affine.ofEllipse y), ?_, hb, hon, ?_⟩
  · unfold Affine.from_ellipse_to_ellipse
    dsimp only
    rw [hg]
  · intro Q hQ
    obtain ⟨P, rfl⟩ := hb.2 Q
    exact ⟨P, (hon P).2 hQ, rfl⟩

example : ValidArg (.ell ⟨⟨1, 2⟩, 4, 3, 1, false⟩) ∧ ValidArg (.circ ⟨⟨0, 7⟩, 2⟩) :=
  ⟨⟨by norm_num, by norm_num⟩, by unfold ValidArg Circle.Valid; norm_num⟩

/-! ### C70 -/

/-- What the code computes for an ellipse. -/
theorem iel_cases (e : Ellipse) (he : e.Valid) (l : Line) :
    (∃ m, intersection_ellipse_line (.ell e) l = .error (.valueError m) ∧ ∃ PA PB, allclose PA PB ∧
      (Affine.ofEllipse (.ell e)).transform PA = l.A ∧ (Affine.ofEllipse (.ell e)).transform PB = l.B) ∨
    ∃ l2 : Line, l2.Valid ∧
      ((Affine.ofEllipse (.ell e)).transform l2.A = l.A ∧ (Affine.ofEllipse (.ell e)).transform l2.B = l.B) ∧
      (∀ P, OnLine l2.A l2.B P ↔ OnLine l.A l.B ((Affine.ofEllipse (.ell e)).transform P)) ∧
      (intersection_circle_line ⟨⟨0, 0⟩, 1⟩ l2 = .none ∧ intersection_ellipse_line (.ell e) l = .ok .none ∨
       (∃ I, intersection_circle_line ⟨⟨0, 0⟩, 1⟩ l2 = .one I ∧
          intersection_ellipse_line (.ell e) l = .ok (.one ((Affine.ofEllipse (.ell e)).transform I))) ∨
       ∃ I J, intersection_circle_line ⟨⟨0, 0⟩, 1⟩ l2 = .two I J ∧
          intersection_ellipse_line (.ell e) l = .ok (.two ((Affine.ofEllipse (.ell e)).transform I)
            ((Affine.ofEllipse (.ell e)).transform J))) := by
  obtain ⟨d1, h1⟩ := ofEllipse_spec (x := .ell e) he
  obtain ⟨g, hg, hl, hr, hd⟩ := inverse_some _ d1
  have hgd : Matrix.det g.A ≠ 0 := by rw [hd]; exact one_div_ne_zero d1
  have hgb : Function.Bijective g.transform := ((C45_inverse g).2.1).2 (by rwa [← det2_eq])
  have hdef : intersection_ellipse_line (.ell e) l = (do
      match ← g.transform_line l with
      | none => .error .attributeError
      | some line2 =>
        let c ← mkCircle ⟨0, 0⟩ 1
        match intersection_circle_line c line2 with
        | .none => return .none
        | .one I => return .one ((Affine.ofEllipse (.ell e)).transform I)
        | .two I1 I2 => return .two ((Affine.ofEllipse (.ell e)).transform I1) ((Affine.ofEllipse (.ell e)).transform I2)) := by
    have : intersection_ellipse_line (.ell e) l = (match (Affine.ofEllipse (.ell e)).inverse with
      | none => .error .attributeError
      | some invf => do
        match ← invf.transform_line l with
        | none => .error .attributeError
        | some line2 =>
          let c ← mkCircle ⟨0, 0⟩ 1
          match intersection_circle_line c line2 with
          | .none => return .none
          | .one I => return .one ((Affine.ofEllipse (.ell e)).transform I)
          | .two I1 I2 => return .two ((Affine.ofEllipse (.ell e)).transform I1) ((Affine.ofEllipse (.ell e)).transform I2)) := rfl
    rw [this, hg]
  by_cases hc : allclose (g.transform l.A) (g.transform l.B)
  · left
    rw [hdef]
    unfold Affine.transform_line mkLine
    rw [if_neg hgd, if_pos hc]
    exact ⟨_, rfl, _, _, hc, hr _, hr _⟩
  · right
    obtain ⟨l2, e1, -, -, e2, e3, e4, -, -⟩ := (C47_transform_line_partial g l).2 hgb hc
    refine ⟨l2, by unfold Line.Valid; rw [e2, e3]; exact hc, ⟨by rw [e2, hr], by rw [e3, hr]⟩, ?_, ?_⟩
    · intro P
      rw [e4, hl]
    · rw [hdef, e1, mkCircle_pos (by norm_num : (0 : ℝ) < 1)]
      simp only [Res.ok_bind]
      cases hi : intersection_circle_line ⟨⟨0, 0⟩, 1⟩ l2 with
      | none => left; exact ⟨rfl, rfl⟩
      | one I => right; left; exact ⟨I, rfl, rfl⟩
      | two I J => right; right; exact ⟨I, J, rfl, rfl⟩

/-- C70: `None` means that there is no common point. -/
theorem C70_none (x : EllArg) (hx : ValidArg x) (l : Line) (hl : l.Valid)
    (h : intersection_ellipse_line x l = .ok .none) : ¬ ∃ X, OnLine l.A l.B X ∧ OnArg x X := by
  cases x with
  | circ c =>
    unfold intersection_ellipse_line at h
    simp only [Except.ok.injEq] at h
    exact C21_none c l hl h
  | ell e =>
    obtain ⟨d1, h1⟩ := ofEllipse_spec (x := .ell e) hx
    rcases iel_cases e hx l with ⟨m, h2, -⟩ | ⟨l2, v, -, hon, ⟨h3, -⟩ | ⟨I, -, h2⟩ | ⟨I, J, -, h2⟩⟩
    · rw [h] at h2; simp at h2
    · rintro ⟨X, hX1, hX2⟩
      obtain ⟨g, -, -, hg, -⟩ := inverse_some _ d1
      exact C21_none _ _ v h3 ⟨g.transform X, (hon _).2 (by rwa [hg]), (h1 _).2 (by rwa [hg])⟩
    · rw [h] at h2; simp at h2
    · rw [h] at h2; simp at h2

/-- C70: two returned points are distinct, common to the curve and the line, and there is no other common point. -/
theorem C70_two (x : EllArg) (hx : ValidArg x) (l : Line) (hl : l.Valid) (P Q : Pt)
    (h : intersection_ellipse_line x l = .ok (.two P Q)) :
    P ≠ Q ∧ ∀ X, (OnLine l.A l.B X ∧ OnArg x X) ↔ X = P ∨ X = Q := by
  cases x with
  | circ c =>
    unfold intersection_ellipse_line at h
    simp only [Except.ok.injEq] at h
    exact C21_two c l hl P Q h
  | ell e =>
    obtain ⟨d1, h1⟩ := ofEllipse_spec (x := .ell e) hx
    rcases iel_cases e hx l with ⟨m, h2, -⟩ | ⟨l2, v, -, hon, ⟨-, h2⟩ | ⟨I, -, h2⟩ | ⟨I, J, h3, h2⟩⟩
    · rw [h] at h2; simp at h2
    · rw [h] at h2; simp at h2
    · rw [h] at h2; simp at h2
    · rw [h] at h2
      simp only [Except.ok.injEq, PtRes.two.injEq] at h2
      obtain ⟨rfl, rfl⟩ := h2
      have hi := (transform_injective_iff _).2 d1
      obtain ⟨g, -, -, hg, -⟩ := inverse_some _ d1
      obtain ⟨hne, hall⟩ := C21_two _ _ v I J h3
      refine ⟨fun h0 => hne (hi h0), ?_⟩
      intro X
      obtain ⟨Y, rfl⟩ : ∃ Y, (Affine.ofEllipse (.ell e)).transform Y = X := ⟨_, hg X⟩
      rw [← hon, ← h1, hi.eq_iff, hi.eq_iff]
      exact hall Y

/-- C70: a single returned point is on the line. -/
theorem C70_one_on_line (x : EllArg) (hx : ValidArg x) (l : Line) (hl : l.Valid) (P : Pt)
    (h : intersection_ellipse_line x l = .ok (.one P)) : OnLine l.A l.B P := by
  cases x with
  | circ c =>
    unfold intersection_ellipse_line at h
    simp only [Except.ok.injEq] at h
    exact (C21_one c l hl P h).1
  | ell e =>
    rcases iel_cases e hx l with ⟨m, h2, -⟩ | ⟨l2, v, -, hon, ⟨-, h2⟩ | ⟨I, h3, h2⟩ | ⟨I, J, h3, h2⟩⟩
    · rw [h] at h2; simp at h2
    · rw [h] at h2; simp at h2
    · rw [h] at h2
      simp only [Except.ok.injEq, PtRes.one.injEq] at h2
      rw [h2, ← hon]
      exact (C21_one _ _ v I h3).1
    · rw [h] at h2; simp at h2

/-- C70: a line with exactly one common point gives that point, unless the call raises. -/
theorem C70_tangent (x : EllArg) (hx : ValidArg x) (l : Line) (hl : l.Valid) (T : Pt) (hT : OnLine l.A l.B T)
    (hc : OnArg x T) (hu : ∀ X, OnLine l.A l.B X → OnArg x X → X = T) (r : PtRes)
    (hr : intersection_ellipse_line x l = .ok r) : r = .one T := by
  cases x with
  | circ c =>
    unfold intersection_ellipse_line at hr
    simp only [Except.ok.injEq] at hr
    rw [← hr]
    exact C21_tangent c l hl T hT hc hu
  | ell e =>
    obtain ⟨d1, h1⟩ := ofEllipse_spec (x := .ell e) hx
    obtain ⟨g, -, hg', hg, -⟩ := inverse_some _ d1
    rcases iel_cases e hx l with ⟨m, h2, -⟩ | ⟨l2, v, -, hon, hcase⟩
    · rw [hr] at h2; simp at h2
    · have key := C21_tangent ⟨⟨0, 0⟩, 1⟩ l2 v (g.transform T) ((hon _).2 (by rwa [hg])) ((h1 _).2 (by rwa [hg])) (by
        intro X hX1 hX2
        rw [← hu _ ((hon X).1 hX1) ((h1 X).1 hX2), hg'])
      rcases hcase with ⟨h3, -⟩ | ⟨I, h3, h4⟩ | ⟨I, J, h3, -⟩
      · rw [key] at h3; simp at h3
      · rw [key] at h3
        simp only [PtRes.one.injEq] at h3
        rw [hr, ← h3, hg] at h4
        exact Except.ok.inj h4
      · rw [key] at h3; simp at h3

/-- C70: the call raises (always `ValueError`) exactly when the coordinates of the two points defining the line, in the
frame of the axes of the ellipse and in units of the semi-axes, are `np.allclose`; for a circle it never raises. -/
theorem C70_failure (l : Line) :
    (∀ c : Circle, ∃ r, intersection_ellipse_line (.circ c) l = .ok r) ∧
    ∀ e : Ellipse, e.Valid →
      ((∃ m, intersection_ellipse_line (.ell e) l = .error (.valueError m)) ∨ ∃ r, intersection_ellipse_line (.ell e) l = .ok r) ∧
      ((∃ m, intersection_ellipse_line (.ell e) l = .error (.valueError m)) ↔
        allclose ⟨(axisCoord e.center e.rad l.A).x / e.rmajor, (axisCoord e.center e.rad l.A).y / e.rminor⟩
          ⟨(axisCoord e.center e.rad l.B).x / e.rmajor, (axisCoord e.center e.rad l.B).y / e.rminor⟩) := by
  constructor
  · intro c
    exact ⟨_, rfl⟩
  · intro e he
    obtain ⟨d1, -⟩ := ofEllipse_spec (x := .ell e) he
    have hi := (transform_injective_iff _).2 d1
    have hcs := sin_sq_add_cos_sq e.rad
    have hf : Affine.ofEllipse (.ell e) = ⟨!![e.rmajor * cos e.rad, -(e.rminor * sin e.rad); e.rmajor * sin e.rad, e.rminor * cos e.rad], e.center⟩ := by
      unfold Affine.ofEllipse Ellipse.rad
      simp
    have h1 := he.1.ne'
    have h2 := he.2.ne'
    have hinv : ∀ P, (Affine.ofEllipse (.ell e)).transform
        ⟨(axisCoord e.center e.rad P).x / e.rmajor, (axisCoord e.center e.rad P).y / e.rminor⟩ = P := by
      intro P
      rw [hf]
      unfold Affine.transform axisCoord
      ext
      · simp
        field_simp
        linear_combination (P.x - e.center.x) * hcs
      · simp
        field_simp
        linear_combination (P.y - e.center.y) * hcs
    rcases iel_cases e he l with ⟨m, h3, PA, PB, hc, hA, hB⟩ | ⟨l2, v, ⟨hA, hB⟩, hon, hcase⟩
    · refine ⟨Or.inl ⟨m, h3⟩, fun _ => ?_, fun _ => ⟨m, h3⟩⟩
      rw [← hi (hA.trans (hinv l.A).symm), ← hi (hB.trans (hinv l.B).symm)]
      exact hc
    · have hok : ∃ r, intersection_ellipse_line (.ell e) l = .ok r := by
        rcases hcase with ⟨-, h3⟩ | ⟨I, -, h3⟩ | ⟨I, J, -, h3⟩ <;> exact ⟨_, h3⟩
      refine ⟨Or.inr hok, ?_, ?_⟩
      · rintro ⟨m, h3⟩
        obtain ⟨r, h4⟩ := hok
        rw [h3] at h4
        simp at h4
      · intro hc
        rw [← hi (hA.trans (hinv l.A).symm), ← hi (hB.trans (hinv l.B).symm)] at hc
        exact absurd hc v

/-- C70: the call does raise for a line through the center of a large ellipse, although there are two common points. -/
theorem C70_large_ellipse_counterexample :
    (∃ m, intersection_ellipse_line (.ell ⟨⟨0, 0⟩, 10 ^ 9, 10 ^ 9, 0, true⟩) ⟨⟨0, 0⟩, ⟨1, 0⟩, true, true⟩ =
      .error (.valueError m)) ∧
    ∃ X, OnLine (⟨0, 0⟩ : Pt) ⟨1, 0⟩ X ∧ OnArg (.ell ⟨⟨0, 0⟩, 10 ^ 9, 10 ^ 9, 0, true⟩) X := by
  constructor
  · have he : (⟨⟨0, 0⟩, 10 ^ 9, 10 ^ 9, 0, true⟩ : Ellipse).Valid := ⟨by norm_num, by norm_num⟩
    rw [((C70_failure _).2 _ he).2]
    unfold axisCoord Ellipse.rad allclose npClose
    norm_num
  · refine ⟨⟨10 ^ 9, 0⟩, ⟨10 ^ 9, by ext <;> simp⟩, 0, ?_⟩
    unfold ellipsePoint Ellipse.rad; ext <;> simp

/-- C70: near tangency a single point is returned that is not on the curve (as for circles, see C21). -/
theorem C70_near_tangent_counterexample :
    intersection_ellipse_line (.circ ⟨⟨0, 0⟩, 1⟩) ⟨⟨0, 1 - 1 / 10 ^ 9⟩, ⟨1, 1 - 1 / 10 ^ 9⟩, true, true⟩ =
      .ok (.one ⟨0, 1 - 1 / 10 ^ 9⟩) ∧ ¬ OnArg (.circ ⟨⟨0, 0⟩, 1⟩) ⟨0, 1 - 1 / 10 ^ 9⟩ := by
  refine ⟨?_, C21_near_tangent_counterexample.2⟩
  unfold intersection_ellipse_line
  dsimp only
  rw [C21_near_tangent_counterexample.1]

/-- The line of equation `x = 2` is tangent to the ellipse of half axes 2 and 1: whatever is returned is `(2, 0)`. -/
example (r : PtRes) (h : intersection_ellipse_line (.ell ⟨⟨0, 0⟩, 2, 1, 0, true⟩) ⟨⟨2, 0⟩, ⟨2, 1⟩, true, true⟩ = .ok r) :
    r = .one ⟨2, 0⟩ := by
  refine C70_tangent _ (by constructor <;> norm_num) _ (by unfold Line.Valid allclose npClose; norm_num) _
    (onLine_left _ _) ?_ ?_ _ h
  · refine ⟨0, ?_⟩
    unfold ellipsePoint Ellipse.rad; ext <;> norm_num
  · rintro X ⟨t, rfl⟩ ⟨s, hs⟩
    have hx := congrArg Pt.x hs
    have hy := congrArg Pt.y hs
    simp [ellipsePoint, Ellipse.rad] at hx hy
    have := sin_sq_add_cos_sq s
    have h0 : sin s = 0 := by rw [← hx] at this; nlinarith
    ext <;> simp [hy, h0]

/-- The line of equation `y = 0` is found to meet it: `None` is not returned, two points are `(2, 0)` and `(-2, 0)`. -/
example : intersection_ellipse_line (.ell ⟨⟨0, 0⟩, 2, 1, 0, true⟩) ⟨⟨0, 0⟩, ⟨1, 0⟩, true, true⟩ ≠ .ok .none ∧
    ∀ P Q, intersection_ellipse_line (.ell ⟨⟨0, 0⟩, 2, 1, 0, true⟩) ⟨⟨0, 0⟩, ⟨1, 0⟩, true, true⟩ = .ok (.two P Q) →
      (⟨2, 0⟩ : Pt) = P ∨ (⟨2, 0⟩ : Pt) = Q := by
  have hv : (⟨⟨0, 0⟩, ⟨1, 0⟩, true, true⟩ : Line).Valid := by unfold Line.Valid allclose npClose; norm_num
  have he : ValidArg (.ell ⟨⟨0, 0⟩, 2, 1, 0, true⟩) := by constructor <;> norm_num
  have hl : OnLine (⟨0, 0⟩ : Pt) ⟨1, 0⟩ ⟨2, 0⟩ := ⟨2, by ext <;> norm_num⟩
  have ho : OnArg (.ell ⟨⟨0, 0⟩, 2, 1, 0, true⟩) ⟨2, 0⟩ := ⟨0, by unfold ellipsePoint Ellipse.rad; ext <;> norm_num⟩
  exact ⟨fun h => C70_none _ he _ hv h ⟨_, hl, ho⟩, fun P Q h => ((C70_two _ he _ hv P Q h).2 _).1 ⟨hl, ho⟩⟩

/-- A circle never raises; one point, when one is returned, is on the line. -/
example : (∃ r, intersection_ellipse_line (.circ ⟨⟨0, 0⟩, 1⟩) ⟨⟨2, 0⟩, ⟨2, 1⟩, true, true⟩ = .ok r) ∧
    ∀ P, intersection_ellipse_line (.circ ⟨⟨0, 0⟩, 1⟩) ⟨⟨2, 0⟩, ⟨2, 1⟩, true, true⟩ = .ok (.one P) → P.x = 2 := by
  refine ⟨(C70_failure _).1 _, fun P h => ?_⟩
  obtain ⟨t, rfl⟩ := C70_one_on_line _ (by show (0 : ℝ) < 1; norm_num) _
    (by unfold Line.Valid allclose npClose; norm_num) _ h
  simp
