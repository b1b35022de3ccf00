import Verif.Spec.Gasket
import Verif.Model.Gasket
import Verif.Props.Conformal
import Mathlib.Data.Set.Image

/-! Discs, their images by inversions, and disjointness. -/

open Spec Real Classical

theorem xinv_involutive (O : Pt) {k : ℝ} (hk : k ≠ 0) : Function.Involutive (xinv O k) := by
  intro X
  cases X with
  | inf => simp [xinv]
  | fin P =>
    by_cases h : P = O
    · subst h; simp [xinv]
    · have hq : 0 < sqDist P O := sqDist_pos h
      have hne : O + (k / sqDist P O) • (P - O) ≠ O := by
        intro he
        apply h
        have hx := congrArg Pt.x he
        have hy := congrArg Pt.y he
        simp only [Pt.add_x, Pt.add_y, Pt.smul_x, Pt.smul_y, Pt.sub_x, Pt.sub_y] at hx hy
        have hkq : k / sqDist P O ≠ 0 := div_ne_zero hk hq.ne'
        have e1 : P.x - O.x = 0 := by
          rcases mul_eq_zero.1 (show k / sqDist P O * (P.x - O.x) = 0 by linarith) with h | h
          · exact absurd h hkq
          · exact h
        have e2 : P.y - O.y = 0 := by
          rcases mul_eq_zero.1 (show k / sqDist P O * (P.y - O.y) = 0 by linarith) with h | h
          · exact absurd h hkq
          · exact h
        ext <;> linarith
      have hs : sqDist (O + (k / sqDist P O) • (P - O)) O = k ^ 2 / sqDist P O := by
        have e : sqDist (O + (k / sqDist P O) • (P - O)) O = (k / sqDist P O) ^ 2 * sqDist P O := by
          unfold sqDist; simp; ring
        rw [e]; field_simp
      simp only [xinv, if_neg h, if_neg hne, hs]
      congr 1
      have hc : k / (k ^ 2 / sqDist P O) * (k / sqDist P O) = 1 := by field_simp
      ext
      · simp only [Pt.add_x, Pt.smul_x, Pt.sub_x]
        linear_combination (P.x - O.x) * hc
      · simp only [Pt.add_y, Pt.smul_y, Pt.sub_y]
        linear_combination (P.y - O.y) * hc

theorem mem_disc_fin {c : Circle} {P : Pt} : XPt.fin P ∈ (disc c).inside ↔ sqDist P c.center < c.radius ^ 2 := by
  constructor
  · rintro ⟨Q, h, hq⟩; cases h; exact hq
  · intro h; exact ⟨P, rfl, h⟩

theorem mem_disc_inf {c : Circle} : XPt.inf ∉ (disc c).inside := by rintro ⟨Q, h, -⟩; cases h

theorem mem_edge_fin {c : Circle} {P : Pt} : XPt.fin P ∈ (disc c).edge ↔ sqDist P c.center = c.radius ^ 2 := by
  constructor
  · rintro ⟨Q, h, hq⟩; cases h; exact hq
  · intro h; exact ⟨P, rfl, h⟩

theorem mem_edge_inf {c : Circle} : XPt.inf ∉ (disc c).edge := by rintro ⟨Q, h, -⟩; cases h

theorem mem_outside_fin {c : Circle} {P : Pt} : XPt.fin P ∈ (outside c).inside ↔ c.radius ^ 2 < sqDist P c.center := by
  constructor
  · rintro (h | ⟨Q, h, hq⟩)
    · cases h
    · cases h; exact hq
  · intro h; exact Or.inr ⟨P, rfl, h⟩

theorem mem_outside_inf {c : Circle} : XPt.inf ∈ (outside c).inside := Or.inl rfl

theorem image_eq_of {f : XPt → XPt} (hf : Function.Involutive f) {A B : Set XPt} (h : ∀ X, X ∈ A ↔ f X ∈ B) : f '' A = B := by
  ext X
  constructor
  · rintro ⟨Y, hY, rfl⟩; exact (h Y).1 hY
  · intro hX; exact ⟨f X, (h _).2 (by rw [hf X]; exact hX), hf X⟩

theorem Region.image_image {f : XPt → XPt} (hf : Function.Involutive f) (A : Region) : (A.image f).image f = A := by
  unfold Region.image
  simp only [← Set.image_comp, hf.comp_self, Set.image_id]

theorem Region.apart_image {f : XPt → XPt} (hf : Function.Involutive f) {A B : Region} (h : A.Apart B) :
    (A.image f).Apart (B.image f) := (Set.disjoint_image_iff hf.injective).2 h

theorem Region.Apart.symm {A B : Region} (h : A.Apart B) : B.Apart A := Disjoint.symm h

theorem Region.Touches.symm {A B : Region} (h : A.Touches B) : B.Touches A := by
  obtain ⟨X, h1, h2⟩ := h
  exact ⟨X, ⟨h1.2, h1.1⟩, fun Y hY => h2 Y ⟨hY.2, hY.1⟩⟩

theorem Region.touches_image {f : XPt → XPt} (hf : Function.Involutive f) {A B : Region} (h : A.Touches B) :
    (A.image f).Touches (B.image f) := by
  obtain ⟨X, ⟨h1, h2⟩, h3⟩ := h
  refine ⟨f X, ⟨⟨X, h1, rfl⟩, ⟨X, h2, rfl⟩⟩, ?_⟩
  rintro Y ⟨⟨Y1, hy1, rfl⟩, ⟨Y2, hy2, he⟩⟩
  obtain rfl := hf.injective he
  rw [h3 _ ⟨hy1, hy2⟩]

/-- The power of the image of a point with respect to the image of a circle. -/
theorem power_image {O P : Pt} {k D : ℝ} (c : Circle) (hP : P ≠ O) (hD : D = sqDist c.center O - c.radius ^ 2) (hD0 : D ≠ 0) :
    sqDist (O + (k / sqDist P O) • (P - O)) (O + (k / D) • (c.center - O)) - (|k / D| * c.radius) ^ 2 =
      k ^ 2 / (sqDist P O * D) * (sqDist P c.center - c.radius ^ 2) := by
  have hq : sqDist P O ≠ 0 := (sqDist_pos hP).ne'
  rw [mul_pow, sq_abs]
  have h1 : k / sqDist P O * sqDist P O = k := div_mul_cancel₀ _ hq
  have h2 : k / D * D = k := div_mul_cancel₀ _ hD0
  have h3 : k ^ 2 / (sqDist P O * D) = (k / sqDist P O) * (k / D) := by
    rw [div_mul_div_comm, pow_two]
  rw [h3]
  obtain ⟨α, hα⟩ : ∃ α, α = k / sqDist P O := ⟨_, rfl⟩
  obtain ⟨β, hβ⟩ : ∃ β, β = k / D := ⟨_, rfl⟩
  rw [← hα] at h1
  rw [← hβ] at h2
  rw [← hα, ← hβ]
  clear hα hβ h3 hq
  rw [hD] at h2
  clear hD hD0
  unfold sqDist at *
  simp only [Pt.add_x, Pt.add_y, Pt.smul_x, Pt.smul_y, Pt.sub_x, Pt.sub_y]
  linear_combination (α - β) * (h1 - h2)

/-- The images of the disc and of the outside of a circle whose edge does not pass through the pole. -/
theorem image_region {iota : Inversion} {c c' : Circle} {D : ℝ} (hk : iota.power ≠ 0) (hD : D = sqDist c.center iota.pole - c.radius ^ 2)
    (hD0 : D ≠ 0) (hcen : c'.center = iota.pole + (iota.power / D) • (c.center - iota.pole)) (hrad : c'.radius = |iota.power / D| * c.radius) :
    (c.radius ^ 2 < sqDist c.center iota.pole → (disc c).image (xinv iota.pole iota.power) = disc c') ∧
    (sqDist c.center iota.pole < c.radius ^ 2 → (disc c).image (xinv iota.pole iota.power) = outside c' ∧
      (outside c).image (xinv iota.pole iota.power) = disc c') := by
  have hinv := xinv_involutive iota.pole hk
  have hk2 : 0 < iota.power ^ 2 := by positivity
  -- finite points other than the pole
  have hpt : ∀ P, P ≠ iota.pole → ∃ Q, xinv iota.pole iota.power (.fin P) = .fin Q ∧
      sqDist Q c'.center - c'.radius ^ 2 = iota.power ^ 2 / (sqDist P iota.pole * D) * (sqDist P c.center - c.radius ^ 2) := by
    intro P hP
    refine ⟨iota.pole + (iota.power / sqDist P iota.pole) • (P - iota.pole), by simp [xinv, hP], ?_⟩
    rw [hcen, hrad]
    exact power_image c hP hD hD0
  have hpole : xinv iota.pole iota.power (.fin iota.pole) = .inf := by simp [xinv]
  have hinf : xinv iota.pole iota.power .inf = .fin iota.pole := rfl
  have hDp : sqDist iota.pole c'.center - c'.radius ^ 2 = iota.power ^ 2 / D := by
    rw [hcen, hrad, mul_pow, sq_abs]
    have e : sqDist iota.pole (iota.pole + (iota.power / D) • (c.center - iota.pole)) = (iota.power / D) ^ 2 * sqDist c.center iota.pole := by
      unfold sqDist; simp; ring
    rw [e, show sqDist c.center iota.pole = D + c.radius ^ 2 by linarith]
    field_simp
    ring
  have hcc : sqDist iota.pole c.center = D + c.radius ^ 2 := by rw [sqDist_comm]; linarith
  have hedge : xinv iota.pole iota.power '' (disc c).edge = (disc c').edge := by
    refine image_eq_of hinv ?_
    intro X
    cases X with
    | inf =>
      rw [hinf, mem_edge_fin]
      have : iota.power ^ 2 / D ≠ 0 := div_ne_zero hk2.ne' hD0
      constructor
      · intro h; exact absurd h mem_edge_inf
      · intro h; exact absurd (by rw [← hDp, h, sub_self]) this
    | fin P =>
      by_cases hP : P = iota.pole
      · subst hP
        rw [hpole, mem_edge_fin]
        constructor
        · intro h; exact absurd (by linarith) hD0
        · intro h; exact absurd h mem_edge_inf
      · obtain ⟨Q, hQ, hQ2⟩ := hpt P hP
        rw [hQ, mem_edge_fin, mem_edge_fin]
        have hne : iota.power ^ 2 / (sqDist P iota.pole * D) ≠ 0 :=
          div_ne_zero hk2.ne' (mul_ne_zero (sqDist_pos hP).ne' hD0)
        constructor
        · intro h; rw [h, sub_self, mul_zero] at hQ2; linarith
        · intro h
          rw [h, sub_self] at hQ2
          rcases mul_eq_zero.1 hQ2.symm with h | h
          · exact absurd h hne
          · linarith
  constructor
  · intro hlt
    have hDpos : 0 < D := by linarith
    refine Region.ext ?_ hedge
    refine image_eq_of hinv ?_
    intro X
    cases X with
    | inf =>
      rw [hinf, mem_disc_fin]
      have : 0 < iota.power ^ 2 / D := by positivity
      constructor
      · intro h; exact absurd h mem_disc_inf
      · intro h; linarith
    | fin P =>
      by_cases hP : P = iota.pole
      · subst hP
        rw [hpole, mem_disc_fin]
        constructor
        · intro h; linarith
        · intro h; exact absurd h mem_disc_inf
      · obtain ⟨Q, hQ, hQ2⟩ := hpt P hP
        rw [hQ, mem_disc_fin, mem_disc_fin]
        have hq := sqDist_pos hP
        have hpos : 0 < iota.power ^ 2 / (sqDist P iota.pole * D) := by positivity
        constructor
        · intro h
          have := mul_neg_of_pos_of_neg hpos (sub_neg.2 h)
          linarith
        · intro h
          by_contra hc
          have := mul_nonneg hpos.le (sub_nonneg.2 (not_lt.1 hc))
          linarith
  · intro hlt
    have hDneg : D < 0 := by linarith
    have main : (disc c).image (xinv iota.pole iota.power) = outside c' := by
      refine Region.ext ?_ hedge
      refine image_eq_of hinv ?_
      intro X
      cases X with
      | inf =>
        rw [hinf, mem_outside_fin]
        have : iota.power ^ 2 / D < 0 := div_neg_of_pos_of_neg hk2 hDneg
        constructor
        · intro h; exact absurd h mem_disc_inf
        · intro h; linarith
      | fin P =>
        by_cases hP : P = iota.pole
        · subst hP
          rw [hpole, mem_disc_fin]
          constructor
          · intro _; exact mem_outside_inf
          · intro _; linarith
        · obtain ⟨Q, hQ, hQ2⟩ := hpt P hP
          rw [hQ, mem_disc_fin, mem_outside_fin]
          have hq := sqDist_pos hP
          have hneg : iota.power ^ 2 / (sqDist P iota.pole * D) < 0 :=
            div_neg_of_pos_of_neg hk2 (mul_neg_of_pos_of_neg hq hDneg)
          constructor
          · intro h
            have := mul_pos_of_neg_of_neg hneg (sub_neg.2 h)
            linarith
          · intro h
            by_contra hc
            have := mul_nonpos_of_nonpos_of_nonneg hneg.le (sub_nonneg.2 (not_lt.1 hc))
            linarith
    refine ⟨main, ?_⟩
    refine Region.ext ?_ hedge
    refine image_eq_of hinv ?_
    intro X
    cases X with
    | inf =>
      rw [hinf, mem_disc_fin]
      have : iota.power ^ 2 / D < 0 := div_neg_of_pos_of_neg hk2 hDneg
      exact ⟨fun _ => by linarith, fun _ => mem_outside_inf⟩
    | fin P =>
      by_cases hP : P = iota.pole
      · subst hP
        rw [hpole, mem_outside_fin]
        exact ⟨fun h => by linarith, fun h => absurd h mem_disc_inf⟩
      · obtain ⟨Q, hQ, hQ2⟩ := hpt P hP
        rw [hQ, mem_disc_fin, mem_outside_fin]
        have hq := sqDist_pos hP
        have hneg : iota.power ^ 2 / (sqDist P iota.pole * D) < 0 :=
          div_neg_of_pos_of_neg hk2 (mul_neg_of_pos_of_neg hq hDneg)
        constructor
        · intro h
          have := mul_neg_of_neg_of_pos hneg (sub_pos.2 h)
          linarith
        · intro h
          by_contra hc
          have := mul_nonneg_of_nonpos_of_nonpos hneg.le (sub_nonpos.2 (not_lt.1 hc))
          linarith

/-- The image of a disc that does not contain the pole is the disc of the image circle; that of a disc containing the pole is the outside of the
image circle. -/
theorem image_disc {iota : Inversion} {c c' : Circle} (h : iota.invert_circle c = .ok (.circle c')) :
    (c.radius ^ 2 < sqDist c.center iota.pole → (disc c).image (xinv iota.pole iota.power) = disc c') ∧
    (sqDist c.center iota.pole < c.radius ^ 2 → (disc c).image (xinv iota.pole iota.power) = outside c' ∧
      (outside c).image (xinv iota.pole iota.power) = disc c') := by
  obtain ⟨D, hD, hD0, hcen, hrad, hval⟩ := invert_circle_explicit h
  have hk : iota.power ≠ 0 := by
    intro hk
    unfold Circle.Valid at hval
    rw [hrad, hk] at hval
    simp at hval
  exact image_region hk hD hD0 hcen hrad

theorem outside_inside (c : Circle) : (outside c).inside = ((disc c).inside ∪ (disc c).edge)ᶜ := by
  ext X
  cases X with
  | inf => simp only [mem_outside_inf, Set.mem_compl_iff, Set.mem_union, mem_disc_inf, mem_edge_inf, or_self, not_false_eq_true]
  | fin P =>
    rw [mem_outside_fin, Set.mem_compl_iff, Set.mem_union, mem_disc_fin, mem_edge_fin, ← le_iff_lt_or_eq, not_le]

/-- The image of the outside of a circle, if the pole is outside. -/
theorem image_outside {iota : Inversion} {c c' : Circle} {D : ℝ} (hk : iota.power ≠ 0) (hD : D = sqDist c.center iota.pole - c.radius ^ 2)
    (hD0 : 0 < D) (hcen : c'.center = iota.pole + (iota.power / D) • (c.center - iota.pole)) (hrad : c'.radius = |iota.power / D| * c.radius) :
    (outside c).image (xinv iota.pole iota.power) = outside c' := by
  have h := (image_region hk hD hD0.ne' hcen hrad).1 (by linarith)
  have h1 : xinv iota.pole iota.power '' (disc c).inside = (disc c').inside := congrArg Region.inside h
  have h2 : xinv iota.pole iota.power '' (disc c).edge = (disc c').edge := congrArg Region.edge h
  refine Region.ext ?_ h2
  change xinv iota.pole iota.power '' (outside c).inside = (outside c').inside
  rw [outside_inside, outside_inside, Set.image_compl_eq (xinv_involutive iota.pole hk).bijective, Set.image_union, h1, h2]

theorem specDist_comm (P Q : Pt) : Spec.dist P Q = Spec.dist Q P := by unfold Spec.dist; rw [sqDist_comm]

theorem specDist_triangle (P Q R : Pt) : Spec.dist P R ≤ Spec.dist P Q + Spec.dist Q R := by
  have a0 : 0 ≤ Spec.dist P Q := Real.sqrt_nonneg _
  have b0 : 0 ≤ Spec.dist Q R := Real.sqrt_nonneg _
  have a2 : Spec.dist P Q ^ 2 = sqDist P Q := Real.sq_sqrt (sqDist_nonneg _ _)
  have b2 : Spec.dist Q R ^ 2 = sqDist Q R := Real.sq_sqrt (sqDist_nonneg _ _)
  refine Real.sqrt_le_iff.2 ⟨by linarith, ?_⟩
  obtain ⟨a, ha⟩ : ∃ a, a = Spec.dist P Q := ⟨_, rfl⟩
  obtain ⟨b, hb⟩ : ∃ b, b = Spec.dist Q R := ⟨_, rfl⟩
  rw [← ha] at a0 a2 ⊢
  rw [← hb] at b0 b2 ⊢
  unfold sqDist at *
  have hcs : (P.x - Q.x) * (Q.x - R.x) + (P.y - Q.y) * (Q.y - R.y) ≤ a * b := by
    refine abs_le_of_sq_le_sq' ?_ (by positivity) |>.2
    rw [mul_pow, a2, b2]
    nlinarith [sq_nonneg ((P.x - Q.x) * (Q.y - R.y) - (P.y - Q.y) * (Q.x - R.x))]
  nlinarith

/-- Two discs are apart exactly when the distance of the centers is at least the sum of the radii. -/
theorem disc_apart_iff {c1 c2 : Circle} (h1 : c1.Valid) (h2 : c2.Valid) :
    (disc c1).Apart (disc c2) ↔ c1.radius + c2.radius ≤ dist c1.center c2.center := by
  have r1 : 0 < c1.radius := h1
  have r2 : 0 < c2.radius := h2
  have hds : dist c1.center c2.center ^ 2 = sqDist c1.center c2.center := Real.sq_sqrt (sqDist_nonneg _ _)
  have hd0 : 0 ≤ dist c1.center c2.center := Real.sqrt_nonneg _
  constructor
  · intro h
    by_contra hc
    push Not at hc
    have hs : 0 < c1.radius + c2.radius := by linarith
    have hdj := Set.disjoint_left.1 h
    refine hdj (a := XPt.fin (c1.center + (c1.radius / (c1.radius + c2.radius)) • (c2.center - c1.center))) ?_ ?_
    · rw [mem_disc_fin]
      have e : sqDist (c1.center + (c1.radius / (c1.radius + c2.radius)) • (c2.center - c1.center)) c1.center =
          (c1.radius * dist c1.center c2.center / (c1.radius + c2.radius)) ^ 2 := by
        rw [div_pow, mul_pow, hds]
        unfold sqDist
        simp only [Pt.add_x, Pt.add_y, Pt.smul_x, Pt.smul_y, Pt.sub_x, Pt.sub_y]
        field_simp
        ring
      rw [e]
      refine pow_lt_pow_left₀ ?_ (by positivity) (by norm_num)
      rw [div_lt_iff₀ hs]
      exact mul_lt_mul_of_pos_left hc r1
    · rw [mem_disc_fin]
      have e : sqDist (c1.center + (c1.radius / (c1.radius + c2.radius)) • (c2.center - c1.center)) c2.center =
          (c2.radius * dist c1.center c2.center / (c1.radius + c2.radius)) ^ 2 := by
        rw [div_pow, mul_pow, hds]
        unfold sqDist
        simp only [Pt.add_x, Pt.add_y, Pt.smul_x, Pt.smul_y, Pt.sub_x, Pt.sub_y]
        field_simp
        ring
      rw [e]
      refine pow_lt_pow_left₀ ?_ (by positivity) (by norm_num)
      rw [div_lt_iff₀ hs]
      exact mul_lt_mul_of_pos_left hc r2
  · intro h
    refine Set.disjoint_left.2 ?_
    rintro X ⟨P, rfl, hP⟩ hX
    rw [mem_disc_fin] at hX
    have a1 : Spec.dist P c1.center < c1.radius := by
      unfold Spec.dist; rw [Real.sqrt_lt' r1]; exact hP
    have a2 : Spec.dist P c2.center < c2.radius := by
      unfold Spec.dist; rw [Real.sqrt_lt' r2]; exact hX
    have tri := specDist_triangle c1.center P c2.center
    rw [specDist_comm c1.center P] at tri
    linarith
