import Verif.Props.Mobius
import Mathlib.Analysis.Real.Pi.Bounds

/-!
# C53: images of circles by Möbius transformations
-/

open Spec Real Classical

theorem normSq_mod2 (z : ℂ) : mod2_ z = Complex.normSq z := by rw [Complex.normSq_apply]; rfl

theorem xOnCircle_iff (O : Pt) (r : ℝ) (P : XPt) :
    XOnCircle O r P ↔ Complex.normSq (num P - cpx O * den P) = r ^ 2 * Complex.normSq (den P) := by
  cases P with
  | fin P => simp only [XOnCircle, onCircle_iff_norm, num_fin, den_fin, mul_one, map_one]
  | inf => simp [XOnCircle]

/-- The preimage of `Q` is on the circle iff `Q` satisfies a quadratic equation. -/
theorem circle_pullback {a b c d : ℂ} (h : a * d - b * c ≠ 0) {P Q : XPt} (hi : IsMobImage a b c d P Q) (O : Pt) (r : ℝ) :
    XOnCircle O r P ↔ Complex.normSq ((c * cpx O + d) * num Q - (a * cpx O + b) * den Q) =
      r ^ 2 * Complex.normSq (-c * num Q + a * den Q) := by
  obtain ⟨μ, hμ, e1, e2⟩ := (mobImage_iff (by intro e; apply h; linear_combination e) Q P).1 (mobImage_symm h hi)
  have e3 : (c * cpx O + d) * num Q - (a * cpx O + b) * den Q = μ * (num P - cpx O * den P) := by
    linear_combination e1 - cpx O * e2
  rw [xOnCircle_iff, e3, e2, Complex.normSq_mul, Complex.normSq_mul]
  have hμ' : Complex.normSq μ ≠ 0 := fun e => hμ (Complex.normSq_eq_zero.1 e)
  constructor
  · intro e; rw [e]; ring
  · intro e; apply mul_left_cancel₀ hμ'; linear_combination e

theorem circle_identity (U V a c w : ℂ) (R : ℝ) :
    (Complex.normSq V - R ^ 2 * Complex.normSq c) * (Complex.normSq (V * w - U) - R ^ 2 * Complex.normSq (-c * w + a)) =
      Complex.normSq (((Complex.normSq V - R ^ 2 * Complex.normSq c : ℝ) : ℂ) * w -
        (U * (starRingEnd ℂ) V - ((R ^ 2 : ℝ) : ℂ) * a * (starRingEnd ℂ) c)) - Complex.normSq (a * V - U * c) * R ^ 2 := by
  simp [Complex.normSq_apply, -Complex.ofReal_pow, -Complex.ofReal_sub, -Complex.ofReal_mul]
  ring

theorem vlength_sub_comm (z w : ℂ) : vlength_ (from_complex_ z - from_complex_ w) = Real.sqrt (Complex.normSq (z - w)) := by
  rw [Complex.normSq_apply]; rfl

set_option maxHeartbeats 1000000 in
/-- The computed image of a circle that avoids the pole, explicitly. -/
theorem transform_circle_explicit (f : Mobius) (h : Matrix.det f.M ≠ 0) (circ : Circle) (hc : circ.Valid)
    (hp : ∀ P, OnCircle circ.center circ.radius P → f.transform (.fin P) ≠ .ok .inf) :
    ∃ (c' : Circle) (D : ℝ), f.transform_circle circ = .ok (.circle c') ∧ c'.Valid ∧
      (∀ P Q, f.transform P = .ok Q → (XOnCircle circ.center circ.radius P ↔ XOnCircle c'.center c'.radius Q)) ∧
      D ≠ 0 ∧ D = Complex.normSq (f.c * cpx circ.center + f.d) - circ.radius ^ 2 * Complex.normSq f.c ∧
      (D : ℂ) * cpx c'.center = (f.a * cpx circ.center + f.b) * (starRingEnd ℂ) (f.c * cpx circ.center + f.d) -
        ((circ.radius ^ 2 : ℝ) : ℂ) * f.a * (starRingEnd ℂ) f.c ∧
      c'.radius ^ 2 = Complex.normSq (f.a * f.d - f.b * f.c) * circ.radius ^ 2 / D ^ 2 := by
  have h0 : f.a * f.d - f.b * f.c ≠ 0 := (det_ne_iff _).1 h
  obtain ⟨U, hU⟩ : ∃ U, U = f.a * cpx circ.center + f.b := ⟨_, rfl⟩
  obtain ⟨V, hV⟩ : ∃ V, V = f.c * cpx circ.center + f.d := ⟨_, rfl⟩
  have hdet : f.a * V - U * f.c = f.a * f.d - f.b * f.c := by rw [hU, hV]; ring
  have hR : 0 < circ.radius := hc
  -- the pole is not on the circle
  have hD : Complex.normSq V - circ.radius ^ 2 * Complex.normSq f.c ≠ 0 := by
    intro e
    by_cases hc0 : f.c = 0
    · rw [hc0] at e h0 hV
      simp only [map_zero, mul_zero, sub_zero, zero_mul, zero_add] at e hV h0
      rw [hV] at e
      rw [Complex.normSq_eq_zero.1 e] at h0
      simp at h0
    · refine hp (from_complex_ (-f.d / f.c)) ?_ ?_
      · rw [onCircle_iff_norm, cpx_from]
        have : -f.d / f.c - cpx circ.center = -V / f.c := by rw [hV]; field_simp; ring
        rw [this, Complex.normSq_div, Complex.normSq_neg]
        have hc1 : Complex.normSq f.c ≠ 0 := fun e => hc0 (Complex.normSq_eq_zero.1 e)
        field_simp
        linear_combination e
      · rw [C49_transform _ h]
        show IsMobImage f.a f.b f.c f.d _ _
        simp only [IsMobImage, num_fin, den_fin, num_inf, den_inf, cpx_from]
        field_simp
        simp
  obtain ⟨D, hDe⟩ : ∃ D, D = Complex.normSq V - circ.radius ^ 2 * Complex.normSq f.c := ⟨_, rfl⟩
  rw [← hDe] at hD
  have hDc : (D : ℂ) ≠ 0 := by exact_mod_cast hD
  have hDc' : (D : ℂ) = V * (starRingEnd ℂ) V - ((circ.radius ^ 2 : ℝ) : ℂ) * f.c * (starRingEnd ℂ) f.c := by
    rw [hDe]; push_cast; rw [Complex.normSq_eq_conj_mul_self, Complex.normSq_eq_conj_mul_self]; ring
  obtain ⟨W, hW⟩ : ∃ W, W = (U * (starRingEnd ℂ) V - ((circ.radius ^ 2 : ℝ) : ℂ) * f.a * (starRingEnd ℂ) f.c) / D := ⟨_, rfl⟩
  have hW' : (D : ℂ) * W = U * (starRingEnd ℂ) V - ((circ.radius ^ 2 : ℝ) : ℂ) * f.a * (starRingEnd ℂ) f.c := by
    rw [hW]; field_simp
  -- the second image
  have hVR : V + f.c * circ.radius ≠ 0 := by
    intro e
    have e1 : V = -(f.c * circ.radius) := by linear_combination e
    apply hD
    rw [hDe, e1, Complex.normSq_neg, Complex.normSq_mul, Complex.normSq_ofReal]
    ring
  have hw1 : f.transform (.fin (from_complex_ (toC circ.center + (circ.radius : ℂ)))) =
      .ok (.fin (from_complex_ ((U + f.a * circ.radius) / (V + f.c * circ.radius)))) := by
    rw [C49_transform _ h]
    show IsMobImage f.a f.b f.c f.d _ _
    simp only [IsMobImage, num_fin, den_fin, cpx_from, mul_one, toC_eq_cpx]
    have e : f.c * (cpx circ.center + circ.radius) + f.d = V + f.c * circ.radius := by rw [hV]; ring
    rw [e, mul_comm (V + _), div_mul_cancel₀ _ hVR, hU]; ring
  have hdiff : W - (U + f.a * circ.radius) / (V + f.c * circ.radius) =
      -(f.a * f.d - f.b * f.c) * circ.radius * (starRingEnd ℂ) (V + f.c * circ.radius) / (D * (V + f.c * circ.radius)) := by
    rw [hW, div_sub_div _ _ hDc hVR]
    congr 1
    rw [← hdet, map_add, map_mul, Complex.conj_ofReal]
    rw [hDc']
    push_cast
    ring
  have hrad : Complex.normSq (W - (U + f.a * circ.radius) / (V + f.c * circ.radius)) =
      Complex.normSq (f.a * f.d - f.b * f.c) * circ.radius ^ 2 / D ^ 2 := by
    have hn : Complex.normSq (V + f.c * circ.radius) ≠ 0 := fun e => hVR (Complex.normSq_eq_zero.1 e)
    rw [hdiff, Complex.normSq_div, Complex.normSq_mul, Complex.normSq_mul, Complex.normSq_mul, Complex.normSq_neg,
      Complex.normSq_ofReal, Complex.normSq_ofReal, Complex.normSq_conj]
    field_simp
  have hpos : 0 < Complex.normSq (f.a * f.d - f.b * f.c) * circ.radius ^ 2 / D ^ 2 := by
    have := Complex.normSq_pos.2 h0
    positivity
  have hr := Real.sqrt_pos.2 hpos
  refine ⟨⟨from_complex_ W, sqrt (Complex.normSq (f.a * f.d - f.b * f.c) * circ.radius ^ 2 / D ^ 2)⟩, D, ?_, hr, ?_, hD, by rw [hDe, hV],
    by rw [cpx_from, hW', hU, hV], Real.sq_sqrt hpos.le⟩
  · -- evaluation
    have hx : mod2_ (f.d + f.c * toC circ.center) = Complex.normSq V := by
      rw [normSq_mod2, hV, toC_eq_cpx, add_comm]
    have hx2 : circ.radius * circ.radius * mod2_ f.c = circ.radius ^ 2 * Complex.normSq f.c := by
      rw [normSq_mod2]; ring
    unfold Mobius.transform_circle
    dsimp only
    rw [hx, hx2, if_pos (by intro e; apply hD; rw [hDe, e]; ring)]
    have hw0 : (if Complex.normSq V > 0 then
        f.transform (.fin (from_complex_ (if f.c = 0 then toC circ.center else toC circ.center -
          ((circ.radius * circ.radius : ℝ) : ℂ) / (starRingEnd ℂ) (f.d / f.c + toC circ.center))))
        else f.transform .inf) = .ok (.fin (from_complex_ W)) := by
      by_cases hV0 : V = 0
      · rw [if_neg (by rw [hV0]; simp)]
        have hc0 : f.c ≠ 0 := by
          intro e
          apply hD
          rw [hDe, hV0, e]; simp
        rw [C49_transform _ h]
        show IsMobImage f.a f.b f.c f.d _ _
        simp only [IsMobImage, num_inf, den_inf, num_fin, den_fin, cpx_from, mul_one, mul_zero, add_zero]
        apply mul_left_cancel₀ hDc
        have : (D : ℂ) * (f.c * W) = f.c * ((D : ℂ) * W) := by ring
        rw [this, hW', hDc', hV0]
        simp
        ring
      · rw [if_pos (Complex.normSq_pos.2 hV0), C49_transform _ h]
        show IsMobImage f.a f.b f.c f.d _ _
        simp only [IsMobImage, num_fin, den_fin, cpx_from, mul_one]
        apply mul_left_cancel₀ hDc
        rw [show ∀ z : ℂ, (D : ℂ) * ((f.c * z + f.d) * W) = (f.c * z + f.d) * ((D : ℂ) * W) from fun z => by ring, hW', hDc']
        have hVs : (starRingEnd ℂ) V ≠ 0 := (map_ne_zero _).2 hV0
        by_cases hc0 : f.c = 0
        · rw [if_pos hc0]
          rw [hc0] at hV
          rw [hc0, toC_eq_cpx, ← hU]
          simp only [zero_mul, zero_add, map_zero, mul_zero, sub_zero] at hV ⊢
          rw [hV]; ring
        · rw [if_neg hc0]
          have hz : toC circ.center - ((circ.radius * circ.radius : ℝ) : ℂ) / (starRingEnd ℂ) (f.d / f.c + toC circ.center) =
              cpx circ.center - ((circ.radius ^ 2 : ℝ) : ℂ) * (starRingEnd ℂ) f.c / (starRingEnd ℂ) V := by
            have e1 : f.d / f.c + toC circ.center = V / f.c := by rw [hV, toC_eq_cpx]; field_simp; ring
            have hcs : (starRingEnd ℂ) f.c ≠ 0 := (map_ne_zero _).2 hc0
            rw [e1, map_div₀, toC_eq_cpx]
            field_simp
          rw [hz]
          generalize (starRingEnd ℂ) V = Vs at *
          generalize (starRingEnd ℂ) f.c = cs at *
          generalize ((circ.radius ^ 2 : ℝ) : ℂ) = R2 at *
          have e1 : f.a * (cpx circ.center - R2 * cs / Vs) + f.b = (U * Vs - R2 * f.a * cs) / Vs := by
            rw [hU]; field_simp; ring
          have e2 : f.c * (cpx circ.center - R2 * cs / Vs) + f.d = (V * Vs - R2 * f.c * cs) / Vs := by
            rw [hV]; field_simp; ring
          rw [e1, e2]
          ring
    by_cases hV0 : Complex.normSq V > 0
    · rw [if_pos hV0] at hw0 ⊢
      simp only [hw0, hw1, Res.ok_bind]
      rw [vlength_sub_comm, hrad, mkCircle_pos hr]
      rfl
    · rw [if_neg hV0] at hw0 ⊢
      simp only [hw0, hw1, Res.ok_bind]
      rw [vlength_sub_comm, hrad, mkCircle_pos hr]
      rfl
  · intro P Q e
    rw [C49_transform _ h] at e
    rw [circle_pullback h0 e]
    rw [← hU, ← hV]
    cases Q with
    | inf =>
      simp only [num_inf, den_inf, mul_one, mul_zero, sub_zero, add_zero, XOnCircle, iff_false, Complex.normSq_neg]
      intro e1
      apply hD; rw [hDe, e1]; ring
    | fin Q =>
      have id := circle_identity U V f.a f.c (cpx Q) circ.radius
      rw [← hDe, ← hW', ← mul_sub, Complex.normSq_mul, Complex.normSq_ofReal, hdet] at id
      simp only [num_fin, den_fin, mul_one, XOnCircle, onCircle_iff_norm, cpx_from]
      rw [Real.sq_sqrt hpos.le, eq_div_iff (pow_ne_zero 2 hD)]
      constructor
      · intro e1
        rw [e1, sub_self, mul_zero] at id
        linear_combination -id
      · intro e1
        apply sub_eq_zero.1
        apply mul_left_cancel₀ hD
        rw [id]
        linear_combination e1

/-- C53: when the pole of the transformation is not on the circle (in particular when it has no pole), the result is a
circle; a point is on the given circle iff its image is on the resulting circle. -/
theorem C53_circle (f : Mobius) (h : Matrix.det f.M ≠ 0) (circ : Circle) (hc : circ.Valid)
    (hp : ∀ P, OnCircle circ.center circ.radius P → f.transform (.fin P) ≠ .ok .inf) :
    ∃ c', f.transform_circle circ = .ok (.circle c') ∧ c'.Valid ∧ ∀ P Q, f.transform P = .ok Q →
      (XOnCircle circ.center circ.radius P ↔ XOnCircle c'.center c'.radius Q) := by
  obtain ⟨c', D, h1, h2, h3, -⟩ := transform_circle_explicit f h circ hc hp
  exact ⟨c', h1, h2, h3⟩

theorem loopPoint_on (circ : Circle) (s : ℝ) (n : ℕ) : OnCircle circ.center circ.radius (Mobius.loopPoint circ s n) := by
  have h : ∀ t : ℝ, OnCircle circ.center circ.radius (circ.center + circ.radius • unit_vector_ t) := by
    intro t
    simp only [OnCircle, sqDist, unit_vector_, Pt.add_x, Pt.add_y, Pt.smul_x, Pt.smul_y]
    have := sin_sq_add_cos_sq t
    linear_combination circ.radius ^ 2 * this
  exact h _

theorem firstIndex_ok {p : ℕ → Prop} {n : ℕ} (h : firstIndex p = .ok n) : p n := by
  unfold firstIndex at h
  split_ifs at h with he
  rw [Except.ok.injEq] at h
  rw [← h]
  exact Nat.find_spec he

theorem firstIndex_of_exists {p : ℕ → Prop} (h : ∃ n, p n) : ∃ n, firstIndex p = .ok n ∧ p n := by
  unfold firstIndex
  rw [dif_pos h]
  exact ⟨_, rfl, Nat.find_spec h⟩

theorem firstIndex_zero {p : ℕ → Prop} (h : p 0) : firstIndex p = .ok 0 := by
  unfold firstIndex
  rw [dif_pos ⟨0, h⟩, Except.ok.injEq, Nat.find_eq_zero]
  exact h

theorem firstIndex_error {p : ℕ → Prop} {e : Err} (h : firstIndex p = .error e) : e = .diverges ∧ ∀ n, ¬ p n := by
  unfold firstIndex at h
  split_ifs at h with he
  simp only [Except.error.injEq] at h
  exact ⟨h.symm, fun n hn => he ⟨n, hn⟩⟩

theorem transform_inf_iff (f : Mobius) (h : Matrix.det f.M ≠ 0) (M : Pt) :
    f.transform (.fin M) = .ok .inf ↔ f.c * cpx M + f.d = 0 := by
  rw [C49_transform _ h]
  simp only [IsMobImage, num_fin, den_fin, num_inf, den_inf, mul_one, mul_zero]
  exact eq_comm

/-- The code run when the pole `M` is on the circle. -/
theorem transform_circle_eval (f : Mobius) (h : Matrix.det f.M ≠ 0) (circ : Circle) (M : Pt)
    (hM : OnCircle circ.center circ.radius M) (hi : f.transform (.fin M) = .ok .inf) :
    f.c ≠ 0 ∧ Complex.normSq (f.c * cpx circ.center + f.d) = circ.radius ^ 2 * Complex.normSq f.c ∧
    f.transform_circle circ = (do
      let n ← firstIndex fun n => ¬ allclose (Mobius.loopPoint circ 0 n) M
      let m ← firstIndex fun m => ¬ allclose (Mobius.loopPoint circ ((n : ℝ) * (1 / 10) + 3) m) M
      let A ← f.transform (.fin (Mobius.loopPoint circ 0 n))
      let B ← f.transform (.fin (Mobius.loopPoint circ ((n : ℝ) * (1 / 10) + 3) m))
      return .line (← mkLineX A B)) := by
  rw [transform_inf_iff f h] at hi
  have hc : f.c ≠ 0 := by
    intro e
    rw [e, zero_mul, zero_add] at hi
    have h0 : f.a * f.d - f.b * f.c ≠ 0 := (det_ne_iff _).1 h
    rw [e, hi] at h0
    simp at h0
  have hMe : M = from_complex_ (-f.d / f.c) := by
    apply cpx_inj
    rw [cpx_from]
    field_simp
    linear_combination hi
  have hV : Complex.normSq (f.c * cpx circ.center + f.d) = circ.radius ^ 2 * Complex.normSq f.c := by
    rw [onCircle_iff_norm] at hM
    have : f.c * cpx circ.center + f.d = -(f.c * (cpx M - cpx circ.center)) := by linear_combination hi
    rw [this, Complex.normSq_neg, Complex.normSq_mul, hM]; ring
  refine ⟨hc, hV, ?_⟩
  unfold Mobius.transform_circle
  dsimp only
  rw [if_neg (by
    rw [not_not, normSq_mod2, normSq_mod2, toC_eq_cpx, add_comm, hV]; ring), if_neg hc, if_pos, ← hMe]
  rw [← hMe]
  unfold Circle.includes
  have : dot1_ (M - circ.center) = circ.radius * circ.radius := by
    rw [dot1_eq, ← sq]; exact hM
  rw [this]
  exact approx_equal_refl _

theorem line_of_form {n1 n2 m : ℝ} {A B : Pt} (hn : ¬ (n1 = 0 ∧ n2 = 0)) (hA : n1 * A.x - n2 * A.y = m)
    (hB : n1 * B.x - n2 * B.y = m) (hne : A ≠ B) (w : Pt) : n1 * w.x - n2 * w.y = m ↔ OnLine A B w := by
  rw [onLine_iff_cross hne]
  simp only [cross, Pt.sub_x, Pt.sub_y]
  have hb := sqDist_pos hne
  unfold sqDist at hb
  have hl : (n1 * (B.y - A.y) + n2 * (B.x - A.x)) ≠ 0 := by
    intro e
    apply hn
    have e2 : n1 * (B.x - A.x) - n2 * (B.y - A.y) = 0 := by linear_combination hB - hA
    constructor
    · have : n1 * ((A.x - B.x) ^ 2 + (A.y - B.y) ^ 2) = 0 := by
        linear_combination (B.y - A.y) * e + (B.x - A.x) * e2
      exact (mul_eq_zero.1 this).resolve_right (by nlinarith)
    · have : n2 * ((A.x - B.x) ^ 2 + (A.y - B.y) ^ 2) = 0 := by
        linear_combination (B.x - A.x) * e - (B.y - A.y) * e2
      exact (mul_eq_zero.1 this).resolve_right (by nlinarith)
  have e2 : n1 * (B.x - A.x) - n2 * (B.y - A.y) = 0 := by linear_combination hB - hA
  have id : (n1 * (B.y - A.y) + n2 * (B.x - A.x)) * ((B.x - A.x) * (w.y - A.y) - (B.y - A.y) * (w.x - A.x)) =
      -((A.x - B.x) ^ 2 + (A.y - B.y) ^ 2) * (n1 * w.x - n2 * w.y - m) := by
    linear_combination ((B.x - A.x) * (w.x - A.x) + (B.y - A.y) * (w.y - A.y)) * e2 +
      ((A.x - B.x) ^ 2 + (A.y - B.y) ^ 2) * hA
  constructor
  · intro e
    rw [e, sub_self, mul_zero] at id
    exact (mul_eq_zero.1 id).resolve_left hl
  · intro e
    rw [e, mul_zero] at id
    have := (mul_eq_zero.1 id.symm).resolve_left (by nlinarith)
    linarith

/-- The image of a circle through the pole is a line; `n w` stands for the left-hand side of its equation. -/
theorem line_pullback {a b c d : ℂ} (h : a * d - b * c ≠ 0) (hc : c ≠ 0) (O : Pt) {r : ℝ} (hr : 0 < r)
    (hV : Complex.normSq (c * cpx O + d) = r ^ 2 * Complex.normSq c) :
    ∃ n1 n2 m : ℝ, ¬ (n1 = 0 ∧ n2 = 0) ∧ ∀ P Q, IsMobImage a b c d P Q →
      (XOnCircle O r P ↔ ∀ w, Q = .fin w → n1 * w.x - n2 * w.y = m) := by
  obtain ⟨U, hU⟩ : ∃ U, U = a * cpx O + b := ⟨_, rfl⟩
  obtain ⟨V, hVe⟩ : ∃ V, V = c * cpx O + d := ⟨_, rfl⟩
  have hdet : a * V - U * c = a * d - b * c := by rw [hU, hVe]; ring
  rw [← hVe] at hV
  have hV0 : V ≠ 0 := by
    intro e
    rw [e, map_zero] at hV
    have := Complex.normSq_pos.2 hc
    have : 0 < r ^ 2 * Complex.normSq c := by positivity
    linarith
  obtain ⟨n, hn⟩ : ∃ n, n = (starRingEnd ℂ) U * V - ((r ^ 2 : ℝ) : ℂ) * (starRingEnd ℂ) a * c := ⟨_, rfl⟩
  have hn0 : n ≠ 0 := by
    intro e
    have hV' : V * (starRingEnd ℂ) V = ((r ^ 2 : ℝ) : ℂ) * c * (starRingEnd ℂ) c := by
      rw [Complex.mul_conj, hV, mul_assoc, Complex.mul_conj]; push_cast; ring
    have e1 : V * (starRingEnd ℂ) (a * V - U * c) = 0 := by
      rw [map_sub, map_mul, map_mul]
      linear_combination (starRingEnd ℂ) a * hV' - (starRingEnd ℂ) c * (hn.symm.trans e)
    rcases mul_eq_zero.1 e1 with e2 | e2
    · exact hV0 e2
    · rw [hdet] at e2
      exact h ((map_eq_zero _).1 e2)
  refine ⟨n.re, n.im, (Complex.normSq U - r ^ 2 * Complex.normSq a) / 2, ?_, ?_⟩
  · rintro ⟨e1, e2⟩
    exact hn0 (Complex.ext e1 e2)
  · intro P Q hi
    rw [circle_pullback h hi, ← hU, ← hVe]
    cases Q with
    | inf =>
      simp only [num_inf, den_inf, mul_one, mul_zero, sub_zero, add_zero, Complex.normSq_neg, hV, true_iff]
      intro w hw
      simp at hw
    | fin w =>
      simp only [num_fin, den_fin, mul_one, XPt.fin.injEq, forall_eq']
      have id : Complex.normSq (V * cpx w - U) - r ^ 2 * Complex.normSq (-c * cpx w + a) =
          (Complex.normSq V - r ^ 2 * Complex.normSq c) * Complex.normSq (cpx w) - 2 * (n.re * w.x - n.im * w.y) +
            (Complex.normSq U - r ^ 2 * Complex.normSq a) := by
        rw [hn]
        simp [Complex.normSq_apply, cpx, -Complex.ofReal_pow, -Complex.ofReal_sub, -Complex.ofReal_mul]
        ring
      rw [hV, sub_self, zero_mul] at id
      constructor
      · intro e; rw [e] at id; linarith
      · intro e; rw [e] at id; linarith

/-- C53, partial: when the pole is on the circle, every returned value is an infinite line; a point is on the circle iff
its image is on the line (or is `inf`).  Missing from the full claim: that a value is always returned.  It is not:
`C53_diverges_counterexample`, `C53_raises_counterexample`; see `C53_line_returns_partial` for when it is. -/
theorem C53_line_partial (f : Mobius) (h : Matrix.det f.M ≠ 0) (circ : Circle) (hc : circ.Valid) (M : Pt)
    (hM : OnCircle circ.center circ.radius M) (hi : f.transform (.fin M) = .ok .inf) (g : GCircle)
    (hg : f.transform_circle circ = .ok g) :
    ∃ l, g = .line l ∧ l.Valid ∧ l.extendA = true ∧ l.extendB = true ∧ ∀ P Q, f.transform P = .ok Q →
      (XOnCircle circ.center circ.radius P ↔ XOnLine l.A l.B Q) := by
  obtain ⟨hc0, hV, ev⟩ := transform_circle_eval f h circ M hM hi
  have h0 : f.a * f.d - f.b * f.c ≠ 0 := (det_ne_iff _).1 h
  rw [ev] at hg
  obtain ⟨n, -, hg⟩ := Res.bind_ok.1 hg
  obtain ⟨m, -, hg⟩ := Res.bind_ok.1 hg
  obtain ⟨A, hA, hg⟩ := Res.bind_ok.1 hg
  obtain ⟨B, hB, hg⟩ := Res.bind_ok.1 hg
  obtain ⟨l, hl, hg⟩ := Res.bind_ok.1 hg
  have hg' := Res.pure_ok.1 hg
  refine ⟨l, hg'.symm, ?_⟩
  cases A with
  | inf => simp [mkLineX] at hl
  | fin A =>
    cases B with
    | inf => simp [mkLineX] at hl
    | fin B =>
      have hl' : mkLine A B true true = .ok l := hl
      obtain ⟨hval, rfl⟩ := mkLine_ok.1 hl'
      refine ⟨hval, rfl, rfl, ?_⟩
      obtain ⟨n1, n2, mm, hn, key⟩ := line_pullback h0 hc0 circ.center hc hV
      have kA := (key _ _ ((C49_transform _ h _ _).1 hA)).1 (loopPoint_on _ _ _) A rfl
      have kB := (key _ _ ((C49_transform _ h _ _).1 hB)).1 (loopPoint_on _ _ _) B rfl
      intro P Q hPQ
      rw [key P Q ((C49_transform _ h _ _).1 hPQ)]
      cases Q with
      | inf => simp [XOnLine]
      | fin w =>
        simp only [XPt.fin.injEq, forall_eq']
        exact line_of_form hn kA kB (ne_of_not_allclose hval) w

/-- C53, partial: when the pole `M` is on the circle and the circle is not tiny compared to the tolerance around `M`, the
loops terminate and a line is returned, unless the images of the two points used are `np.allclose`. -/
theorem C53_line_returns_partial (f : Mobius) (h : Matrix.det f.M ≠ 0) (circ : Circle) (M : Pt)
    (hM : OnCircle circ.center circ.radius M) (hi : f.transform (.fin M) = .ok .inf)
    (hr : 2 * ((1 / 10 ^ 8 + 1 / 10 ^ 5 * |M.x|) ^ 2 + (1 / 10 ^ 8 + 1 / 10 ^ 5 * |M.y|) ^ 2) < circ.radius ^ 2) :
    ∃ P Q A B : Pt, OnCircle circ.center circ.radius P ∧ OnCircle circ.center circ.radius Q ∧
      f.transform (.fin P) = .ok (.fin A) ∧ f.transform (.fin Q) = .ok (.fin B) ∧
      ((¬ allclose A B ∧ f.transform_circle circ = .ok (.line ⟨A, B, true, true⟩)) ∨
       (allclose A B ∧ f.transform_circle circ = .error (.valueError "`A` and `B` must be distinct."))) := by
  obtain ⟨hc0, hV, ev⟩ := transform_circle_eval f h circ M hM hi
  have ex : ∀ s : ℝ, ∃ n : ℕ, ¬ allclose (Mobius.loopPoint circ s n) M := by
    intro s
    by_contra hn
    push Not at hn
    obtain ⟨x0, y0⟩ := hn 0
    obtain ⟨x1, y1⟩ := hn 31
    have e0 : Mobius.loopPoint circ s 0 = circ.center + circ.radius • unit_vector_ s := by
      simp [Mobius.loopPoint, Circle.point_from_angle]
    have e1 : Mobius.loopPoint circ s 31 = circ.center + circ.radius • unit_vector_ (s + 31 / 10) := by
      simp [Mobius.loopPoint, Circle.point_from_angle]
      norm_num
    rw [e0] at x0 y0
    rw [e1] at x1 y1
    unfold npClose at x0 y0 x1 y1
    simp only [unit_vector_, Pt.add_x, Pt.add_y, Pt.smul_x, Pt.smul_y] at x0 y0 x1 y1
    have hcos : cos (31 / 10) ≤ 0 :=
      cos_nonpos_of_pi_div_two_le_of_le (by linarith [pi_lt_four]) (by linarith [pi_gt_three])
    have hx : (circ.radius * cos s - circ.radius * cos (s + 31 / 10)) ^ 2 ≤ (2 * (1 / 10 ^ 8 + 1 / 10 ^ 5 * |M.x|)) ^ 2 := by
      apply sq_le_sq'
      · linarith [abs_le.1 x0, abs_le.1 x1, (abs_le.1 x0).1, (abs_le.1 x0).2, (abs_le.1 x1).1, (abs_le.1 x1).2]
      · linarith [abs_le.1 x0, abs_le.1 x1, (abs_le.1 x0).1, (abs_le.1 x0).2, (abs_le.1 x1).1, (abs_le.1 x1).2]
    have hy : (circ.radius * sin s - circ.radius * sin (s + 31 / 10)) ^ 2 ≤ (2 * (1 / 10 ^ 8 + 1 / 10 ^ 5 * |M.y|)) ^ 2 := by
      apply sq_le_sq'
      · linarith [(abs_le.1 y0).1, (abs_le.1 y0).2, (abs_le.1 y1).1, (abs_le.1 y1).2]
      · linarith [(abs_le.1 y0).1, (abs_le.1 y0).2, (abs_le.1 y1).1, (abs_le.1 y1).2]
    have hs : (circ.radius * cos s - circ.radius * cos (s + 31 / 10)) ^ 2 +
        (circ.radius * sin s - circ.radius * sin (s + 31 / 10)) ^ 2 = circ.radius ^ 2 * (2 - 2 * cos (31 / 10)) := by
      have e2 : cos (31 / 10) = cos (s + 31 / 10) * cos s + sin (s + 31 / 10) * sin s := by
        rw [← cos_sub]; congr 1; ring
      rw [e2]
      linear_combination circ.radius ^ 2 * (sin_sq_add_cos_sq s) + circ.radius ^ 2 * (sin_sq_add_cos_sq (s + 31 / 10))
    have : circ.radius ^ 2 * (2 - 2 * cos (31 / 10)) ≥ 2 * circ.radius ^ 2 := by
      nlinarith [sq_nonneg circ.radius]
    nlinarith
  have fin : ∀ P, ¬ allclose P M → ∃ A, f.transform (.fin P) = .ok (.fin A) := by
    intro P hP
    obtain ⟨A, hA, -⟩ := f.transform_spec ((det_ne_iff _).1 h) (.fin P)
    cases A with
    | fin A => exact ⟨A, hA⟩
    | inf =>
      exfalso
      have i1 := (C49_inverse f h (.fin P)).1
      have i2 := (C49_inverse f h (.fin M)).1
      rw [hA, Res.ok_bind] at i1
      rw [hi, Res.ok_bind, i1] at i2
      have : P = M := by simpa using i2
      exact hP (this ▸ allclose_refl P)
  obtain ⟨n, hn, hn'⟩ := firstIndex_of_exists (ex 0)
  obtain ⟨m, hm, hm'⟩ := firstIndex_of_exists (ex ((n : ℝ) * (1 / 10) + 3))
  obtain ⟨A, hA⟩ := fin _ hn'
  obtain ⟨B, hB⟩ := fin _ hm'
  refine ⟨_, _, A, B, loopPoint_on _ _ _, loopPoint_on _ _ _, hA, hB, ?_⟩
  rw [ev, hn, Res.ok_bind, hm, Res.ok_bind, hA, Res.ok_bind, hB, Res.ok_bind]
  by_cases hAB : allclose A B
  · right
    refine ⟨hAB, ?_⟩
    simp only [mkLineX, mkLine, if_pos hAB]
    rfl
  · left
    refine ⟨hAB, ?_⟩
    simp only [mkLineX, mkLine, if_neg hAB]
    rfl

/-- The transformation `z ↦ 1/z`. -/
noncomputable def mobInv : Mobius := ⟨!![0, 1; 1, 0]⟩

theorem mobInv_det : Matrix.det mobInv.M ≠ 0 := by simp [mobInv, Matrix.det_fin_two]

theorem mobInv_pole : mobInv.transform (.fin ⟨0, 0⟩) = .ok .inf := by
  rw [transform_inf_iff _ mobInv_det]
  simp [mobInv, Mobius.c, Mobius.d, cpx]
  rfl

/-- C53, failure: the loop never ends for the circle of center `(10^-9, 0)` and radius `10^-9`, and `z ↦ 1/z`. -/
theorem C53_diverges_counterexample :
    Matrix.det mobInv.M ≠ 0 ∧ mobInv.transform_circle ⟨⟨1 / 10 ^ 9, 0⟩, 1 / 10 ^ 9⟩ = .error .diverges := by
  refine ⟨mobInv_det, ?_⟩
  have hM : OnCircle (⟨1 / 10 ^ 9, 0⟩ : Pt) (1 / 10 ^ 9) ⟨0, 0⟩ := by norm_num [OnCircle, sqDist]
  rw [(transform_circle_eval mobInv mobInv_det ⟨⟨1 / 10 ^ 9, 0⟩, 1 / 10 ^ 9⟩ ⟨0, 0⟩ hM mobInv_pole).2.2]
  have : firstIndex (fun n => ¬ allclose (Mobius.loopPoint ⟨⟨1 / 10 ^ 9, 0⟩, 1 / 10 ^ 9⟩ 0 n) ⟨0, 0⟩) = .error .diverges := by
    unfold firstIndex
    rw [dif_neg]
    rintro ⟨n, hn⟩
    apply hn
    simp only [allclose, npClose, Mobius.loopPoint, Circle.point_from_angle, unit_vector_, Pt.add_x, Pt.add_y, Pt.smul_x,
      Pt.smul_y]
    generalize (0 + (n : ℝ) * (1 / 10)) = t
    simp only [Bool.false_eq_true, if_false]
    have c1 := neg_one_le_cos t
    have c2 := cos_le_one t
    have s1 := neg_one_le_sin t
    have s2 := sin_le_one t
    constructor <;> rw [abs_le] <;> constructor <;> norm_num <;> nlinarith
  rw [this]
  rfl

theorem sin_three_gt : 1 / 10 < sin 3 := by
  rw [← sin_pi_sub]
  have h1 : 3.14 < π := pi_gt_d2
  have h2 : π < 3.15 := pi_lt_d2
  have := sin_gt_sub_cube (x := π - 3) (by linarith)
  have h3 : (π - 3) ^ 3 ≤ (0.15 : ℝ) ^ 3 := pow_le_pow_left₀ (by linarith) (by linarith) 3
  norm_num at h1 h2 h3
  linarith

/-- C53, failure: a `ValueError` is raised for the circle of center `(10^10, 0)` and radius `10^10`, and `z ↦ 1/z`. -/
theorem C53_raises_counterexample :
    Matrix.det mobInv.M ≠ 0 ∧
    mobInv.transform_circle ⟨⟨10 ^ 10, 0⟩, 10 ^ 10⟩ = .error (.valueError "`A` and `B` must be distinct.") := by
  refine ⟨mobInv_det, ?_⟩
  have hM : OnCircle (⟨10 ^ 10, 0⟩ : Pt) (10 ^ 10) ⟨0, 0⟩ := by norm_num [OnCircle, sqDist]
  rw [(transform_circle_eval mobInv mobInv_det ⟨⟨10 ^ 10, 0⟩, 10 ^ 10⟩ ⟨0, 0⟩ hM mobInv_pole).2.2]
  have i0 : firstIndex (fun n => ¬ allclose (Mobius.loopPoint ⟨⟨10 ^ 10, 0⟩, 10 ^ 10⟩ 0 n) ⟨0, 0⟩) = .ok 0 := by
    have h0 : ¬ allclose (Mobius.loopPoint ⟨⟨10 ^ 10, 0⟩, 10 ^ 10⟩ 0 0) ⟨0, 0⟩ := by
      simp only [allclose, npClose, Mobius.loopPoint, Circle.point_from_angle, unit_vector_, Pt.add_x, Pt.add_y, Pt.smul_x,
        Pt.smul_y]
      norm_num
    exact firstIndex_zero h0
  have i1 : firstIndex (fun n => ¬ allclose (Mobius.loopPoint ⟨⟨10 ^ 10, 0⟩, 10 ^ 10⟩ (((0 : ℕ) : ℝ) * (1 / 10) + 3) n) ⟨0, 0⟩) =
      .ok 0 := by
    have h0 : ¬ allclose (Mobius.loopPoint ⟨⟨10 ^ 10, 0⟩, 10 ^ 10⟩ (((0 : ℕ) : ℝ) * (1 / 10) + 3) 0) ⟨0, 0⟩ := by
      simp only [allclose, npClose, Mobius.loopPoint, Circle.point_from_angle, unit_vector_, Pt.add_x, Pt.add_y, Pt.smul_x,
        Pt.smul_y]
      simp
      intro _
      rw [abs_of_pos (by linarith [sin_three_gt])]
      have := sin_three_gt
      norm_num
      linarith
    exact firstIndex_zero h0
  rw [i0, Res.ok_bind, i1, Res.ok_bind]
  have eP : Mobius.loopPoint ⟨⟨10 ^ 10, 0⟩, 10 ^ 10⟩ 0 0 = ⟨2 * 10 ^ 10, 0⟩ := by
    simp only [Mobius.loopPoint, Circle.point_from_angle, unit_vector_]
    ext <;> norm_num
  have eQ : Mobius.loopPoint ⟨⟨10 ^ 10, 0⟩, 10 ^ 10⟩ (((0 : ℕ) : ℝ) * (1 / 10) + 3) 0 =
      ⟨10 ^ 10 * (1 + cos 3), 10 ^ 10 * sin 3⟩ := by
    simp only [Mobius.loopPoint, Circle.point_from_angle, unit_vector_]
    ext <;> norm_num
    ring
  have tr : ∀ x y : ℝ, x ^ 2 + y ^ 2 ≠ 0 → mobInv.transform (.fin ⟨x, y⟩) =
      .ok (.fin ⟨x / (x ^ 2 + y ^ 2), -y / (x ^ 2 + y ^ 2)⟩) := by
    intro x y hxy
    rw [C49_transform _ mobInv_det]
    simp only [IsMobImage, mobInv, num_fin, den_fin, cpx]
    apply Complex.ext
    · simp; field_simp; ring
    · simp; field_simp; ring
  have hs := sin_three_gt
  have hsc := sin_sq_add_cos_sq 3
  have hN : (10 ^ 10 * (1 + cos 3)) ^ 2 + (10 ^ 10 * sin 3) ^ 2 = 10 ^ 20 * (2 * (1 + cos 3)) := by
    linear_combination 10 ^ 20 * hsc
  have hcc : 0 < 1 + cos 3 := by nlinarith [neg_one_le_cos 3, cos_le_one 3]
  rw [eP, eQ, tr _ _ (by norm_num), Res.ok_bind, tr _ _ (by rw [hN]; positivity), Res.ok_bind, hN]
  have hc3 : 1 / 200 < 1 + cos 3 := by
    have : sin 3 ^ 2 = (1 + cos 3) * (1 - cos 3) := by linear_combination hsc
    nlinarith [neg_one_le_cos 3, cos_le_one 3]
  have hx : (10 ^ 10 * (1 + cos 3)) / (10 ^ 20 * (2 * (1 + cos 3))) = 1 / (2 * 10 ^ 10) := by
    have := hcc.ne'
    field_simp
  have hy : |0 - -(10 ^ 10 * sin 3) / (10 ^ 20 * (2 * (1 + cos 3)))| ≤ 1 / 10 ^ 8 := by
    have e : 0 - -(10 ^ 10 * sin 3) / (10 ^ 20 * (2 * (1 + cos 3))) = sin 3 / (2 * (1 + cos 3)) / 10 ^ 10 := by
      have := hcc.ne'
      field_simp
      norm_num
    have hp : 0 < sin 3 / (2 * (1 + cos 3)) := by positivity
    have hle : sin 3 / (2 * (1 + cos 3)) ≤ 100 := by
      rw [div_le_iff₀ (by positivity)]
      linarith [sin_le_one 3]
    rw [e, abs_of_pos (by positivity), div_le_iff₀ (by norm_num)]
    norm_num
    exact hle
  have hcl : allclose (⟨2 * 10 ^ 10 / ((2 * 10 ^ 10) ^ 2 + 0 ^ 2), -0 / ((2 * 10 ^ 10) ^ 2 + 0 ^ 2)⟩ : Pt)
      ⟨10 ^ 10 * (1 + cos 3) / (10 ^ 20 * (2 * (1 + cos 3))), -(10 ^ 10 * sin 3) / (10 ^ 20 * (2 * (1 + cos 3)))⟩ := by
    refine ⟨?_, ?_⟩
    · unfold npClose
      dsimp only
      rw [hx]
      norm_num
    · unfold npClose
      dsimp only
      rw [show (-0 / ((2 * 10 ^ 10) ^ 2 + 0 ^ 2) : ℝ) = 0 by norm_num]
      have : 0 ≤ 1 / 10 ^ 5 * |-(10 ^ 10 * sin 3) / (10 ^ 20 * (2 * (1 + cos 3)))| := by positivity
      linarith
  simp only [mkLineX, mkLine, if_pos hcl]
  rfl

example : ∃ (f : Mobius) (c : Circle), Matrix.det f.M ≠ 0 ∧ c.Valid ∧
    ∀ P, OnCircle c.center c.radius P → f.transform (.fin P) ≠ .ok .inf := by
  refine ⟨mobInv, ⟨⟨2, 0⟩, 1⟩, mobInv_det, by norm_num [Circle.Valid], ?_⟩
  intro P hP e
  rw [transform_inf_iff _ mobInv_det] at e
  have h1 : P.x = 0 := by simpa [mobInv, Mobius.c, Mobius.d, cpx] using congrArg Complex.re e
  have h2 : P.y = 0 := by simpa [mobInv, Mobius.c, Mobius.d, cpx] using congrArg Complex.im e
  norm_num [OnCircle, sqDist, h1, h2] at hP

example : ∃ (f : Mobius) (c : Circle) (M : Pt), Matrix.det f.M ≠ 0 ∧ c.Valid ∧ OnCircle c.center c.radius M ∧
    f.transform (.fin M) = .ok .inf ∧
    2 * ((1 / 10 ^ 8 + 1 / 10 ^ 5 * |M.x|) ^ 2 + (1 / 10 ^ 8 + 1 / 10 ^ 5 * |M.y|) ^ 2) < c.radius ^ 2 :=
  ⟨mobInv, ⟨⟨1, 0⟩, 1⟩, ⟨0, 0⟩, mobInv_det, by norm_num [Circle.Valid], by norm_num [OnCircle, sqDist], mobInv_pole,
    by norm_num⟩

/-- The image by `1/z` of the circle of center `(2, 0)` and radius 1 is a circle through `(1, 0)` and `(1/3, 0)`. -/
example : ∃ c : Circle, mobInv.transform_circle ⟨⟨2, 0⟩, 1⟩ = .ok (.circle c) ∧ OnCircle c.center c.radius ⟨1, 0⟩ ∧
    OnCircle c.center c.radius ⟨1 / 3, 0⟩ := by
  obtain ⟨c, h, -, h1⟩ := C53_circle mobInv mobInv_det ⟨⟨2, 0⟩, 1⟩ (by norm_num [Circle.Valid]) (by
    intro P hP e
    rw [transform_inf_iff _ mobInv_det] at e
    have h1 : P.x = 0 := by simpa [mobInv, Mobius.c, Mobius.d, cpx] using congrArg Complex.re e
    have h2 : P.y = 0 := by simpa [mobInv, Mobius.c, Mobius.d, cpx] using congrArg Complex.im e
    norm_num [OnCircle, sqDist, h1, h2] at hP)
  refine ⟨c, h, (h1 (.fin ⟨1, 0⟩) (.fin ⟨1, 0⟩) ?_).1 (by norm_num [XOnCircle, OnCircle, sqDist]),
    (h1 (.fin ⟨3, 0⟩) (.fin ⟨1 / 3, 0⟩) ?_).1 (by norm_num [XOnCircle, OnCircle, sqDist])⟩
  · rw [C49_transform _ mobInv_det]
    simp [IsMobImage, mobInv, cpx]
    apply Complex.ext <;> simp
  · rw [C49_transform _ mobInv_det]
    simp [IsMobImage, mobInv, cpx]
    apply Complex.ext <;> simp

/-- The image by `1/z` of the circle of center `(1, 0)` and radius 1, if it is returned, is a line through `(1/2, 0)`. -/
example (g : GCircle) (hg : mobInv.transform_circle ⟨⟨1, 0⟩, 1⟩ = .ok g) : ∃ l : Line, g = .line l ∧ OnLine l.A l.B ⟨1 / 2, 0⟩ := by
  obtain ⟨l, h, -, -, -, h1⟩ := C53_line_partial mobInv mobInv_det ⟨⟨1, 0⟩, 1⟩ (by norm_num [Circle.Valid]) ⟨0, 0⟩
    (by norm_num [OnCircle, sqDist]) mobInv_pole g hg
  refine ⟨l, h, (h1 (.fin ⟨2, 0⟩) (.fin ⟨1 / 2, 0⟩) ?_).1 (by norm_num [XOnCircle, OnCircle, sqDist])⟩
  rw [C49_transform _ mobInv_det]
  simp [IsMobImage, mobInv, cpx]
  apply Complex.ext <;> simp

/-- The image by `1/z` of the circle of center `(1, 0)` and radius `1`, which passes through the pole: a line or the error. -/
example : ∃ A B : Pt, mobInv.transform_circle ⟨⟨1, 0⟩, 1⟩ = .ok (.line ⟨A, B, true, true⟩) ∨
    mobInv.transform_circle ⟨⟨1, 0⟩, 1⟩ = .error (.valueError "`A` and `B` must be distinct.") := by
  obtain ⟨P, Q, A, B, -, -, -, -, h | h⟩ := C53_line_returns_partial mobInv mobInv_det ⟨⟨1, 0⟩, 1⟩ ⟨0, 0⟩ (by norm_num [OnCircle, sqDist]) mobInv_pole
    (by norm_num)
  · exact ⟨A, B, Or.inl h.2⟩
  · exact ⟨A, B, Or.inr h.2⟩
