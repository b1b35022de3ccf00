import Verif.Props.Mobius

/-!
# C52: fixed points of Möbius transformations
-/

open Spec Real Classical

/-- The points described by the result of `fixed_points`. -/
def Mobius.Fixed.mem : Mobius.Fixed → XPt → Prop
  | .identity, _ => True
  | .one Q, P => P = Q
  | .two A B, P => P = .fin A ∨ P = .fin B

theorem fixed_fin_iff (f : Mobius) (h : Matrix.det f.M ≠ 0) (P : Pt) :
    f.transform (.fin P) = .ok (.fin P) ↔ f.c * cpx P ^ 2 + (f.d - f.a) * cpx P - f.b = 0 := by
  rw [C49_transform _ h]
  simp only [IsMobImage, num_fin, den_fin, mul_one]
  show f.a * cpx P + f.b = (f.c * cpx P + f.d) * cpx P ↔ _
  constructor <;> intro e <;> linear_combination -e

theorem fixed_inf_iff (f : Mobius) (h : Matrix.det f.M ≠ 0) : f.transform .inf = .ok .inf ↔ f.c = 0 := by
  rw [C49_transform _ h]
  simp only [IsMobImage, num_inf, den_inf, mul_one, mul_zero, add_zero]
  exact eq_comm

theorem fixed_quadratic {a b c d s z : ℂ} (hc : c ≠ 0) (hs : s ^ 2 = (a - d) ^ 2 + 4 * b * c) :
    c * z ^ 2 + (d - a) * z - b = 0 ↔ z = (a - d + s) / 2 / c ∨ z = (a - d - s) / 2 / c := by
  have h : 4 * c * (c * z ^ 2 + (d - a) * z - b) = (2 * c * z - (a - d + s)) * (2 * c * z - (a - d - s)) := by
    linear_combination hs
  have h1 : ∀ w : ℂ, 2 * c * z - w = 0 ↔ z = w / 2 / c := by
    intro w
    constructor
    · intro e; field_simp; linear_combination e
    · intro e; rw [e]; field_simp; ring
  rw [← h1, ← h1, ← mul_eq_zero, ← h, mul_eq_zero]
  constructor
  · intro e; exact Or.inr e
  · rintro (e | e)
    · exact absurd e (mul_ne_zero (by norm_num) hc)
    · exact e

/-- C52, partial: the result describes exactly the fixed points, when `c = 0` and `a = d`, or when `c ≠ 0` and the
discriminant `(a-d)² + 4bc` is a nonnegative real.  Missing from the full claim: the other cases, for which it is false
(`C52_inf_missing_counterexample`, `C52_complex_counterexample`, `C52_negative_counterexample`). -/
theorem C52_fixed_points_partial (f : Mobius) (h : Matrix.det f.M ≠ 0)
    (hyp : (f.M 1 0 = 0 ∧ f.M 0 0 = f.M 1 1) ∨
      (f.M 1 0 ≠ 0 ∧ ∃ s : ℝ, 0 ≤ s ∧ (f.M 0 0 - f.M 1 1) ^ 2 + 4 * f.M 0 1 * f.M 1 0 = (s : ℂ))) :
    ∃ r, f.fixed_points = .ok r ∧ ∀ P, f.transform P = .ok P ↔ r.mem P := by
  have hyp' : (f.c = 0 ∧ f.a = f.d) ∨ (f.c ≠ 0 ∧ ∃ s : ℝ, 0 ≤ s ∧ (f.a - f.d) ^ 2 + 4 * f.b * f.c = (s : ℂ)) := hyp
  unfold Mobius.fixed_points
  rcases hyp' with ⟨hc, had⟩ | ⟨hc, s, hs, hD⟩
  · by_cases hb : f.b = 0
    · rw [if_pos ⟨had, hb, hc⟩]
      refine ⟨_, rfl, fun P => ?_⟩
      simp only [Mobius.Fixed.mem, iff_true]
      cases P with
      | fin P => rw [fixed_fin_iff f h, hc, had, hb]; ring
      | inf => rw [fixed_inf_iff f h, hc]
    · rw [if_neg (fun e => hb e.2.1), if_pos hc, if_pos had]
      refine ⟨_, rfl, fun P => ?_⟩
      simp only [Mobius.Fixed.mem]
      cases P with
      | fin P =>
        rw [fixed_fin_iff f h, hc, had]
        simp [hb]
      | inf => rw [fixed_inf_iff f h, hc]; simp
  · rw [if_neg (fun e => hc e.2.2), if_neg hc]
    dsimp only
    have key : ∀ (t : ℂ), t ^ 2 = (f.a - f.d) ^ 2 + 4 * f.b * f.c → ∀ P, f.transform P = .ok P ↔
        (P = .fin (from_complex_ ((f.a - f.d + t) / 2 / f.c)) ∨ P = .fin (from_complex_ ((f.a - f.d - t) / 2 / f.c))) := by
      intro t ht P
      cases P with
      | inf => rw [fixed_inf_iff f h]; simp [hc]
      | fin P =>
        rw [fixed_fin_iff f h, fixed_quadratic hc ht]
        have : ∀ z, cpx P = z ↔ XPt.fin P = .fin (from_complex_ z) := by
          intro z
          rw [XPt.fin.injEq]
          exact ⟨fun e => cpx_inj (by rw [e, cpx_from]), fun e => by rw [e, cpx_from]⟩
        rw [this, this]
    by_cases h0 : (f.a - f.d) ^ 2 + 4 * f.b * f.c = 0
    · rw [if_pos h0]
      refine ⟨_, rfl, fun P => ?_⟩
      rw [key 0 (by rw [h0]; ring) P]
      simp [Mobius.Fixed.mem]
    · rw [if_neg h0]
      have hre : ((f.a - f.d) ^ 2 + 4 * f.b * f.c).re = s := by rw [hD]; simp
      rw [hre]
      unfold pySqrt
      rw [if_neg (not_lt.2 hs)]
      refine ⟨_, rfl, fun P => ?_⟩
      simp only [Mobius.Fixed.mem]
      refine key _ ?_ P
      rw [hD, ← Complex.ofReal_pow, Real.sq_sqrt hs]

example : ∃ f : Mobius, Matrix.det f.M ≠ 0 ∧ f.M 1 0 ≠ 0 ∧
    ∃ s : ℝ, 0 ≤ s ∧ (f.M 0 0 - f.M 1 1) ^ 2 + 4 * f.M 0 1 * f.M 1 0 = (s : ℂ) := by
  refine ⟨⟨!![Complex.I, 1; 1, Complex.I]⟩, ?_, by simp, 4, by norm_num, by simp⟩
  rw [Matrix.det_fin_two]
  simp
  norm_num

/-- C52: the message "identity map" is given exactly for the transformations fixing every point. -/
theorem C52_identity_iff (f : Mobius) (h : Matrix.det f.M ≠ 0) :
    f.fixed_points = .ok .identity ↔ ∀ P, f.transform P = .ok P := by
  constructor
  · intro e P
    have hh : f.a = f.d ∧ f.b = 0 ∧ f.c = 0 := by
      by_contra hn
      unfold Mobius.fixed_points at e
      rw [if_neg hn] at e
      by_cases hc : f.c = 0
      · rw [if_pos hc] at e
        split_ifs at e <;> simp at e
      · rw [if_neg hc] at e
        dsimp only at e
        split_ifs at e
        · simp at e
        obtain ⟨s, -, e⟩ := Res.bind_ok.1 e
        simp [Res.pure_ok] at e
    cases P with
    | fin P => rw [fixed_fin_iff f h, hh.1, hh.2.1, hh.2.2]; ring
    | inf => rw [fixed_inf_iff f h, hh.2.2]
  · intro e
    have hc := (fixed_inf_iff f h).1 (e .inf)
    have h0 := (fixed_fin_iff f h ⟨0, 0⟩).1 (e _)
    have h1 := (fixed_fin_iff f h ⟨1, 0⟩).1 (e _)
    rw [show cpx ⟨0, 0⟩ = 0 from rfl, hc] at h0
    rw [show cpx ⟨1, 0⟩ = 1 from rfl, hc] at h1
    have hb : f.b = 0 := by linear_combination -h0
    have ha : f.a = f.d := by rw [hb] at h1; linear_combination -h1
    unfold Mobius.fixed_points
    rw [if_pos ⟨ha, hb, hc⟩]

/-- The scalar matrix 3 is reported as the identity, and every point is fixed; the matrix (1, 1; 0, 1) is not. -/
example : (∀ P, (⟨!![3, 0; 0, 3]⟩ : Mobius).transform P = .ok P) ∧ (⟨!![1, 1; 0, 1]⟩ : Mobius).fixed_points ≠ .ok .identity := by
  constructor
  · refine (C52_identity_iff ⟨!![3, 0; 0, 3]⟩ (by simp [Matrix.det_fin_two])).1 ?_
    unfold Mobius.fixed_points
    rw [if_pos (by simp [Mobius.a, Mobius.b, Mobius.c, Mobius.d])]
  · intro h
    have := (C52_identity_iff ⟨!![1, 1; 0, 1]⟩ (by simp [Matrix.det_fin_two])).1 h (.fin ⟨0, 0⟩)
    unfold Mobius.transform at this
    simp [Mobius.a, Mobius.b, Mobius.c, Mobius.d, npDivC, from_complex_, toC] at this

/-- C52, failure: for `c = 0` and `a ≠ d` there are two fixed points, the returned one and `inf`, which is not returned. -/
theorem C52_inf_missing_counterexample (f : Mobius) (h : Matrix.det f.M ≠ 0) (hc : f.M 1 0 = 0) (had : f.M 0 0 ≠ f.M 1 1) :
    ∃ Q : Pt, f.fixed_points = .ok (.one (.fin Q)) ∧ ∀ P, f.transform P = .ok P ↔ (P = .fin Q ∨ P = .inf) := by
  have hc' : f.c = 0 := hc
  have had' : f.a ≠ f.d := had
  unfold Mobius.fixed_points
  rw [if_neg (fun e => had' e.1), if_pos hc', if_neg had']
  refine ⟨_, rfl, fun P => ?_⟩
  cases P with
  | inf => rw [fixed_inf_iff f h, hc']; simp
  | fin P =>
    rw [fixed_fin_iff f h, hc']
    have hne := sub_ne_zero.2 had'
    have : (0 * cpx P ^ 2 + (f.d - f.a) * cpx P - f.b = 0) ↔ cpx P = -f.b / (f.a - f.d) := by
      constructor
      · intro e; field_simp; linear_combination -e
      · intro e; rw [e]; field_simp; ring
    rw [this]
    simp only [XPt.fin.injEq, reduceCtorEq, or_false]
    exact ⟨fun e => cpx_inj (by rw [e, cpx_from]), fun e => by rw [e, cpx_from]⟩

/-- C52, failure: when the discriminant is not real and has a nonnegative real part, neither returned point is fixed. -/
theorem C52_complex_counterexample (f : Mobius) (h : Matrix.det f.M ≠ 0) (hc : f.M 1 0 ≠ 0)
    (him : ((f.M 0 0 - f.M 1 1) ^ 2 + 4 * f.M 0 1 * f.M 1 0).im ≠ 0)
    (hre : 0 ≤ ((f.M 0 0 - f.M 1 1) ^ 2 + 4 * f.M 0 1 * f.M 1 0).re) :
    ∃ A B : Pt, f.fixed_points = .ok (.two A B) ∧ f.transform (.fin A) ≠ .ok (.fin A) ∧
      f.transform (.fin B) ≠ .ok (.fin B) := by
  have hc' : f.c ≠ 0 := hc
  have him' : ((f.a - f.d) ^ 2 + 4 * f.b * f.c).im ≠ 0 := him
  have hre' : 0 ≤ ((f.a - f.d) ^ 2 + 4 * f.b * f.c).re := hre
  unfold Mobius.fixed_points
  rw [if_neg (fun e => hc' e.2.2), if_neg hc']
  dsimp only
  rw [if_neg (fun e => him' (by rw [e]; rfl))]
  unfold pySqrt
  rw [if_neg (not_lt.2 hre')]
  have key : ∀ s : ℝ, f.c * ((f.a - f.d + s) / 2 / f.c) ^ 2 + (f.d - f.a) * ((f.a - f.d + s) / 2 / f.c) - f.b ≠ 0 := by
    intro s e
    apply him'
    have : (f.a - f.d) ^ 2 + 4 * f.b * f.c = ((s ^ 2 : ℝ) : ℂ) := by
      have e2 : 4 * f.c * (f.c * ((f.a - f.d + s) / 2 / f.c) ^ 2 + (f.d - f.a) * ((f.a - f.d + s) / 2 / f.c) - f.b) =
          (s : ℂ) ^ 2 - ((f.a - f.d) ^ 2 + 4 * f.b * f.c) := by
        field_simp; ring
      rw [e, mul_zero] at e2
      push_cast
      linear_combination e2
    rw [this, Complex.ofReal_im]
  refine ⟨_, _, rfl, ?_, ?_⟩
  · rw [Ne, fixed_fin_iff f h, cpx_from]
    exact key _
  · rw [Ne, fixed_fin_iff f h, cpx_from]
    have := key (-sqrt ((f.a - f.d) ^ 2 + 4 * f.b * f.c).re)
    rw [Complex.ofReal_neg, ← sub_eq_add_neg] at this
    exact this

example : ∃ f : Mobius, Matrix.det f.M ≠ 0 ∧ f.M 1 0 ≠ 0 ∧
    ((f.M 0 0 - f.M 1 1) ^ 2 + 4 * f.M 0 1 * f.M 1 0).im ≠ 0 ∧
    0 ≤ ((f.M 0 0 - f.M 1 1) ^ 2 + 4 * f.M 0 1 * f.M 1 0).re :=
  ⟨⟨!![0, Complex.I; 1, 0]⟩, by simp [Matrix.det_fin_two], by simp, by simp, by simp⟩

/-- C52, failure: when the discriminant has a negative real part, `math.sqrt` raises a `ValueError` (every transformation
has a fixed point). -/
theorem C52_negative_counterexample (f : Mobius) (hc : f.M 1 0 ≠ 0)
    (hre : ((f.M 0 0 - f.M 1 1) ^ 2 + 4 * f.M 0 1 * f.M 1 0).re < 0) :
    f.fixed_points = .error (.valueError "math domain error") := by
  have hc' : f.c ≠ 0 := hc
  have hre' : ((f.a - f.d) ^ 2 + 4 * f.b * f.c).re < 0 := hre
  unfold Mobius.fixed_points
  rw [if_neg (fun e => hc' e.2.2), if_neg hc']
  dsimp only
  rw [if_neg (fun e => by rw [e] at hre'; simp at hre')]
  unfold pySqrt
  rw [if_pos hre']
  rfl

example : ∃ f : Mobius, f.M 1 0 ≠ 0 ∧ ((f.M 0 0 - f.M 1 1) ^ 2 + 4 * f.M 0 1 * f.M 1 0).re < 0 :=
  ⟨⟨!![0, -1; 1, 0]⟩, by simp, by simp⟩
