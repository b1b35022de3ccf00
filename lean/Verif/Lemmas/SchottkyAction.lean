import Verif.Lemmas.Schottky

/-!
# The transformations of examples/Schottky.py play ping-pong on the discs; the circles of the words are bounded
-/

open Spec Real Classical

namespace Schottky

theorem det_mob {X R : ℝ} (hR : 1 < R) (x : Letter) : 1 ≤ ‖Matrix.det ((dataOf X R).mob x).M‖ := by
  have hinv : ∀ f : Mobius, Matrix.det f.inverse.M = Matrix.det f.M := by
    intro f
    rw [Matrix.det_fin_two, Matrix.det_fin_two]
    show f.M 1 1 * f.M 0 0 - -f.M 0 1 * -f.M 1 0 = _
    ring
  have hb : 1 ≤ ‖((R ^ 2 : ℝ) : ℂ)‖ := by
    rw [Complex.norm_real, Real.norm_eq_abs, abs_of_pos (by positivity)]
    nlinarith
  rcases x with ⟨_ | _, _ | _⟩
  · show 1 ≤ ‖Matrix.det (Mobius.inverse (dataOf X R).Moba).M‖
    rw [hinv, det_a]; simp
  · show 1 ≤ ‖Matrix.det (dataOf X R).Moba.M‖
    rw [det_a]; simp
  · show 1 ≤ ‖Matrix.det (Mobius.inverse (dataOf X R).Mobb).M‖
    rw [hinv, det_b]; exact hb
  · show 1 ≤ ‖Matrix.det (dataOf X R).Mobb.M‖
    rw [det_b]; exact hb

theorem ne_zero_of_norm {z : ℂ} (h : 1 ≤ ‖z‖) : z ≠ 0 := by
  rintro rfl
  rw [norm_zero] at h
  linarith

/-- `e` is the action of the four transformations. -/
def Acts (D : Data) (e : Letter → Equiv.Perm XPt) : Prop := ∀ x P, (D.mob x).transform P = .ok (e x P)

theorem exists_acts {X R : ℝ} (hR : 1 < R) : ∃ e, Acts (dataOf X R) e := by
  choose e he using fun x => C49_bijection ((dataOf X R).mob x) (ne_zero_of_norm (det_mob hR x))
  exact ⟨e, he⟩

theorem acts_inv {X R : ℝ} (hR : 1 < R) {e : Letter → Equiv.Perm XPt} (he : Acts (dataOf X R) e) (x : Gen) (P : XPt) :
    e (x, false) (e (x, true) P) = P ∧ e (x, true) (e (x, false) P) = P := by
  have h := C49_inverse ((dataOf X R).mob (x, true)) (ne_zero_of_norm (det_mob hR _)) P
  have hm : ((dataOf X R).mob (x, true)).inverse = (dataOf X R).mob (x, false) := by cases x <;> rfl
  rw [hm] at h
  obtain ⟨h1, h2, -⟩ := h
  rw [he, Res.ok_bind, he, Except.ok.injEq] at h1
  rw [he, Res.ok_bind, he, Except.ok.injEq] at h2
  exact ⟨h1, h2⟩

/-- A transformation exchanges the inside of the circle of the inverse letter and the outside of the circle of the letter. -/
theorem form_act {X R : ℝ} (h : Good X R) {e : Letter → Equiv.Perm XPt} (he : Acts (dataOf X R) e) (x : Letter) (P : XPt) :
    ∃ l : ℝ, 0 < l ∧ form X R x (e x P) = -(l * form X R (invLetter x) P) := by
  have hR := h.R1
  have key : ∀ (x : Gen) (P : XPt), ∃ l : ℝ, 0 < l ∧ form X R (x, true) (e (x, true) P) = -(l * form X R (x, false) P) := by
    intro x P
    cases x with
    | a => exact act_a (he (.a, true) P)
    | b => exact act_b (by linarith) (he (.b, true) P)
  obtain ⟨x, s⟩ := x
  cases s with
  | true => exact key x P
  | false =>
    obtain ⟨l, hl, h2⟩ := key x (e (x, false) P)
    rw [(acts_inv hR he x P).2] at h2
    refine ⟨1 / l, by positivity, ?_⟩
    show form X R (x, false) _ = -(1 / l * form X R (x, true) P)
    rw [h2]
    field_simp

/-- The closed disc of a letter. -/
def disc (X R : ℝ) (x : Letter) : Set XPt := {P | form X R x P ≤ 0}

theorem gset_nontrivial {X R : ℝ} (hR : 1 < R) (x : Letter) : (gset ((dataOf X R).circ x)).Nontrivial := by
  have hq := sqrt2_sq
  have hq0 := sqrt2_pos
  rcases x with ⟨_ | _, _ | _⟩
  · refine ⟨.fin ⟨√2 / 4, -3 * √2 / 4⟩, ?_, .fin ⟨-√2 / 4, -3 * √2 / 4⟩, ?_, ?_⟩
    · rw [mem_circ]; simp only [form]; linear_combination (5 * √2 / 8) * hq
    · rw [mem_circ]; simp only [form]; linear_combination (5 * √2 / 8) * hq
    · intro hc
      have := congrArg Pt.x (XPt.fin.inj hc)
      simp only at this
      linarith
  · refine ⟨.fin ⟨0, 0⟩, ?_, .inf, ?_, by simp⟩
    · rw [mem_circ]; simp [form]
    · rw [mem_circ]; simp [form]
  · refine ⟨.fin ⟨-X, 0⟩, ?_, .fin ⟨-X, -2 * R⟩, ?_, ?_⟩
    · rw [mem_circ]; simp only [form]; ring
    · rw [mem_circ]; simp only [form]; ring
    · intro hc
      have := congrArg Pt.y (XPt.fin.inj hc)
      simp only at this
      linarith
  · refine ⟨.fin ⟨X, 0⟩, ?_, .fin ⟨X, -2 * R⟩, ?_, ?_⟩
    · rw [mem_circ]; simp only [form]; ring
    · rw [mem_circ]; simp only [form]; ring
    · intro hc
      have := congrArg Pt.y (XPt.fin.inj hc)
      simp only at this
      linarith

theorem pingPong {X R : ℝ} (h : Good X R) {e : Letter → Equiv.Perm XPt} (he : Acts (dataOf X R) e) :
    PingPong e (fun x => gset ((dataOf X R).circ x)) (disc X R) where
  swap x := by
    ext P
    obtain ⟨Q, rfl⟩ := (e x).surjective P
    rw [Set.mem_image_equiv, Equiv.symm_apply_apply, mem_circ, mem_circ]
    obtain ⟨l, hl, h2⟩ := form_act h he x Q
    rw [h2, neg_eq_zero, mul_eq_zero]
    simp [hl.ne']
  into x y hxy P hP := by
    obtain ⟨T, hT⟩ := forms_meet h hxy
    obtain ⟨l, hl, h2⟩ := form_act h he x P
    show form X R x (e x P) ≤ 0
    rw [h2]
    have : 0 ≤ form X R (invLetter x) P := by
      by_contra hcon
      push Not at hcon
      have := (hT P hP hcon.le).2.2
      linarith
    have := mul_nonneg hl.le this
    linarith
  sub x P hP := by
    have : form X R x P = 0 := (mem_circ X R x P).1 hP
    exact this.le
  touch x y hxy P hP Q hQ := by
    obtain ⟨T, hT⟩ := forms_meet h hxy
    rw [(hT P hP.1 hP.2).1, (hT Q hQ.1 hQ.2).1]
  apart x y hxy P hP hC hy := by
    obtain ⟨T, hT⟩ := forms_meet h hxy
    exact hC ((mem_circ X R x P).2 (hT P hP hy).2.1)
  nontriv x := gset_nontrivial h.R1 x

/-! ### Size -/

/-- The discs other than the half-plane are bounded. -/
theorem disc_bounded {X R : ℝ} (h : Good X R) {x : Letter} (hx : x ≠ (.a, true)) :
    ∃ O : Pt, ∀ P ∈ disc X R x, ∃ Q, P = .fin Q ∧ sqDist Q O ≤ 10 ^ 2 := by
  have hq := sqrt2_sq
  have hq0 := sqrt2_pos
  have hR := h.R1
  have hR' := h.R_lt
  rcases x with ⟨_ | _, _ | _⟩
  · refine ⟨⟨0, -3 * √2 / 4⟩, ?_⟩
    rintro (P | _) hP
    · refine ⟨P, rfl, ?_⟩
      have hP' : √2 * (P.x ^ 2 + P.y ^ 2) + 3 * P.y + √2 ≤ 0 := hP
      have e : √2 * (sqDist P ⟨0, -3 * √2 / 4⟩ - (√2 / 4) ^ 2) = √2 * (P.x ^ 2 + P.y ^ 2) + 3 * P.y + √2 := by
        simp only [sqDist]
        linear_combination ((3 * P.y) / 2 + √2 / 2) * hq
      rw [← e] at hP'
      have : sqDist P ⟨0, -3 * √2 / 4⟩ - (√2 / 4) ^ 2 ≤ 0 := by
        by_contra hcon
        push Not at hcon
        have := mul_pos hq0 hcon
        linarith
      nlinarith
    · exfalso
      have hP' : √2 ≤ 0 := hP
      linarith
  · exact absurd rfl hx
  · refine ⟨⟨-X, -R⟩, ?_⟩
    rintro (P | _) hP
    · refine ⟨P, rfl, ?_⟩
      have hP' : (P.x + X) ^ 2 + (P.y + R) ^ 2 - R ^ 2 ≤ 0 := hP
      simp only [sqDist, sub_neg_eq_add]
      nlinarith
    · exfalso
      have hP' : (1 : ℝ) ≤ 0 := hP
      linarith
  · refine ⟨⟨X, -R⟩, ?_⟩
    rintro (P | _) hP
    · refine ⟨P, rfl, ?_⟩
      have hP' : (P.x - X) ^ 2 + (P.y + R) ^ 2 - R ^ 2 ≤ 0 := hP
      simp only [sqDist, sub_neg_eq_add]
      nlinarith
    · exfalso
      have hP' : (1 : ℝ) ≤ 0 := hP
      linarith

/-- The pole of `Moba` is away from the discs of the letters other than `A`. -/
theorem pole_away {X R : ℝ} (h : Good X R) {y : Letter} (hy : y ≠ (.a, false)) {P : Pt} (hP : XPt.fin P ∈ disc X R y) :
    1 / 10 ^ 2 ≤ sqDist P ⟨0, -√2⟩ := by
  have hq := sqrt2_sq
  have hq0 := sqrt2_pos
  have hR := h.R1
  have hR' := h.R_lt
  have hrel := h.rel
  have key : ∀ Z : ℝ, Z ^ 2 = X ^ 2 → (P.x - Z) ^ 2 + (P.y + R) ^ 2 - R ^ 2 ≤ 0 → 1 / 10 ^ 2 ≤ sqDist P ⟨0, -√2⟩ := by
    intro Z hZ hP'
    by_contra hcon
    push Not at hcon
    simp only [sqDist, sub_neg_eq_add, sub_zero] at hcon
    -- the vector from the point to the pole, and from the pole to the centre
    obtain ⟨u, hu⟩ : ∃ u, u = P.x := ⟨_, rfl⟩
    obtain ⟨v, hv⟩ : ∃ v, v = P.y + √2 := ⟨_, rfl⟩
    obtain ⟨w, hw⟩ : ∃ w, w = R - √2 := ⟨_, rfl⟩
    have e1 : P.x - Z = u - Z := by rw [hu]
    have e2 : P.y + R = v + w := by rw [hv, hw]; ring
    rw [e1, e2] at hP'
    rw [← hu, ← hv] at hcon
    have hO : Z ^ 2 + w ^ 2 = R ^ 2 + 1 := by rw [hZ, hrel, hw]; linear_combination hq
    have hcs : (Z * u - w * v) ^ 2 ≤ (Z ^ 2 + w ^ 2) * (u ^ 2 + v ^ 2) := by nlinarith [sq_nonneg (Z * v + w * u)]
    rw [hO] at hcs
    have h3 : (Z * u - w * v) ^ 2 ≤ (R ^ 2 + 1) * (1 / 10 ^ 2) := hcs.trans (mul_le_mul_of_nonneg_left hcon.le (by positivity))
    have h4 : 1 ≤ 2 * (Z * u - w * v) := by nlinarith [sq_nonneg u, sq_nonneg v]
    nlinarith
  rcases y with ⟨_ | _, _ | _⟩
  · exact absurd rfl hy
  · have hP' : -P.y ≤ 0 := hP
    simp only [sqDist, sub_neg_eq_add, sub_zero]
    nlinarith [sq_nonneg P.x, mul_nonneg hq0.le (by linarith : (0 : ℝ) ≤ P.y), sq_nonneg P.y]
  · refine key (-X) (by ring) ?_
    have hP' : (P.x + X) ^ 2 + (P.y + R) ^ 2 - R ^ 2 ≤ 0 := hP
    rw [sub_neg_eq_add]; exact hP'
  · exact key X rfl hP

/-- The images by `Moba` of the discs of the letters other than `A` are bounded. -/
theorem act_a_bounded {X R : ℝ} (h : Good X R) {e : Letter → Equiv.Perm XPt} (he : Acts (dataOf X R) e) {y : Letter} (hy : y ≠ (.a, false))
    {P : XPt} (hP : P ∈ disc X R y) : ∃ Q, e (.a, true) P = .fin Q ∧ sqDist Q ⟨0, √2⟩ ≤ 10 ^ 2 := by
  have hd : Matrix.det (dataOf X R).Moba.M ≠ 0 := by rw [det_a]; exact one_ne_zero
  have hq := sqrt2_sq
  have hE : (dataOf X R).Moba.transform P = .ok (e (.a, true) P) := he (.a, true) P
  rw [C49_transform _ hd, mobImage_iff ((det_ne_iff _).1 hd)] at hE
  obtain ⟨μ, hμ, e1, e2⟩ := hE
  have e1' : (√2 : ℂ) * num P + Complex.I * den P = μ * num (e (.a, true) P) := e1
  have e2' : -Complex.I * num P + (√2 : ℂ) * den P = μ * den (e (.a, true) P) := e2
  have hn : 0 < Complex.normSq μ := Complex.normSq_pos.2 hμ
  have hq' : (√2 : ℂ) * (√2 : ℂ) = 2 := by rw [← Complex.ofReal_mul, hq]; norm_num
  have hI := Complex.I_mul_I
  -- distance of the point to the pole, distance of the image to the image of infinity
  have k1 : μ * (num (e (.a, true) P) - (√2 : ℂ) * Complex.I * den (e (.a, true) P)) = -Complex.I * den P := by
    linear_combination -e1' + (√2 : ℂ) * Complex.I * e2' + (√2 : ℂ) * num P * hI - Complex.I * den P * hq'
  cases hQ : e (.a, true) P with
  | inf =>
    exfalso
    rw [hQ] at e2'
    simp only [den_inf, mul_zero] at e2'
    cases P with
    | inf =>
      simp only [num_inf, den_inf, mul_zero, add_zero, mul_one, neg_eq_zero] at e2'
      exact Complex.I_ne_zero e2'
    | fin P =>
      have hp := pole_away h hy hP
      simp only [num_fin, den_fin, mul_one] at e2'
      have : cpx P = -(√2 : ℂ) * Complex.I := by linear_combination Complex.I * e2' + cpx P * hI
      have hx := congrArg Complex.re this
      have hy := congrArg Complex.im this
      simp [cpx] at hx hy
      simp only [sqDist, hx, hy] at hp
      norm_num at hp
  | fin Q =>
    refine ⟨Q, rfl, ?_⟩
    rw [hQ] at k1 e2'
    simp only [num_fin, den_fin, mul_one] at k1 e2'
    have k2 := congrArg Complex.normSq k1
    rw [Complex.normSq_mul, Complex.normSq_mul, Complex.normSq_neg, Complex.normSq_I, one_mul] at k2
    have k3 : Complex.normSq (cpx Q - (√2 : ℂ) * Complex.I) = sqDist Q ⟨0, √2⟩ := by
      simp [cpx, sqDist, Complex.normSq_apply]; ring
    rw [k3] at k2
    cases P with
    | inf =>
      simp only [den_inf, map_zero, mul_eq_zero, hn.ne', false_or] at k2
      rw [k2]; norm_num
    | fin P =>
      have hp := pole_away h hy hP
      have k4 := congrArg Complex.normSq e2'
      have k5 : Complex.normSq (-Complex.I * num (.fin P) + (√2 : ℂ) * den (.fin P)) = sqDist P ⟨0, -√2⟩ := by
        simp [cpx, sqDist, Complex.normSq_apply]; ring
      rw [k5] at k4
      rw [k4] at hp
      simp only [den_fin, map_one] at k2
      by_contra hcon
      push Not at hcon
      nlinarith

/-- The circles and the discs of the words of at least two letters are bounded. -/
theorem gen_bounded {X R : ℝ} (h : Good X R) {e : Letter → Equiv.Perm XPt} (he : Acts (dataOf X R) e) {C : Letter → Set XPt}
    (hC : ∀ x, C x ⊆ disc X R x) {t : List Letter} (ht : Reduced t) (hl : 2 ≤ t.length) :
    ∃ O : Pt, ∀ P ∈ genSet (fun x => e x) C t, ∃ Q, P = .fin Q ∧ sqDist Q O ≤ 10 ^ 2 := by
  have hp := pingPong h he
  match t, hl with
  | x :: y :: u, _ =>
    by_cases hx : x = (.a, true)
    · subst hx
      refine ⟨⟨0, √2⟩, ?_⟩
      obtain ⟨h1, h2⟩ := List.isChain_cons_cons.1 ht
      rintro P ⟨Q, hQ, rfl⟩
      exact act_a_bounded h he h1 (hp.gen_sub_of hC h2 hQ)
    · obtain ⟨O, hO⟩ := disc_bounded h hx
      exact ⟨O, fun P hP => hO P (hp.gen_sub_of hC ht hP)⟩

end Schottky
