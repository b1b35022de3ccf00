import Verif.Lemmas.SchottkyAction
import Verif.Lemmas.MobiusDisc

/-!
# The circles computed by examples/Schottky.py are the circles of words, and their insides the discs of words
-/

open Spec Real Classical

namespace Schottky

/-- `mobs` composed in the order of the script: the first letter acts first. -/
theorem composeAll_spec {X R : ℝ} (hR : 1 < R) {e : Letter → Equiv.Perm XPt} (he : Acts (dataOf X R) e) {u : List Letter} (hu : u ≠ []) :
    ∃ f, composeAll (u.map (dataOf X R).mob) = .ok f ∧ 1 ≤ ‖Matrix.det f.M‖ ∧ ∀ P, f.transform P = .ok ((u.reverse.map e).prod P) := by
  have key : ∀ (v : List Letter) (f : Mobius) (E : Equiv.Perm XPt), 1 ≤ ‖Matrix.det f.M‖ → (∀ P, f.transform P = .ok (E P)) →
      1 ≤ ‖Matrix.det ((v.map (dataOf X R).mob).foldl (fun M1 M2 => M1.compose M2) f).M‖ ∧
      ∀ P, ((v.map (dataOf X R).mob).foldl (fun M1 M2 => M1.compose M2) f).transform P = .ok (((v.reverse.map e).prod * E) P) := by
    intro v
    induction v with
    | nil => intro f E hf hE; exact ⟨hf, fun P => by simpa using hE P⟩
    | cons y v ih =>
      intro f E hf hE
      have hy := det_mob (X := X) hR y
      have hc := C49_compose f ((dataOf X R).mob y) (ne_zero_of_norm hf) (ne_zero_of_norm hy)
      obtain ⟨i1, i2⟩ := ih (f.compose ((dataOf X R).mob y)) (e y * E)
        (by
          show 1 ≤ ‖Matrix.det (((dataOf X R).mob y).M * f.M)‖
          rw [Matrix.det_mul, norm_mul]
          exact one_le_mul_of_one_le_of_one_le hy hf)
        (by
          intro P
          rw [(hc P).1, hE, Res.ok_bind, he]
          rfl)
      refine ⟨i1, ?_⟩
      intro P
      rw [List.map_cons, List.foldl_cons, i2, List.reverse_cons, List.map_append, List.prod_append]
      simp [mul_assoc]
  cases u with
  | nil => exact absurd rfl hu
  | cons x v =>
    obtain ⟨k1, k2⟩ := key v ((dataOf X R).mob x) (e x) (det_mob hR x) (he x)
    refine ⟨_, rfl, k1, ?_⟩
    intro P
    rw [k2, List.reverse_cons, List.map_append, List.prod_append]
    simp

theorem circ_valid {X R : ℝ} (hR : 1 < R) : (dataOf X R).CA.Valid ∧ (dataOf X R).Cb.Valid ∧ (dataOf X R).CB.Valid := by
  have := sqrt2_pos
  refine ⟨?_, ?_, ?_⟩
  · show 0 < √2 / 4
    positivity
  · show 0 < R
    linarith
  · show 0 < R
    linarith

theorem dist_le_of_sq {P O : Pt} {r : ℝ} (hr : 0 ≤ r) (h : sqDist P O ≤ r ^ 2) : ‖cpx P - cpx O‖ ≤ r := by
  have : ‖cpx P - cpx O‖ ^ 2 = sqDist P O := by
    rw [← Complex.normSq_eq_norm_sq]
    simp [cpx, sqDist, Complex.normSq_apply]; ring
  rw [← this] at h
  exact abs_le_of_sq_le_sq' h hr |>.2

/-- The image of the circle of a letter, when it is bounded. -/
theorem image_circle {X R : ℝ} (hR : 1 < R) {f : Mobius} (hf : 1 ≤ ‖Matrix.det f.M‖) {E : Equiv.Perm XPt} (hE : ∀ P, f.transform P = .ok (E P))
    (x : Letter) {O : Pt} (hb : ∀ P ∈ E '' gset ((dataOf X R).circ x), ∃ Q, P = .fin Q ∧ sqDist Q O ≤ 10 ^ 2) :
    ∃ c, applyTo f ((dataOf X R).circ x) = .ok (.circle c) ∧ c.Valid ∧ gset (.circle c) = E '' gset ((dataOf X R).circ x) := by
  have hd := ne_zero_of_norm hf
  have fin : ∀ P, P ∈ gset ((dataOf X R).circ x) → E P ≠ .inf := by
    intro P hP h
    obtain ⟨Q, hQ, -⟩ := hb _ ⟨P, hP, rfl⟩
    rw [h] at hQ
    exact absurd hQ (by simp)
  -- a circle
  have circ : ∀ c : Circle, c.Valid → (∀ P, XOnCircle c.center c.radius P → E P ≠ .inf) → ∃ c', f.transform_circle c = .ok (.circle c') ∧ c'.Valid ∧
      gset (.circle c') = E '' gset (.circle c) := by
    intro c hc hp
    obtain ⟨c', h1, h2, h3⟩ := C53_circle f hd c hc (by
      intro P hP h
      rw [hE, Except.ok.injEq] at h
      exact hp (.fin P) hP h)
    refine ⟨c', h1, h2, ?_⟩
    ext P
    obtain ⟨Q, rfl⟩ := E.surjective P
    rw [Set.mem_image_equiv, Equiv.symm_apply_apply]
    exact (h3 Q (E Q) (hE Q)).symm
  rcases x with ⟨_ | _, _ | _⟩
  · exact circ _ (circ_valid hR).1 fin
  · -- the line
    obtain ⟨Qi, hQi, bi⟩ := hb (E .inf) ⟨.inf, by rw [mem_circ]; rfl, rfl⟩
    obtain ⟨M, hM⟩ : ∃ M, E (.fin M) = .inf := by
      obtain ⟨P, hP⟩ := E.surjective .inf
      cases P with
      | fin M => exact ⟨M, hP⟩
      | inf => rw [hQi] at hP; exact absurd hP (by simp)
    obtain ⟨Q1, hQ1, b1⟩ := hb (E (.fin ⟨M.x, 0⟩)) ⟨.fin ⟨M.x, 0⟩, by rw [mem_circ]; simp [form], rfl⟩
    have t1 := hE .inf
    have t2 := hE (.fin M)
    have t3 := hE (.fin ⟨M.x, 0⟩)
    have tM := t2
    rw [hQi, C49_transform _ hd] at t1
    rw [hM, C49_transform _ hd] at t2
    rw [hQ1, C49_transform _ hd] at t3
    simp only [IsMobImage, num_fin, den_fin, num_inf, den_inf, mul_one, mul_zero, add_zero] at t1 t2 t3
    have hdet : Matrix.det f.M = f.M 1 0 ^ 2 * (cpx ⟨M.x, 0⟩ - cpx M) * (cpx Qi - cpx Q1) := by
      rw [Matrix.det_fin_two]
      linear_combination (f.M 1 0 * cpx ⟨M.x, 0⟩ + f.M 1 1) * t1 - f.M 1 0 * t3 - (f.M 1 0 * cpx Qi - f.M 1 0 * cpx Q1) * t2
    have hn : ‖cpx ⟨M.x, 0⟩ - cpx M‖ = |M.y| := by
      have : cpx ⟨M.x, 0⟩ - cpx M = -((M.y : ℝ) : ℂ) * Complex.I := by
        apply Complex.ext <;> simp [cpx]
      rw [this, norm_mul, norm_neg, Complex.norm_I, Complex.norm_real, mul_one, Real.norm_eq_abs]
    have hq : ‖cpx Qi - cpx Q1‖ ≤ 20 := by
      have e : cpx Qi - cpx Q1 = (cpx Qi - cpx O) - (cpx Q1 - cpx O) := by ring
      rw [e]
      have := norm_sub_le (cpx Qi - cpx O) (cpx Q1 - cpx O)
      have := dist_le_of_sq (by norm_num) bi
      have := dist_le_of_sq (by norm_num) b1
      linarith
    rw [hdet, norm_mul, norm_mul, norm_pow, hn] at hf
    have hlow : 1 ≤ ‖f.M 1 0‖ ^ 2 * |M.y| * 20 := hf.trans (mul_le_mul_of_nonneg_left hq (by positivity))
    have hval : (dataOf X R).Ca.Valid := by
      rintro ⟨h, -⟩
      simp only [dataOf] at h
      unfold npClose at h
      norm_num at h
    obtain ⟨c, h1, h2, h3⟩ := (C54_transform_line_partial f hd (dataOf X R).Ca hval).1 M (by rw [tM, hM]) (by
      show sepsilon_ * Spec.dist (⟨-1, 0⟩ : Pt) ⟨1, 0⟩ < 2 * ‖f.M 1 0‖ ^ 2 * |cross ((⟨1, 0⟩ : Pt) - ⟨-1, 0⟩) (M - ⟨-1, 0⟩)|
      have hD : Spec.dist (⟨-1, 0⟩ : Pt) ⟨1, 0⟩ = 2 := by
        rw [dist_eq_iff (by norm_num)]; simp only [sqDist]; norm_num
      have hc : cross ((⟨1, 0⟩ : Pt) - ⟨-1, 0⟩) (M - ⟨-1, 0⟩) = 2 * M.y := by
        simp only [cross, Pt.sub_x, Pt.sub_y]; ring
      rw [hD, hc, abs_mul, abs_of_pos (by norm_num : (0 : ℝ) < 2)]
      have : sepsilon_ < 1 / 20 := by unfold sepsilon_; norm_num
      nlinarith)
    refine ⟨c, h1, h2, ?_⟩
    ext P
    obtain ⟨Q, rfl⟩ := E.surjective P
    rw [Set.mem_image_equiv, Equiv.symm_apply_apply]
    exact (h3 Q (E Q) (hE Q)).symm
  · exact circ _ (circ_valid hR).2.2 fin
  · exact circ _ (circ_valid hR).2.1 fin

/-! ### Insides -/

/-- The sign of the function is that of a Hermitian form. -/
def IsHerm (φ : XPt → ℝ) : Prop := ∃ (α γ : ℝ) (β : ℂ), ∀ P, ∃ k : ℝ, 0 < k ∧
  k * φ P = α * Complex.normSq (num P) + (β * num P * (starRingEnd ℂ) (den P)).re + γ * Complex.normSq (den P)

theorem herm_form (X R : ℝ) (x : Letter) : IsHerm (form X R x) := by
  rcases x with ⟨_ | _, _ | _⟩
  · refine ⟨√2, √2, -3 * Complex.I, fun P => ⟨1, one_pos, ?_⟩⟩
    rw [form_A]
    simp; ring
  · refine ⟨0, 0, Complex.I, fun P => ⟨1, one_pos, ?_⟩⟩
    rw [form_a]
    simp
  · refine ⟨1, X ^ 2, 2 * (starRingEnd ℂ) ⟨X, R⟩, fun P => ⟨1, one_pos, ?_⟩⟩
    rw [form_B]
    simp [toC, Complex.normSq_apply]; ring
  · refine ⟨1, X ^ 2, 2 * (starRingEnd ℂ) ⟨-X, R⟩, fun P => ⟨1, one_pos, ?_⟩⟩
    rw [form_b]
    simp [toC, Complex.normSq_apply]; ring

theorem herm_comp {φ : XPt → ℝ} (h : IsHerm φ) {f : Mobius} (hd : Matrix.det f.M ≠ 0) {E : Equiv.Perm XPt} (hE : ∀ P, f.transform P = .ok (E P)) :
    IsHerm fun P => φ (E P) := by
  obtain ⟨α, γ, β, hφ⟩ := h
  obtain ⟨a, ha⟩ : ∃ a, a = f.M 0 0 := ⟨_, rfl⟩
  obtain ⟨b, hb⟩ : ∃ b, b = f.M 0 1 := ⟨_, rfl⟩
  obtain ⟨c, hc⟩ : ∃ c, c = f.M 1 0 := ⟨_, rfl⟩
  obtain ⟨d, hd'⟩ : ∃ d, d = f.M 1 1 := ⟨_, rfl⟩
  refine ⟨α * Complex.normSq a + (β * a * (starRingEnd ℂ) c).re + γ * Complex.normSq c,
    α * Complex.normSq b + (β * b * (starRingEnd ℂ) d).re + γ * Complex.normSq d,
    2 * α * a * (starRingEnd ℂ) b + β * a * (starRingEnd ℂ) d + (starRingEnd ℂ) β * c * (starRingEnd ℂ) b + 2 * γ * c * (starRingEnd ℂ) d, ?_⟩
  intro P
  obtain ⟨k, hk, e⟩ := hφ (E P)
  have t := hE P
  rw [C49_transform _ hd, mobImage_iff ((det_ne_iff _).1 hd)] at t
  obtain ⟨μ, hμ, e1, e2⟩ := t
  rw [← ha, ← hb] at e1
  rw [← hc, ← hd'] at e2
  have hn : 0 < Complex.normSq μ := Complex.normSq_pos.2 hμ
  refine ⟨Complex.normSq μ * k, by positivity, ?_⟩
  rw [mul_assoc, e]
  have e3 : Complex.normSq μ * (α * Complex.normSq (num (E P)) + (β * num (E P) * (starRingEnd ℂ) (den (E P))).re + γ * Complex.normSq (den (E P))) =
      α * Complex.normSq (μ * num (E P)) + (β * (μ * num (E P)) * (starRingEnd ℂ) (μ * den (E P))).re + γ * Complex.normSq (μ * den (E P)) := by
    simp [Complex.normSq_apply]; ring
  rw [e3, ← e1, ← e2]
  simp [Complex.normSq_apply]
  ring

theorem herm_word {X R : ℝ} (hR : 1 < R) {e : Letter → Equiv.Perm XPt} (he : Acts (dataOf X R) e) {φ : XPt → ℝ} (hφ : IsHerm φ) (u : List Letter) :
    IsHerm fun P => φ ((u.map e).prod.symm P) := by
  have hinv : ∀ y, (e y).symm = e (invLetter y) := by
    intro y
    ext P
    obtain ⟨y, s⟩ := y
    rw [Equiv.symm_apply_eq]
    cases s
    · exact (acts_inv hR he y P).1.symm
    · exact (acts_inv hR he y P).2.symm
  induction u with
  | nil => exact hφ
  | cons y u ih =>
    have := herm_comp ih (ne_zero_of_norm (det_mob hR (invLetter y))) (he (invLetter y))
    rw [← hinv] at this
    exact this

/-- The region where the form is negative is the inside of the circle where it is zero. -/
theorem herm_inside {φ : XPt → ℝ} (h : IsHerm φ) (hi : 0 < φ .inf) {c : Circle} (hc : c.Valid) (h0 : ∀ P, φ P = 0 ↔ P ∈ gset (.circle c)) (P : XPt) :
    φ P < 0 ↔ P ∈ (Spec.disc c).inside := by
  obtain ⟨α, γ, β, hφ⟩ := h
  have hr : 0 < c.radius := hc
  have hα : 0 < α := by
    obtain ⟨k, hk, e⟩ := hφ .inf
    simp at e
    rw [← e]; positivity
  have hz : ∀ v : Pt, v.x ^ 2 + v.y ^ 2 = 1 → α * ((c.center.x + c.radius * v.x) ^ 2 + (c.center.y + c.radius * v.y) ^ 2) +
      (β.re * (c.center.x + c.radius * v.x) - β.im * (c.center.y + c.radius * v.y)) + γ = 0 := by
    intro v hv
    obtain ⟨k, hk, e⟩ := hφ (.fin ⟨c.center.x + c.radius * v.x, c.center.y + c.radius * v.y⟩)
    rw [(h0 _).2 (by
      show sqDist _ _ = _
      simp only [sqDist]
      linear_combination c.radius ^ 2 * hv), mul_zero] at e
    simp [cpx, Complex.normSq_apply] at e
    linear_combination -e
  have z1 := hz ⟨1, 0⟩ (by norm_num)
  have z2 := hz ⟨-1, 0⟩ (by norm_num)
  have z3 := hz ⟨0, 1⟩ (by norm_num)
  have z4 := hz ⟨0, -1⟩ (by norm_num)
  simp only at z1 z2 z3 z4
  have y1 : β.re = -2 * α * c.center.x := by
    have : c.radius * (β.re + 2 * α * c.center.x) = 0 := by linear_combination z1 / 2 - z2 / 2
    linarith [(mul_eq_zero.1 this).resolve_left hr.ne']
  have y2 : β.im = 2 * α * c.center.y := by
    have : c.radius * (β.im - 2 * α * c.center.y) = 0 := by linear_combination z4 / 2 - z3 / 2
    linarith [(mul_eq_zero.1 this).resolve_left hr.ne']
  have y3 : γ = α * (c.center.x ^ 2 + c.center.y ^ 2 - c.radius ^ 2) := by
    rw [y1, y2] at z1
    linear_combination z1
  rw [mem_disc_iff]
  cases P with
  | inf => rw [side_inf]; constructor <;> intro h <;> linarith
  | fin P =>
    obtain ⟨k, hk, e⟩ := hφ (.fin P)
    have e' : k * φ (.fin P) = α * side c (.fin P) := by
      rw [side_fin, e, y3]
      simp [cpx, Complex.normSq_apply, sqDist]
      rw [y1, y2]; ring
    rw [← neg_pos, ← neg_pos (a := side c (.fin P)), ← mul_pos_iff_of_pos_left hk, ← mul_pos_iff_of_pos_left (b := -side c (.fin P)) hα,
      mul_neg, mul_neg, e']

/-- The inside of the circle of a word is the disc of the word. -/
theorem word_inside {X R : ℝ} (h : Good X R) {e : Letter → Equiv.Perm XPt} (he : Acts (dataOf X R) e) {t : List Letter} (ht : Reduced t)
    (hl : 2 ≤ t.length) {c : Circle} (hc : c.Valid)
    (hs : gset (.circle c) = genSet (fun x => e x) (fun x => gset ((dataOf X R).circ x)) t) :
    (Spec.disc c).inside = genSet (fun x => e x) (fun x => disc X R x \ gset ((dataOf X R).circ x)) t := by
  have hR := h.R1
  have h0 : t ≠ [] := by rintro rfl; simp at hl
  obtain ⟨O, hO⟩ := gen_bounded h he (fun _ => subset_rfl) ht hl
  obtain ⟨u, x, rfl⟩ : ∃ u x, t = u ++ [x] := ⟨_, _, (List.dropLast_append_getLast h0).symm⟩
  rw [genSet_append] at hs hO ⊢
  obtain ⟨E, hE⟩ : ∃ E, E = (u.map e).prod := ⟨_, rfl⟩
  have hh := herm_word hR he (herm_form X R x) u
  rw [← hE] at hs hO hh ⊢
  have hi : 0 < form X R x (E.symm .inf) := by
    by_contra hcon
    push Not at hcon
    obtain ⟨Q, hQ, -⟩ := hO (E (E.symm .inf)) ⟨_, hcon, rfl⟩
    rw [Equiv.apply_symm_apply] at hQ
    exact absurd hQ (by simp)
  ext P
  rw [← herm_inside hh hi hc (fun Q => by rw [hs, Set.mem_image_equiv]; exact (mem_circ X R x _).symm) P, Set.mem_image_equiv, Set.mem_diff, mem_circ]
  exact ⟨fun h => ⟨h.le, h.ne⟩, fun h => lt_of_le_of_ne h.1 h.2⟩

end Schottky
