import Verif.Props.Boundary4

/-!
# Ellipses as sublevel sets of quadratic polynomials; pencils of two ellipses
-/

open Spec Real Classical

namespace EllPencil

/-- A quadratic polynomial `A x² + 2 B x y + C y² + 2 D x + 2 E y + G`. -/
structure Quad where
  A : ℝ
  B : ℝ
  C : ℝ
  D : ℝ
  E : ℝ
  G : ℝ

namespace Quad

def val (q : Quad) (X : Pt) : ℝ := q.A * X.x ^ 2 + 2 * q.B * X.x * X.y + q.C * X.y ^ 2 + 2 * q.D * X.x + 2 * q.E * X.y + q.G

def det2 (q : Quad) : ℝ := q.A * q.C - q.B ^ 2

def det3 (q : Quad) : ℝ := q.A * q.C * q.G + 2 * q.B * q.D * q.E - q.A * q.E ^ 2 - q.C * q.D ^ 2 - q.G * q.B ^ 2

/-- Where the polynomial is the smallest. -/
noncomputable def low (q : Quad) : Pt := ⟨(q.B * q.E - q.C * q.D) / q.det2, (q.B * q.D - q.A * q.E) / q.det2⟩

def comb (q r : Quad) (t : ℝ) : Quad :=
  ⟨(1 - t) * q.A + t * r.A, (1 - t) * q.B + t * r.B, (1 - t) * q.C + t * r.C, (1 - t) * q.D + t * r.D, (1 - t) * q.E + t * r.E,
    (1 - t) * q.G + t * r.G⟩

theorem comb_val (q r : Quad) (t : ℝ) (X : Pt) : (q.comb r t).val X = (1 - t) * q.val X + t * r.val X := by
  unfold comb val; ring

theorem val_low (q : Quad) (h : q.det2 ≠ 0) (X : Pt) :
    q.val X = q.A * (X.x - q.low.x) ^ 2 + 2 * q.B * (X.x - q.low.x) * (X.y - q.low.y) + q.C * (X.y - q.low.y) ^ 2 + q.det3 / q.det2 := by
  obtain ⟨d, hd⟩ : ∃ d, d = q.det2 := ⟨_, rfl⟩
  have hd0 : d ≠ 0 := by rw [hd]; exact h
  have hx : q.A * q.low.x + q.B * q.low.y = -q.D := by
    unfold low; dsimp only; rw [← hd]; field_simp; rw [hd]; unfold det2; ring
  have hy : q.B * q.low.x + q.C * q.low.y = -q.E := by
    unfold low; dsimp only; rw [← hd]; field_simp; rw [hd]; unfold det2; ring
  have hm : q.det3 / q.det2 = q.D * q.low.x + q.E * q.low.y + q.G := by
    unfold low; dsimp only; rw [← hd]; field_simp; unfold det3; rw [hd]; unfold det2; ring
  rw [hm]
  unfold val
  linear_combination (2 * X.x - q.low.x) * hx + (2 * X.y - q.low.y) * hy

theorem form_pos {q : Quad} (hA : 0 < q.A) (h : 0 < q.det2) {u v : ℝ} (huv : ¬ (u = 0 ∧ v = 0)) :
    0 < q.A * u ^ 2 + 2 * q.B * u * v + q.C * v ^ 2 := by
  have e : q.A * (q.A * u ^ 2 + 2 * q.B * u * v + q.C * v ^ 2) = (q.A * u + q.B * v) ^ 2 + q.det2 * v ^ 2 := by
    unfold det2; ring
  have h1 : 0 < (q.A * u + q.B * v) ^ 2 + q.det2 * v ^ 2 := by
    by_cases hv : v = 0
    · have hu : u ≠ 0 := fun hu => huv ⟨hu, hv⟩
      rw [hv, mul_zero, add_zero]
      have := mul_ne_zero hA.ne' hu
      positivity
    · positivity
  rw [← e] at h1
  exact (mul_pos_iff_of_pos_left hA).1 h1

theorem form_nonneg {q : Quad} (hA : 0 < q.A) (h : 0 < q.det2) (u v : ℝ) :
    0 ≤ q.A * u ^ 2 + 2 * q.B * u * v + q.C * v ^ 2 := by
  by_cases huv : u = 0 ∧ v = 0
  · rw [huv.1, huv.2]; norm_num
  · exact (form_pos hA h huv).le

theorem val_ge {q : Quad} (hA : 0 < q.A) (h : 0 < q.det2) (X : Pt) : q.det3 / q.det2 ≤ q.val X := by
  rw [val_low q h.ne' X]
  have := form_nonneg hA h (X.x - q.low.x) (X.y - q.low.y)
  linarith

theorem val_at_low {q : Quad} (h : 0 < q.det2) : q.val q.low = q.det3 / q.det2 := by
  rw [val_low q h.ne']; ring

/-- Two different points where the polynomial is not positive. -/
theorem det3_neg {q : Quad} (hA : 0 < q.A) (h : 0 < q.det2) {U V : Pt} (hUV : U ≠ V) (hU : q.val U ≤ 0) (hV : q.val V ≤ 0) :
    q.det3 < 0 := by
  have hm := val_ge hA h ⟨(U.x + V.x) / 2, (U.y + V.y) / 2⟩
  have e : q.val ⟨(U.x + V.x) / 2, (U.y + V.y) / 2⟩ =
      (q.val U + q.val V) / 2 - (q.A * (U.x - V.x) ^ 2 + 2 * q.B * (U.x - V.x) * (U.y - V.y) + q.C * (U.y - V.y) ^ 2) / 4 := by
    unfold val; dsimp only; ring
  have hp := form_pos (q := q) hA h (u := U.x - V.x) (v := U.y - V.y) (by
    rintro ⟨h1, h2⟩
    apply hUV
    ext
    · linarith
    · linarith)
  by_contra hcon
  push Not at hcon
  have : 0 ≤ q.det3 / q.det2 := div_nonneg hcon h.le
  linarith

theorem det_comb {q r : Quad} (hq : 0 < q.A) (hr : 0 < r.A) {m : ℝ} (hm : 0 < m) (h1 : m ≤ q.det2) (h2 : m ≤ r.det2) {t : ℝ}
    (ht0 : 0 ≤ t) (ht1 : t ≤ 1) : m ≤ (q.comb r t).det2 := by
  obtain ⟨k, hk⟩ : ∃ k, k = q.A * r.C + r.A * q.C - 2 * q.B * r.B := ⟨_, rfl⟩
  have e : (q.comb r t).det2 = (1 - t) ^ 2 * q.det2 + t ^ 2 * r.det2 + t * (1 - t) * k := by
    rw [hk]; unfold det2 comb; dsimp only; ring
  have e2 : q.A * r.A * k = q.A ^ 2 * r.det2 + r.A ^ 2 * q.det2 + (q.A * r.B - r.A * q.B) ^ 2 := by
    rw [hk]; unfold det2; ring
  have hk2 : 2 * m ≤ k := by
    have hqr := mul_pos hq hr
    by_contra hcon
    push Not at hcon
    have h3 := mul_lt_mul_of_pos_left hcon hqr
    have h4 := mul_le_mul_of_nonneg_left h2 (sq_nonneg q.A)
    have h5 := mul_le_mul_of_nonneg_left h1 (sq_nonneg r.A)
    have h6 := mul_nonneg hm.le (sq_nonneg (q.A - r.A))
    have h7 := sq_nonneg (q.A * r.B - r.A * q.B)
    nlinarith
  rw [e]
  have h3 := mul_le_mul_of_nonneg_left h1 (sq_nonneg (1 - t))
  have h4 := mul_le_mul_of_nonneg_left h2 (sq_nonneg t)
  have h5 := mul_le_mul_of_nonneg_left hk2 (mul_nonneg ht0 (sub_nonneg.2 ht1))
  nlinarith

/-- Equality for `t = 1/2`. -/
theorem det_comb_eq {q r : Quad} (hq : 0 < q.A) (hr : 0 < r.A) {m : ℝ} (hm : 0 < m) (h1 : q.det2 = m) (h2 : r.det2 = m)
    (h : (q.comb r (1 / 2)).det2 ≤ m) : q.A = r.A ∧ q.B = r.B ∧ q.C = r.C := by
  obtain ⟨k, hk⟩ : ∃ k, k = q.A * r.C + r.A * q.C - 2 * q.B * r.B := ⟨_, rfl⟩
  have e : (q.comb r (1 / 2)).det2 = (q.det2 + r.det2 + k) / 4 := by
    rw [hk]; unfold det2 comb; dsimp only; ring
  have e2 : q.A * r.A * k = q.A ^ 2 * r.det2 + r.A ^ 2 * q.det2 + (q.A * r.B - r.A * q.B) ^ 2 := by
    rw [hk]; unfold det2; ring
  rw [e, h1, h2] at h
  rw [h1, h2] at e2
  have hk2 : k ≤ 2 * m := by linarith
  have hqr := mul_pos hq hr
  have h3 := mul_le_mul_of_nonneg_left hk2 hqr.le
  have h6 := mul_nonneg hm.le (sq_nonneg (q.A - r.A))
  have h7 := sq_nonneg (q.A * r.B - r.A * q.B)
  have hA2 : m * (q.A - r.A) ^ 2 = 0 := by nlinarith
  have hA : q.A = r.A := by
    rcases mul_eq_zero.1 hA2 with h | h
    · exact absurd h hm.ne'
    · exact sub_eq_zero.1 (pow_eq_zero_iff two_ne_zero |>.1 h)
  have hB2 : (q.A * r.B - r.A * q.B) ^ 2 = 0 := by nlinarith
  have hB : q.B = r.B := by
    have := pow_eq_zero_iff two_ne_zero |>.1 hB2
    apply mul_left_cancel₀ hq.ne'
    rw [hA] at this ⊢
    linarith
  refine ⟨hA, hB, ?_⟩
  unfold det2 at h1 h2
  apply mul_left_cancel₀ hq.ne'
  rw [hA, hB] at h1
  rw [hA]
  linarith

end Quad

/-- The polynomial of an ellipse. -/
theorem ellipse_quad (O : Pt) (a b α : ℝ) (ha : 0 < a) (hb : 0 < b) :
    ∃ q : Quad, 0 < q.A ∧ q.det2 = 1 / (a * b) ^ 2 ∧ q.det3 = -q.det2 ∧ (∀ X, InEllipse O a b α X ↔ q.val X ≤ 0) ∧
      ∀ X, OnEllipse O a b α X ↔ q.val X = 0 := by
  have hsc := sin_sq_add_cos_sq α
  obtain ⟨c, hc⟩ : ∃ c, c = cos α := ⟨_, rfl⟩
  obtain ⟨s, hs⟩ : ∃ s, s = sin α := ⟨_, rfl⟩
  rw [← hc, ← hs] at hsc
  obtain ⟨A, hA⟩ : ∃ A, A = (c / a) ^ 2 + (s / b) ^ 2 := ⟨_, rfl⟩
  obtain ⟨B, hB⟩ : ∃ B, B = c * s / a ^ 2 - c * s / b ^ 2 := ⟨_, rfl⟩
  obtain ⟨C, hC⟩ : ∃ C, C = (s / a) ^ 2 + (c / b) ^ 2 := ⟨_, rfl⟩
  have hd : A * C - B ^ 2 = 1 / (a * b) ^ 2 := by
    rw [hA, hB, hC]
    field_simp
    linear_combination (a ^ 2 * b ^ 2) * (s ^ 2 + c ^ 2 + 1) * hsc
  have hpos : 0 < A := by
    have h1 : 0 ≤ A := by rw [hA]; positivity
    rcases h1.lt_or_eq with h | h
    · exact h
    · exfalso
      have : 0 < A * C - B ^ 2 := by rw [hd]; positivity
      rw [← h] at this
      have := sq_nonneg B
      linarith
  have hval : ∀ X, ellVal O a b α X =
      (Quad.mk A B C (-(A * O.x + B * O.y)) (-(B * O.x + C * O.y)) (A * O.x ^ 2 + 2 * B * O.x * O.y + C * O.y ^ 2 - 1)).val X := by
    intro X
    unfold ellVal axisCoord Quad.val
    dsimp only
    rw [← hc, ← hs, hA, hB, hC]
    field_simp
    ring
  refine ⟨⟨A, B, C, -(A * O.x + B * O.y), -(B * O.x + C * O.y), A * O.x ^ 2 + 2 * B * O.x * O.y + C * O.y ^ 2 - 1⟩, hpos, hd, ?_, ?_, ?_⟩
  · unfold Quad.det3 Quad.det2; dsimp only; ring
  · intro X; rw [inEllipse_iff, hval]
  · intro X; rw [onEllipse_iff ha hb, hval]

/-- The ellipse of a polynomial. -/
theorem quad_ellipse (q : Quad) (hA : 0 < q.A) (h2 : 0 < q.det2) (h3 : q.det3 < 0) :
    ∃ (O : Pt) (a b α : ℝ), 0 < a ∧ 0 < b ∧ (a * b) ^ 2 = q.det3 ^ 2 / q.det2 ^ 3 ∧
      (∀ X, InEllipse O a b α X ↔ q.val X ≤ 0) ∧ ∀ X, OnEllipse O a b α X ↔ q.val X = 0 := by
  obtain ⟨k, hk⟩ : ∃ k, k = -q.det3 / q.det2 := ⟨_, rfl⟩
  have hkp : 0 < k := by rw [hk]; exact div_pos (by linarith) h2
  obtain ⟨S, hS⟩ : ∃ S : Matrix (Fin 2) (Fin 2) ℝ, S = !![q.A / k, q.B / k; q.B / k, q.C / k] := ⟨_, rfl⟩
  have hq : ∀ v : Pt, quadForm S v = (q.A * v.x ^ 2 + 2 * q.B * v.x * v.y + q.C * v.y ^ 2) / k := by
    intro v; rw [hS]; unfold quadForm; simp; field_simp; ring
  have hPD : PosDef2 S := by
    refine ⟨by rw [hS]; simp, fun v hv => ?_⟩
    rw [hq]
    refine div_pos (Quad.form_pos hA h2 ?_) hkp
    rintro ⟨h1, h2⟩
    exact hv (by ext; exact h1; exact h2)
  obtain ⟨g, hg⟩ := exists_eigh S
  obtain ⟨e, he, hv, -, hc, hon⟩ := C65_from_center_and_matrix q.low S hPD g hg
  have har := Boundary4.eigen_area hPD hg he
  have hval : ∀ X, quadForm S (X - q.low) = 1 + q.val X / k := by
    intro X
    rw [hq, Quad.val_low q h2.ne' X, Pt.sub_x, Pt.sub_y]
    have : q.det3 / q.det2 = -k := by rw [hk]; ring
    rw [this]
    field_simp
    ring
  refine ⟨e.center, e.rmajor, e.rminor, e.rad, hv.1, hv.2, ?_, ?_, ?_⟩
  · have hdet : S.det = q.det2 / k ^ 2 := by
      rw [hS, Matrix.det_fin_two]; unfold Quad.det2; simp; field_simp
    rw [hdet] at har
    have h3' : q.det3 = -(k * q.det2) := by rw [hk]; field_simp
    rw [h3']
    field_simp at har ⊢
    linarith
  · intro X
    rw [inEllipse_quadForm hv hPD (by rw [hc]; exact hon), hc, hval]
    constructor
    · intro h
      by_contra hcon
      push Not at hcon
      have := div_pos hcon hkp
      linarith
    · intro h
      have := div_nonpos_of_nonpos_of_nonneg h hkp.le
      linarith
  · intro X
    have : OnEllipse e.center e.rmajor e.rminor e.rad X ↔ OnE e X := Iff.rfl
    rw [this, hon, hval]
    constructor
    · intro h
      have : q.val X / k = 0 := by linarith
      rcases div_eq_zero_iff.1 this with h | h
      · exact h
      · exact absurd h hkp.ne'
    · intro h; rw [h]; simp

/-- Between two ellipses with two common points: the ellipses of the pencil. -/
theorem pencil (O : Pt) (a b α : ℝ) (O' : Pt) (a' b' α' : ℝ) (ha : 0 < a) (hb : 0 < b) (ha' : 0 < a') (hb' : 0 < b')
    (har : a * b ≤ a' * b') (U V : Pt) (hUV : U ≠ V) (hU : InEllipse O a b α U) (hV : InEllipse O a b α V)
    (hU' : InEllipse O' a' b' α' U) (hV' : InEllipse O' a' b' α' V) (p : Pt) (hp : ¬ InEllipse O a b α p)
    (hp' : InEllipse O' a' b' α' p) :
    ∃ (O'' : Pt) (a'' b'' α'' : ℝ), 0 < a'' ∧ 0 < b'' ∧ a'' * b'' ≤ a' * b' ∧ OnEllipse O'' a'' b'' α'' p ∧
      (∀ X, InEllipse O a b α X → InEllipse O' a' b' α' X → InEllipse O'' a'' b'' α'' X) ∧
      ∀ X, OnEllipse O a b α X → OnEllipse O' a' b' α' X → OnEllipse O'' a'' b'' α'' X := by
  obtain ⟨q, qA, q2, q3, qin, qon⟩ := ellipse_quad O a b α ha hb
  obtain ⟨r, rA, r2, r3, rin, ron⟩ := ellipse_quad O' a' b' α' ha' hb'
  have hab : 0 < a * b := mul_pos ha hb
  have hab' : 0 < a' * b' := mul_pos ha' hb'
  rw [qin] at hp
  push Not at hp
  rw [rin] at hp'
  obtain ⟨t, ht⟩ : ∃ t, t = q.val p / (q.val p - r.val p) := ⟨_, rfl⟩
  have hden : 0 < q.val p - r.val p := by linarith
  have ht0 : 0 ≤ t := by rw [ht]; exact (div_pos hp hden).le
  have ht1 : t ≤ 1 := by rw [ht, div_le_one hden]; linarith
  have htp : (q.comb r t).val p = 0 := by
    rw [Quad.comb_val, ht]; field_simp; ring
  obtain ⟨m, hm⟩ : ∃ m, m = 1 / (a' * b') ^ 2 := ⟨_, rfl⟩
  have hmp : 0 < m := by rw [hm]; positivity
  have hmq : m ≤ q.det2 := by
    rw [hm, q2]
    exact one_div_le_one_div_of_le (by positivity) (pow_le_pow_left₀ hab.le har 2)
  have hmr : m ≤ r.det2 := by rw [hm, r2]
  have hd := Quad.det_comb qA rA hmp hmq hmr ht0 ht1
  have hdp : 0 < (q.comb r t).det2 := lt_of_lt_of_le hmp hd
  have hcA : 0 < (q.comb r t).A := by
    show 0 < (1 - t) * q.A + t * r.A
    rcases ht0.lt_or_eq with h | h
    · have := mul_pos h rA
      have := mul_nonneg (sub_nonneg.2 ht1) qA.le
      linarith
    · rw [← h]; linarith
  have hcin : ∀ X, q.val X ≤ 0 → r.val X ≤ 0 → (q.comb r t).val X ≤ 0 := by
    intro X h1 h2
    rw [Quad.comb_val]
    have := mul_nonpos_of_nonneg_of_nonpos (sub_nonneg.2 ht1) h1
    have := mul_nonpos_of_nonneg_of_nonpos ht0 h2
    linarith
  have h3 := Quad.det3_neg hcA hdp hUV (hcin U ((qin U).1 hU) ((rin U).1 hU')) (hcin V ((qin V).1 hV) ((rin V).1 hV'))
  obtain ⟨O'', a'', b'', α'', ha'', hb'', har'', hin, hon⟩ := quad_ellipse _ hcA hdp h3
  refine ⟨O'', a'', b'', α'', ha'', hb'', ?_, (hon p).2 htp, ?_, ?_⟩
  · have hlow : -1 ≤ (q.comb r t).det3 / (q.comb r t).det2 := by
      rw [← Quad.val_at_low hdp, Quad.comb_val]
      have k1 := Quad.val_ge qA (lt_of_lt_of_le hmp hmq) (q.comb r t).low
      have k2 := Quad.val_ge rA (lt_of_lt_of_le hmp hmr) (q.comb r t).low
      rw [q3, neg_div, div_self (lt_of_lt_of_le hmp hmq).ne'] at k1
      rw [r3, neg_div, div_self (lt_of_lt_of_le hmp hmr).ne'] at k2
      have := mul_le_mul_of_nonneg_left k1 (sub_nonneg.2 ht1)
      have := mul_le_mul_of_nonneg_left k2 ht0
      linarith
    rw [le_div_iff₀ hdp] at hlow
    obtain ⟨d, hde⟩ : ∃ d, d = (q.comb r t).det2 := ⟨_, rfl⟩
    obtain ⟨f, hf⟩ : ∃ f, f = (q.comb r t).det3 := ⟨_, rfl⟩
    rw [← hde, ← hf] at har''
    rw [← hde] at hd hdp
    rw [← hf, ← hde] at hlow
    rw [← hf] at h3
    have k1 : f ^ 2 ≤ d ^ 2 := by nlinarith
    have k2 : f ^ 2 / d ^ 3 ≤ 1 / d := by
      rw [div_le_div_iff₀ (by positivity) hdp]
      nlinarith [mul_le_mul_of_nonneg_right k1 hdp.le]
    have k3 : 1 / d ≤ (a' * b') ^ 2 := by
      have : (a' * b') ^ 2 = 1 / m := by rw [hm]; simp
      rw [this]
      exact one_div_le_one_div_of_le hmp hd
    rw [← har''] at k2
    exact (sq_le_sq₀ (mul_pos ha'' hb'').le hab'.le).1 (k2.trans k3)
  · intro X h1 h2
    exact (hin X).2 (hcin X ((qin X).1 h1) ((rin X).1 h2))
  · intro X h1 h2
    rw [hon, Quad.comb_val, (qon X).1 h1, (ron X).1 h2]
    ring

/-- Two ellipses of the same area with two common points that bound different regions: there is a smaller ellipse in the
pencil. -/
theorem pencil_strict (O : Pt) (a b α : ℝ) (O' : Pt) (a' b' α' : ℝ) (ha : 0 < a) (hb : 0 < b) (ha' : 0 < a') (hb' : 0 < b')
    (har : a * b = a' * b') (U V : Pt) (hUV : U ≠ V) (hU : InEllipse O a b α U) (hV : InEllipse O a b α V)
    (hU' : InEllipse O' a' b' α' U) (hV' : InEllipse O' a' b' α' V) (hne : ¬ SameRegion O a b α O' a' b' α') :
    ∃ (O'' : Pt) (a'' b'' α'' : ℝ), 0 < a'' ∧ 0 < b'' ∧ a'' * b'' < a' * b' ∧
      (∀ X, InEllipse O a b α X → InEllipse O' a' b' α' X → InEllipse O'' a'' b'' α'' X) ∧
      ∀ X, OnEllipse O a b α X → OnEllipse O' a' b' α' X → OnEllipse O'' a'' b'' α'' X := by
  obtain ⟨q, qA, q2, q3, qin, qon⟩ := ellipse_quad O a b α ha hb
  obtain ⟨r, rA, r2, r3, rin, ron⟩ := ellipse_quad O' a' b' α' ha' hb'
  have hab' : 0 < a' * b' := mul_pos ha' hb'
  obtain ⟨m, hm⟩ : ∃ m, m = 1 / (a' * b') ^ 2 := ⟨_, rfl⟩
  have hmp : 0 < m := by rw [hm]; positivity
  rw [har, ← hm] at q2
  rw [← hm] at r2
  have hd := Quad.det_comb qA rA hmp q2.ge r2.ge (t := 1 / 2) (by norm_num) (by norm_num)
  have hdp : 0 < (q.comb r (1 / 2)).det2 := lt_of_lt_of_le hmp hd
  have hcA : 0 < (q.comb r (1 / 2)).A := by
    show 0 < (1 - 1 / 2) * q.A + 1 / 2 * r.A
    linarith
  have hcin : ∀ X, q.val X ≤ 0 → r.val X ≤ 0 → (q.comb r (1 / 2)).val X ≤ 0 := by
    intro X h1 h2
    rw [Quad.comb_val]
    linarith
  have h3 := Quad.det3_neg hcA hdp hUV (hcin U ((qin U).1 hU) ((rin U).1 hU')) (hcin V ((qin V).1 hV) ((rin V).1 hV'))
  obtain ⟨O'', a'', b'', α'', ha'', hb'', har'', hin, hon⟩ := quad_ellipse _ hcA hdp h3
  refine ⟨O'', a'', b'', α'', ha'', hb'', ?_, ?_, ?_⟩
  · have k1 := Quad.val_ge qA (by rw [q2]; exact hmp) (q.comb r (1 / 2)).low
    have k2 := Quad.val_ge rA (by rw [r2]; exact hmp) (q.comb r (1 / 2)).low
    rw [q3, neg_div, div_self (by rw [q2]; exact hmp.ne')] at k1
    rw [r3, neg_div, div_self (by rw [r2]; exact hmp.ne')] at k2
    have hlow : (q.comb r (1 / 2)).det3 / (q.comb r (1 / 2)).det2 = (1 - 1 / 2) * q.val (q.comb r (1 / 2)).low + 1 / 2 * r.val (q.comb r (1 / 2)).low := by
      rw [← Quad.val_at_low hdp, Quad.comb_val]
    by_contra hcon
    push Not at hcon
    obtain ⟨d, hde⟩ : ∃ d, d = (q.comb r (1 / 2)).det2 := ⟨_, rfl⟩
    obtain ⟨f, hf⟩ : ∃ f, f = (q.comb r (1 / 2)).det3 := ⟨_, rfl⟩
    rw [← hde, ← hf] at har'' hlow
    have hd' := hd
    rw [← hde] at hd' hdp
    rw [← hf] at h3
    have hfd : -1 ≤ f / d := by rw [hlow]; linarith
    have hfd' : -d ≤ f := by rw [le_div_iff₀ hdp] at hfd; linarith
    have j1 : (a' * b') ^ 2 ≤ (a'' * b'') ^ 2 := pow_le_pow_left₀ hab'.le hcon 2
    have j2 : (a' * b') ^ 2 = 1 / m := by rw [hm]; simp
    rw [har'', j2, div_le_div_iff₀ hmp (by positivity)] at j1
    have j3 : f ^ 2 ≤ d ^ 2 := by nlinarith
    have j4 : d ^ 2 * d ≤ d ^ 2 * m := by nlinarith [mul_le_mul_of_nonneg_right j3 hmp.le]
    have j5 : d ≤ m := le_of_mul_le_mul_left j4 (by positivity)
    have j6 : d = m := le_antisymm j5 hd'
    have j7 : d ^ 2 ≤ f ^ 2 := by
      rw [j6] at j1 ⊢
      have : m * m ^ 2 ≤ m * f ^ 2 := by nlinarith
      exact le_of_mul_le_mul_left this hmp
    have j8 : f = -d := by
      rcases sq_eq_sq_iff_eq_or_eq_neg.1 (le_antisymm j3 j7) with h | h
      · linarith
      · exact h
    have hfd2 : f / d = -1 := by rw [j8, neg_div, div_self hdp.ne']
    rw [hfd2] at hlow
    obtain ⟨eA, eB, eC⟩ := Quad.det_comb_eq qA rA hmp q2 r2 (by rw [← hde]; exact j5)
    have eq1 : q.val (q.comb r (1 / 2)).low = -1 := by linarith
    have eq2 : r.val (q.comb r (1 / 2)).low = -1 := by linarith
    have hlow_q : (q.comb r (1 / 2)).low = q.low := by
      by_contra hl
      have := Quad.val_low q (by rw [q2]; exact hmp.ne') (q.comb r (1 / 2)).low
      have hp := Quad.form_pos (q := q) qA (by rw [q2]; exact hmp) (u := (q.comb r (1 / 2)).low.x - q.low.x)
        (v := (q.comb r (1 / 2)).low.y - q.low.y) (by
          rintro ⟨h1, h2⟩
          exact hl (by ext; linarith; linarith))
      rw [q3, neg_div, div_self (by rw [q2]; exact hmp.ne'), eq1] at this
      linarith
    have hlow_r : (q.comb r (1 / 2)).low = r.low := by
      by_contra hl
      have := Quad.val_low r (by rw [r2]; exact hmp.ne') (q.comb r (1 / 2)).low
      have hp := Quad.form_pos (q := r) rA (by rw [r2]; exact hmp) (u := (q.comb r (1 / 2)).low.x - r.low.x)
        (v := (q.comb r (1 / 2)).low.y - r.low.y) (by
          rintro ⟨h1, h2⟩
          exact hl (by ext; linarith; linarith))
      rw [r3, neg_div, div_self (by rw [r2]; exact hmp.ne'), eq2] at this
      linarith
    apply hne
    intro X
    rw [qin, rin]
    have hv : q.val X = r.val X := by
      rw [Quad.val_low q (by rw [q2]; exact hmp.ne'), Quad.val_low r (by rw [r2]; exact hmp.ne'), ← hlow_q, ← hlow_r, eA, eB, eC, q3, r3,
        neg_div, neg_div, div_self (by rw [q2]; exact hmp.ne'), div_self (by rw [r2]; exact hmp.ne')]
    rw [hv]
  · intro X h1 h2
    exact (hin X).2 (hcin X ((qin X).1 h1) ((rin X).1 h2))
  · intro X h1 h2
    rw [hon, Quad.comb_val, (qon X).1 h1, (ron X).1 h2]
    ring

end EllPencil
