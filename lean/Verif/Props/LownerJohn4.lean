import Verif.Lemmas.LownerJohn4

/-!
# C112: `LownerJohnEllipse` with `np.float` read as `float`
-/

open Spec Real Classical

namespace LJ4

theorem exists_circle (points : List Pt) : ∃ O a b α, Feas points [] O a b α := by
  obtain ⟨R, hR, hb⟩ : ∃ R : ℝ, 0 < R ∧ ∀ P ∈ points, P.x ^ 2 + P.y ^ 2 ≤ R ^ 2 := by
    induction points with
    | nil => exact ⟨1, one_pos, by simp⟩
    | cons P l ih =>
      obtain ⟨R, hR, hb⟩ := ih
      refine ⟨R + |P.x| + |P.y|, by positivity, ?_⟩
      intro Q hQ
      have h1 := abs_nonneg P.x
      have h2 := abs_nonneg P.y
      rcases List.mem_cons.1 hQ with rfl | h
      · have e1 := sq_abs Q.x
        have e2 := sq_abs Q.y
        nlinarith [mul_nonneg h1 h2, mul_pos hR hR, mul_nonneg hR.le h1, mul_nonneg hR.le h2]
      · exact (hb Q h).trans (pow_le_pow_left₀ hR.le (by linarith) 2)
  refine ⟨⟨0, 0⟩, R, R, 0, hR, hR, ?_, by simp⟩
  intro P hP
  unfold InEllipse axisCoord
  simp
  rw [div_pow, div_pow, ← add_div, div_le_one (by positivity)]
  exact hb P hP

/-- A smallest ellipse is unique. -/
theorem min_unique {points : List Pt} (h2 : 2 ≤ points.length) (hn : points.Nodup) {e : Ellipse} (he : IsMin points [] e)
    {O : Pt} {a b α : ℝ} (ha : 0 < a) (hb : 0 < b) (hin : ∀ P ∈ points, InEllipse O a b α P) (hle : a * b ≤ e.rmajor * e.rminor) :
    SameRegion O a b α e.center e.rmajor e.rminor e.rad := by
  obtain ⟨⟨h1, h3, h4, -⟩, hmin⟩ := he
  have heq : a * b = e.rmajor * e.rminor := le_antisymm hle (hmin O a b α ⟨ha, hb, hin, by simp⟩)
  by_contra hcon
  obtain ⟨U, V, hUV, hU, hV⟩ : ∃ U V : Pt, U ≠ V ∧ U ∈ points ∧ V ∈ points := by
    match points, h2 with
    | U :: V :: _, _ =>
      refine ⟨U, V, ?_, by simp, by simp⟩
      simp at hn
      exact hn.1.1
  obtain ⟨O', a', b', α', ha', hb', hlt, hin', -⟩ := EllPencil.pencil_strict O a b α e.center e.rmajor e.rminor e.rad ha hb h1 h3 heq U V hUV
    (hin U hU) (hin V hV) (h4 U hU) (h4 V hV) hcon
  have := hmin O' a' b' α' ⟨ha', hb', fun P hP => hin' P (hin P hP) (h4 P hP), by simp⟩
  linarith

/-- What is said of a smallest ellipse, in terms of areas. -/
theorem smallest {points : List Pt} (h2 : 2 ≤ points.length) (hn : points.Nodup) {e : Ellipse} (he : IsMin points [] e) :
    e.Valid ∧ (∀ P ∈ points, InEllipse e.center e.rmajor e.rminor e.rad P) ∧
    ∀ (O : Pt) (a b α : ℝ), 0 < a → 0 < b → (∀ P ∈ points, InEllipse O a b α P) →
      ellipseArea e.rmajor e.rminor ≤ ellipseArea a b ∧
      (ellipseArea a b ≤ ellipseArea e.rmajor e.rminor → SameRegion O a b α e.center e.rmajor e.rminor e.rad) := by
  refine ⟨⟨he.1.1, he.1.2.1⟩, he.1.2.2.1, fun O a b α ha hb hin => ⟨?_, fun h => ?_⟩⟩
  · unfold ellipseArea
    rw [mul_assoc, mul_assoc]
    exact mul_le_mul_of_nonneg_left (he.2 O a b α ⟨ha, hb, hin, by simp⟩) pi_pos.le
  · unfold ellipseArea at h
    rw [mul_assoc, mul_assoc] at h
    exact min_unique h2 hn he ha hb hin (le_of_mul_le_mul_left h pi_pos)

end LJ4

/-- C112 (part): with `np.float` read as `float`, for at least three points, no two equal and no three on a line,
`LownerJohnEllipse` returns the ellipse with the smallest area among all the ellipses that contain the points, whatever the random
choices, provided that `from_five_points` does its work: the equations of the ellipses through five of the points are not rejected by
the third guard of `from_equation`, and their axes are not at 45 degrees from the coordinate axes.  Missing: without this
proviso the claim is false (`C112_far_counterexample`, `C112_diagonal_counterexample`). -/
theorem C112_lownerJohn_partial (env : LJ4.Env) (henv : env.Ok) (points : List Pt) (h3 : 3 ≤ points.length) (hn : points.Nodup)
    (hg : ∀ P ∈ points, ∀ Q ∈ points, ∀ R ∈ points, P ≠ Q → Q ≠ R → P ≠ R → ¬ Collinear P Q R)
    (h5 : ∀ (E : Ellipse) (P : Fin 5 → Pt), E.Valid → Function.Injective P → (∀ i, P i ∈ points ∧ OnE E (P i)) →
      4 * (E.equation.A + E.equation.C) * E.equation.F < E.equation.D * E.equation.D + E.equation.E * E.equation.E ∧
      (E.equation.A ≠ E.equation.C ∨ E.equation.B = 0)) :
    ∃ e, LJ4.lownerJohn env [] points [] = .ok (some e) ∧ e.Valid ∧ (∀ P ∈ points, InEllipse e.center e.rmajor e.rminor e.rad P) ∧
      ∀ (O : Pt) (a b α : ℝ), 0 < a → 0 < b → (∀ P ∈ points, InEllipse O a b α P) →
        ellipseArea e.rmajor e.rminor ≤ ellipseArea a b ∧
        (ellipseArea a b ≤ ellipseArea e.rmajor e.rminor → SameRegion O a b α e.center e.rmajor e.rminor e.rad) := by
  rcases LJ4.outcome henv hg (fun E P h1 h2 h3 => (h5 E P h1 h2 h3).2) _ [] points [] rfl (by simpa using h3) (by simp) (by simpa using hn)
    (by simp) (LJ4.exists_circle points) with ⟨e, he, hm, -⟩ | ⟨-, E, P, h1, h2, h3, h4⟩
  · exact ⟨e, he, LJ4.smallest (by omega) hn hm⟩
  · exact absurd (h5 E P h1 h2 h3).1 h4

/-- C112: with `np.float` read as `float`, for four points, no two equal and no three on a line, `LownerJohnEllipse` returns the
ellipse with the smallest area among all the ellipses that contain the points, whatever the random choices. -/
theorem C112_four_points (env : LJ4.Env) (henv : env.Ok) (points : List Pt) (h4 : points.length = 4) (hn : points.Nodup)
    (hg : ∀ P ∈ points, ∀ Q ∈ points, ∀ R ∈ points, P ≠ Q → Q ≠ R → P ≠ R → ¬ Collinear P Q R) :
    ∃ e, LJ4.lownerJohn env [] points [] = .ok (some e) ∧ e.Valid ∧ (∀ P ∈ points, InEllipse e.center e.rmajor e.rminor e.rad P) ∧
      ∀ (O : Pt) (a b α : ℝ), 0 < a → 0 < b → (∀ P ∈ points, InEllipse O a b α P) →
        ellipseArea e.rmajor e.rminor ≤ ellipseArea a b ∧
        (ellipseArea a b ≤ ellipseArea e.rmajor e.rminor → SameRegion O a b α e.center e.rmajor e.rminor e.rad) :=
  C112_lownerJohn_partial env henv points (by omega) hn hg fun _ P _ hinj h => (LJ4.no_five h4.le P hinj fun i => (h i).1).elim

/-- C112: with the proviso on 45 degrees only, the method returns the smallest ellipse or raises `ValueError`. -/
theorem C112_returns_or_raises (env : LJ4.Env) (henv : env.Ok) (points : List Pt) (h3 : 3 ≤ points.length) (hn : points.Nodup)
    (hg : ∀ P ∈ points, ∀ Q ∈ points, ∀ R ∈ points, P ≠ Q → Q ≠ R → P ≠ R → ¬ Collinear P Q R)
    (h45 : ∀ (E : Ellipse) (P : Fin 5 → Pt), E.Valid → Function.Injective P → (∀ i, P i ∈ points ∧ OnE E (P i)) →
      E.equation.A ≠ E.equation.C ∨ E.equation.B = 0) :
    (∃ m, LJ4.lownerJohn env [] points [] = .error (.valueError m)) ∨
    ∃ e, LJ4.lownerJohn env [] points [] = .ok (some e) ∧ e.Valid ∧ (∀ P ∈ points, InEllipse e.center e.rmajor e.rminor e.rad P) ∧
      ∀ (O : Pt) (a b α : ℝ), 0 < a → 0 < b → (∀ P ∈ points, InEllipse O a b α P) →
        ellipseArea e.rmajor e.rminor ≤ ellipseArea a b ∧
        (ellipseArea a b ≤ ellipseArea e.rmajor e.rminor → SameRegion O a b α e.center e.rmajor e.rminor e.rad) := by
  rcases LJ4.outcome henv hg h45 _ [] points [] rfl (by simpa using h3) (by simp) (by simpa using hn)
    (by simp) (LJ4.exists_circle points) with ⟨e, he, hm, -⟩ | ⟨h, -⟩
  · exact Or.inr ⟨e, he, LJ4.smallest (by omega) hn hm⟩
  · exact Or.inl h

namespace LJ4

/-- Three points of a line at the end of the list, and the first index is always drawn. -/
theorem collinear_end (env : Env) (hr : env.randint = fun _ => 0) (A B C : Pt) (h : Collinear A B C) (l : List Pt) :
    ∀ path, lownerJohn env path (l ++ [A, B, C]) [] = .error .linAlgError := by
  induction l with
  | nil =>
    intro path
    obtain ⟨P, Q, R, hp, hrun⟩ := three env 3 path [A, B, C] [] rfl rfl
    rw [List.append_nil] at hp
    rw [List.nil_append, hrun, C73_collinear _ _ _ _ ((collinear_perm hp).1 h)]
    rfl
  | cons X l ih =>
    intro path
    rw [lownerJohn, dif_neg (by simp)]
    have h0 : env.randint path % (X :: l ++ [A, B, C]).length = 0 := by rw [hr]; simp
    have h1 : (X :: l ++ [A, B, C]).eraseIdx (env.randint path % (X :: l ++ [A, B, C]).length) = l ++ [A, B, C] := by
      rw [h0]; rfl
    dsimp only
    rw [h1, ih]
    rfl

theorem quad_through {l : List Pt} (q : EllPencil.Quad) {k : ℝ} (hk : 0 < k) (hA : 0 < q.A) (h2 : 0 < q.det2) (h3 : q.det3 < 0)
    (hlt : q.det3 ^ 2 < k ^ 2 * q.det2 ^ 3) (hl : ∀ X ∈ l, q.val X = 0) : ∃ O a b α, Feas [] l O a b α ∧ a * b < k := by
  obtain ⟨O, a, b, α, ha, hb, hab, -, hon⟩ := EllPencil.quad_ellipse q hA h2 h3
  refine ⟨O, a, b, α, ⟨ha, hb, by simp, fun X hX => (hon X).2 (hl X hX)⟩, ?_⟩
  have h : (a * b) ^ 2 < k ^ 2 := by
    rw [hab, div_lt_iff₀ (by positivity)]; exact hlt
  exact lt_of_pow_lt_pow_left₀ 2 hk.le h

theorem quad_feas {l : List Pt} (q : EllPencil.Quad) {k : ℝ} (hk : 0 < k) (hA : 0 < q.A) (h2 : 0 < q.det2) (h3 : q.det3 < 0)
    (heq : q.det3 ^ 2 = k ^ 2 * q.det2 ^ 3) (hl : ∀ X ∈ l, q.val X = 0) : ∃ O a b α, Feas l [] O a b α ∧ a * b = k := by
  obtain ⟨O, a, b, α, ha, hb, hab, hin, -⟩ := EllPencil.quad_ellipse q hA h2 h3
  refine ⟨O, a, b, α, ⟨ha, hb, fun X hX => (hin X).2 (hl X hX).le, by simp⟩, ?_⟩
  have h : (a * b) ^ 2 = k ^ 2 := by
    rw [hab, div_eq_iff (by positivity)]; exact heq
  exact (sq_eq_sq₀ (mul_pos ha hb).le hk.le).1 h

/-- Different points of a conic are in general position. -/
theorem quad_general {l : List Pt} (q : EllPencil.Quad) (hA : 0 < q.A) (h2 : 0 < q.det2) (hl : ∀ X ∈ l, q.val X = 0) : General l := by
  intro P hP Q hQ R hR hPQ hQR hPR hc
  obtain ⟨t, ht⟩ : ∃ t : ℝ, R = ⟨P.x + t * (Q.x - P.x), P.y + t * (Q.y - P.y)⟩ := by
    have hu : (Q.x - P.x) ^ 2 + (Q.y - P.y) ^ 2 ≠ 0 := by
      intro h0
      apply hPQ
      have h1 := sq_nonneg (Q.x - P.x)
      have h2 := sq_nonneg (Q.y - P.y)
      have h3 := pow_eq_zero_iff two_ne_zero |>.1 (show (Q.x - P.x) ^ 2 = 0 by linarith)
      have h4 := pow_eq_zero_iff two_ne_zero |>.1 (show (Q.y - P.y) ^ 2 = 0 by linarith)
      ext <;> linarith
    unfold Spec.Collinear cross at hc
    simp only [Pt.sub_x, Pt.sub_y] at hc
    refine ⟨((R.x - P.x) * (Q.x - P.x) + (R.y - P.y) * (Q.y - P.y)) / ((Q.x - P.x) ^ 2 + (Q.y - P.y) ^ 2), ?_⟩
    ext
    · dsimp only; field_simp; linear_combination (-(Q.y - P.y)) * hc
    · dsimp only; field_simp; linear_combination (Q.x - P.x) * hc
  have e : q.val R = (1 - t) * q.val P + t * q.val Q -
      t * (1 - t) * (q.A * (P.x - Q.x) ^ 2 + 2 * q.B * (P.x - Q.x) * (P.y - Q.y) + q.C * (P.y - Q.y) ^ 2) := by
    rw [ht]; unfold EllPencil.Quad.val; simp; ring
  rw [hl P hP, hl Q hQ, hl R hR] at e
  have hp := EllPencil.Quad.form_pos (q := q) hA h2 (u := P.x - Q.x) (v := P.y - Q.y) (by
    rintro ⟨h1, h2⟩
    exact hPQ (by ext; linarith; linarith))
  have : t * (1 - t) = 0 := by
    have h0 : t * (1 - t) * (q.A * (P.x - Q.x) ^ 2 + 2 * q.B * (P.x - Q.x) * (P.y - Q.y) + q.C * (P.y - Q.y) ^ 2) = 0 := by linarith
    exact (mul_eq_zero.1 h0).resolve_right hp.ne'
  rcases mul_eq_zero.1 this with h | h
  · apply hPR; rw [ht, h]; ext <;> simp
  · apply hQR
    have : t = 1 := by linarith
    rw [ht, this]; ext <;> simp

/-- `from_five_points` on five points of an ellipse. -/
theorem base_five {env : Env} {B : List Pt} (h5 : B.length = 5) (hn : B.Nodup) {E : Ellipse} (hE : E.Valid) (hon : ∀ X ∈ B, OnE E X) :
    ∃ k, k ≠ 0 ∧ base env B = (Ellipse.from_equation (k * E.equation.A) (k * E.equation.B) (k * E.equation.C) (k * E.equation.D)
      (k * E.equation.E) (k * E.equation.F) (env.eigvals (Ellipse.eqMatrix (k * E.equation.A) (k * E.equation.B) (k * E.equation.C))) >>=
        fun e => pure (some e)) := by
  match B, h5 with
  | [P, Q, R, S, T], _ =>
    have hinj : Function.Injective (![P, Q, R, S, T] : Fin 5 → Pt) := by
      have hn' := hn
      simp at hn'
      obtain ⟨⟨n1, n2, n3, n4⟩, ⟨n5, n6, n7⟩, ⟨n8, n9⟩, n10⟩ := hn'
      intro i j
      fin_cases i <;> fin_cases j <;>
        simp [n1, n2, n3, n4, n5, n6, n7, n8, n9, n10, Ne.symm n1, Ne.symm n2, Ne.symm n3, Ne.symm n4, Ne.symm n5, Ne.symm n6, Ne.symm n7,
          Ne.symm n8, Ne.symm n9, Ne.symm n10]
    have hP : ∀ i, OnE E ((![P, Q, R, S, T] : Fin 5 → Pt) i) := by
      intro i
      fin_cases i
      · exact hon P (by simp)
      · exact hon Q (by simp)
      · exact hon R (by simp)
      · exact hon S (by simp)
      · exact hon T (by simp)
    obtain ⟨q, k, hq, hk, hqk, -⟩ := C67_five_points_of_ellipse E hE _ hinj hP
    refine ⟨k, hk, ?_⟩
    unfold base
    dsimp only
    rw [hq, Res.ok_bind, hqk]

/-- The third guard rejects the equation of the ellipse through five points. -/
theorem base_rejects {env : Env} {B : List Pt} (h5 : B.length = 5) (hn : B.Nodup) {E : Ellipse} (hE : E.Valid) (hon : ∀ X ∈ B, OnE E X)
    (hgd : ¬ Guard E) : ∃ m, base env B = .error (.valueError m) := by
  obtain ⟨k, hk, hrun⟩ := base_five (env := env) h5 hn hE hon
  refine ⟨"These parameters do not define an ellipse.", ?_⟩
  unfold Guard at hgd
  push Not at hgd
  have := mul_le_mul_of_nonneg_left hgd (sq_nonneg k)
  rw [hrun]
  unfold Ellipse.from_equation
  rw [if_pos (Or.inr (Or.inr (by linarith)))]
  rfl

/-- The circle of centre `(8, 0)` and radius 5, and five of its points. -/
def far : List Pt := [⟨13, 0⟩, ⟨11, 4⟩, ⟨11, -4⟩, ⟨4, 3⟩, ⟨4, -3⟩]

/-- The ellipse of centre the origin with semi-axes 15 and 5, whose great axis is at 45 degrees, and five of its points. -/
def diagonal : List Pt := [⟨10, 5⟩, ⟨10, 11⟩, ⟨2, -5⟩, ⟨-5, 2⟩, ⟨-11, -10⟩]

theorem far_nodup : far.Nodup := by
  unfold far; simp [Pt.ext_iff]; norm_num

theorem diagonal_nodup : diagonal.Nodup := by
  unfold diagonal; simp [Pt.ext_iff]; norm_num

theorem far_min : ∀ O a b α, Feas far [] O a b α → 25 ≤ a * b := by
  rintro O a b α ⟨ha, hb, hin, -⟩
  obtain ⟨q, qA, q2, q3, qin, -⟩ := EllPencil.ellipse_quad O a b α ha hb
  have hd : 0 < q.det2 := by rw [q2]; have := mul_pos ha hb; positivity
  have h0 := EllPencil.Quad.val_ge qA hd ⟨8, 0⟩
  rw [q3, neg_div, div_self hd.ne'] at h0
  have k0 := (qin _).1 (hin ⟨13, 0⟩ (by simp [far]))
  have k1 := (qin _).1 (hin ⟨11, 4⟩ (by simp [far]))
  have k2 := (qin _).1 (hin ⟨11, -4⟩ (by simp [far]))
  have k3 := (qin _).1 (hin ⟨4, 3⟩ (by simp [far]))
  have k4 := (qin _).1 (hin ⟨4, -3⟩ (by simp [far]))
  unfold EllPencil.Quad.val at h0 k0 k1 k2 k3 k4
  dsimp only at h0 k0 k1 k2 k3 k4
  have hs : q.A + q.C ≤ 2 / 25 := by linarith
  have hC : 0 < q.C := by
    unfold EllPencil.Quad.det2 at hd
    by_contra hcon
    push Not at hcon
    nlinarith [sq_nonneg q.B]
  have h625 : q.det2 ≤ 1 / 625 := by
    unfold EllPencil.Quad.det2
    nlinarith [sq_nonneg q.B, sq_nonneg (q.A - q.C)]
  rw [q2, div_le_div_iff₀ (by have := mul_pos ha hb; positivity) (by norm_num)] at h625
  have := mul_pos ha hb
  nlinarith

theorem far_less : ∀ X ∈ far, ∃ O a b α, Feas [] (far.erase X) O a b α ∧ a * b < 25 := by
  intro X hX
  simp only [far, List.mem_cons, List.not_mem_nil, or_false] at hX
  rcases hX with rfl | rfl | rfl | rfl | rfl
  · refine quad_through ⟨56, 0, 50, -445, 0, 2214⟩ ?_ ?_ ?_ ?_ ?_ ?_
    any_goals (norm_num [EllPencil.Quad.det2, EllPencil.Quad.det3]; done)
    intro X hX
    rw [far_nodup.mem_erase_iff] at hX
    obtain ⟨hne, hX⟩ := hX
    simp only [far, List.mem_cons, List.not_mem_nil, or_false] at hX
    rcases hX with rfl | rfl | rfl | rfl | rfl <;> first | exact absurd rfl hne | norm_num [EllPencil.Quad.val]
  · refine quad_through ⟨19, 15, 79, -122, -60, -39⟩ ?_ ?_ ?_ ?_ ?_ ?_
    any_goals (norm_num [EllPencil.Quad.det2, EllPencil.Quad.det3]; done)
    intro X hX
    rw [far_nodup.mem_erase_iff] at hX
    obtain ⟨hne, hX⟩ := hX
    simp only [far, List.mem_cons, List.not_mem_nil, or_false] at hX
    rcases hX with rfl | rfl | rfl | rfl | rfl <;> first | exact absurd rfl hne | norm_num [EllPencil.Quad.val]
  · refine quad_through ⟨19, -15, 79, -122, 60, -39⟩ ?_ ?_ ?_ ?_ ?_ ?_
    any_goals (norm_num [EllPencil.Quad.det2, EllPencil.Quad.det3]; done)
    intro X hX
    rw [far_nodup.mem_erase_iff] at hX
    obtain ⟨hne, hX⟩ := hX
    simp only [far, List.mem_cons, List.not_mem_nil, or_false] at hX
    rcases hX with rfl | rfl | rfl | rfl | rfl <;> first | exact absurd rfl hne | norm_num [EllPencil.Quad.val]
  · refine quad_through ⟨44, -21, 30, -408, 231, 3172⟩ ?_ ?_ ?_ ?_ ?_ ?_
    any_goals (norm_num [EllPencil.Quad.det2, EllPencil.Quad.det3]; done)
    intro X hX
    rw [far_nodup.mem_erase_iff] at hX
    obtain ⟨hne, hX⟩ := hX
    simp only [far, List.mem_cons, List.not_mem_nil, or_false] at hX
    rcases hX with rfl | rfl | rfl | rfl | rfl <;> first | exact absurd rfl hne | norm_num [EllPencil.Quad.val]
  · refine quad_through ⟨44, 21, 30, -408, -231, 3172⟩ ?_ ?_ ?_ ?_ ?_ ?_
    any_goals (norm_num [EllPencil.Quad.det2, EllPencil.Quad.det3]; done)
    intro X hX
    rw [far_nodup.mem_erase_iff] at hX
    obtain ⟨hne, hX⟩ := hX
    simp only [far, List.mem_cons, List.not_mem_nil, or_false] at hX
    rcases hX with rfl | rfl | rfl | rfl | rfl <;> first | exact absurd rfl hne | norm_num [EllPencil.Quad.val]

theorem far_run {env : Env} (he : env.Ok) : ∃ B : List Pt, B.Perm far ∧ lownerJohn env [] far [] = base env B := by
  refine five_forced he (k := 25) rfl far_nodup (quad_general ⟨1, 0, 1, -8, 0, 39⟩ ?_ ?_ ?_) (quad_feas ⟨1, 0, 1, -8, 0, 39⟩ ?_ ?_ ?_ ?_ ?_ ?_) far_min far_less
  all_goals (norm_num [EllPencil.Quad.det2, EllPencil.Quad.det3, EllPencil.Quad.val, far])

theorem diagonal_min : ∀ O a b α, Feas diagonal [] O a b α → 75 ≤ a * b := by
  rintro O a b α ⟨ha, hb, hin, -⟩
  obtain ⟨q, qA, q2, q3, qin, -⟩ := EllPencil.ellipse_quad O a b α ha hb
  have hd : 0 < q.det2 := by rw [q2]; have := mul_pos ha hb; positivity
  have h0 := EllPencil.Quad.val_ge qA hd ⟨0, 0⟩
  rw [q3, neg_div, div_self hd.ne'] at h0
  have k0 := (qin _).1 (hin ⟨10, 5⟩ (by simp [diagonal]))
  have k1 := (qin _).1 (hin ⟨10, 11⟩ (by simp [diagonal]))
  have k2 := (qin _).1 (hin ⟨2, -5⟩ (by simp [diagonal]))
  have k3 := (qin _).1 (hin ⟨-5, 2⟩ (by simp [diagonal]))
  have k4 := (qin _).1 (hin ⟨-11, -10⟩ (by simp [diagonal]))
  unfold EllPencil.Quad.val at h0 k0 k1 k2 k3 k4
  dsimp only at h0 k0 k1 k2 k3 k4
  obtain ⟨u, hu⟩ : ∃ u, u = 4 * q.A + 4 * q.B + q.C := ⟨_, rfl⟩
  obtain ⟨v, hv⟩ : ∃ v, v = q.A + 4 * q.B + 4 * q.C := ⟨_, rfl⟩
  have hs : u + v ≤ 2 / 25 := by linarith
  have hup : 0 < u := by
    have := EllPencil.Quad.form_pos (q := q) qA hd (u := 2) (v := 1) (by norm_num)
    linarith
  have hvp : 0 < v := by
    have := EllPencil.Quad.form_pos (q := q) qA hd (u := 1) (v := 2) (by norm_num)
    linarith
  have h9 : 9 * q.det2 = u * v - (2 * q.A + 5 * q.B + 2 * q.C) ^ 2 := by
    rw [hu, hv]; unfold EllPencil.Quad.det2; ring
  have h625 : 9 * q.det2 ≤ 1 / 625 := by
    rw [h9]
    nlinarith [sq_nonneg (2 * q.A + 5 * q.B + 2 * q.C), sq_nonneg (u - v)]
  have h5625 : q.det2 ≤ 1 / 5625 := by linarith
  rw [q2, div_le_div_iff₀ (by have := mul_pos ha hb; positivity) (by norm_num)] at h5625
  have := mul_pos ha hb
  nlinarith

theorem diagonal_less : ∀ X ∈ diagonal, ∃ O a b α, Feas [] (diagonal.erase X) O a b α ∧ a * b < 75 := by
  intro X hX
  simp only [diagonal, List.mem_cons, List.not_mem_nil, or_false] at hX
  rcases hX with rfl | rfl | rfl | rfl | rfl
  · refine quad_through ⟨274, -212, 256, 18, -9, -11898⟩ ?_ ?_ ?_ ?_ ?_ ?_
    any_goals (norm_num [EllPencil.Quad.det2, EllPencil.Quad.det3]; done)
    intro X hX
    rw [diagonal_nodup.mem_erase_iff] at hX
    obtain ⟨hne, hX⟩ := hX
    simp only [diagonal, List.mem_cons, List.not_mem_nil, or_false] at hX
    rcases hX with rfl | rfl | rfl | rfl | rfl <;> first | exact absurd rfl hne | norm_num [EllPencil.Quad.val]
  · refine quad_through ⟨95, -121, 275, 0, 270, -6975⟩ ?_ ?_ ?_ ?_ ?_ ?_
    any_goals (norm_num [EllPencil.Quad.det2, EllPencil.Quad.det3]; done)
    intro X hX
    rw [diagonal_nodup.mem_erase_iff] at hX
    obtain ⟨hne, hX⟩ := hX
    simp only [diagonal, List.mem_cons, List.not_mem_nil, or_false] at hX
    rcases hX with rfl | rfl | rfl | rfl | rfl <;> first | exact absurd rfl hne | norm_num [EllPencil.Quad.val]
  · refine quad_through ⟨215, -271, 395, 360, -450, -6975⟩ ?_ ?_ ?_ ?_ ?_ ?_
    any_goals (norm_num [EllPencil.Quad.det2, EllPencil.Quad.det3]; done)
    intro X hX
    rw [diagonal_nodup.mem_erase_iff] at hX
    obtain ⟨hne, hX⟩ := hX
    simp only [diagonal, List.mem_cons, List.not_mem_nil, or_false] at hX
    rcases hX with rfl | rfl | rfl | rfl | rfl <;> first | exact absurd rfl hne | norm_num [EllPencil.Quad.val]
  · refine quad_through ⟨290, -253, 248, -525, 546, -4860⟩ ?_ ?_ ?_ ?_ ?_ ?_
    any_goals (norm_num [EllPencil.Quad.det2, EllPencil.Quad.det3]; done)
    intro X hX
    rw [diagonal_nodup.mem_erase_iff] at hX
    obtain ⟨hne, hX⟩ := hX
    simp only [diagonal, List.mem_cons, List.not_mem_nil, or_false] at hX
    rcases hX with rfl | rfl | rfl | rfl | rfl <;> first | exact absurd rfl hne | norm_num [EllPencil.Quad.val]
  · refine quad_through ⟨122, -43, 80, -147, -210, -4860⟩ ?_ ?_ ?_ ?_ ?_ ?_
    any_goals (norm_num [EllPencil.Quad.det2, EllPencil.Quad.det3]; done)
    intro X hX
    rw [diagonal_nodup.mem_erase_iff] at hX
    obtain ⟨hne, hX⟩ := hX
    simp only [diagonal, List.mem_cons, List.not_mem_nil, or_false] at hX
    rcases hX with rfl | rfl | rfl | rfl | rfl <;> first | exact absurd rfl hne | norm_num [EllPencil.Quad.val]

theorem diagonal_run {env : Env} (he : env.Ok) : ∃ B : List Pt, B.Perm diagonal ∧ lownerJohn env [] diagonal [] = base env B := by
  refine five_forced he (k := 75) rfl diagonal_nodup (quad_general ⟨5, -4, 5, 0, 0, -225⟩ ?_ ?_ ?_) (quad_feas ⟨5, -4, 5, 0, 0, -225⟩ ?_ ?_ ?_ ?_ ?_ ?_) diagonal_min diagonal_less
  all_goals (norm_num [EllPencil.Quad.det2, EllPencil.Quad.det3, EllPencil.Quad.val, diagonal])

end LJ4

/-- C112: three points of a line, different or not, among the points: with the first index always drawn, `LinAlgError` is
raised.  For three points this is so for every random choice. -/
theorem C112_collinear_counterexample (env : LJ4.Env) (A B C : Pt) (h : Collinear A B C) :
    LJ4.lownerJohn env [] [A, B, C] [] = .error .linAlgError ∧
    (env.randint = (fun _ => 0) → ∀ l, LJ4.lownerJohn env [] (l ++ [A, B, C]) [] = .error .linAlgError) := by
  refine ⟨?_, fun hr l => LJ4.collinear_end env hr A B C h l []⟩
  obtain ⟨P, Q, R, hp, hrun⟩ := LJ4.three env 3 [] [A, B, C] [] rfl rfl
  rw [List.append_nil] at hp
  rw [hrun, C73_collinear _ _ _ _ ((collinear_perm hp).1 h)]
  rfl

/-- C112: five points of the circle of centre `(8, 0)` and radius 5, no three on a line; the circle is their smallest ellipse.  Whatever the
random choices, `ValueError` is raised: the third guard of `from_equation` rejects the circle. -/
theorem C112_far_counterexample (env : LJ4.Env) (henv : env.Ok) :
    ∃ m, LJ4.lownerJohn env [] [⟨13, 0⟩, ⟨11, 4⟩, ⟨11, -4⟩, ⟨4, 3⟩, ⟨4, -3⟩] [] = .error (.valueError m) := by
  obtain ⟨B, hB, hrun⟩ := LJ4.far_run henv
  have hv : Ellipse.Valid ⟨⟨8, 0⟩, 5, 5, 0, false⟩ := ⟨by norm_num, by norm_num⟩
  obtain ⟨m, hm⟩ := LJ4.base_rejects (env := env) (B := B) (E := ⟨⟨8, 0⟩, 5, 5, 0, false⟩) (by rw [hB.length_eq]; rfl)
    (hB.nodup_iff.2 LJ4.far_nodup) hv (by
      intro X hX
      have hX' := hB.subset hX
      unfold OnE
      rw [onEllipse_iff (by norm_num) (by norm_num)]
      simp only [LJ4.far, List.mem_cons, List.not_mem_nil, or_false] at hX'
      rcases hX' with rfl | rfl | rfl | rfl | rfl <;> norm_num [ellVal, axisCoord, Ellipse.rad])
    (by norm_num [LJ4.Guard, Ellipse.equation])
  exact ⟨m, hrun.trans hm⟩

/-- C112: five points of an ellipse with axes at 45 degrees, which is their smallest ellipse, no three on a line.  Whatever the random choices,
an ellipse is returned that does not contain the points. -/
theorem C112_diagonal_counterexample (env : LJ4.Env) (henv : env.Ok) :
    ∃ e, LJ4.lownerJohn env [] [⟨10, 5⟩, ⟨10, 11⟩, ⟨2, -5⟩, ⟨-5, 2⟩, ⟨-11, -10⟩] [] = .ok (some e) ∧ e.Valid ∧
      ¬ InEllipse e.center e.rmajor e.rminor e.rad ⟨10, 11⟩ := by
  obtain ⟨B, hB, hrun⟩ := LJ4.diagonal_run henv
  obtain ⟨E, hE⟩ : ∃ E : Ellipse, E = ⟨⟨0, 0⟩, 15, 5, π / 4, false⟩ := ⟨_, rfl⟩
  have hv : E.Valid := by rw [hE]; exact ⟨by norm_num, by norm_num⟩
  have hs2 : (√2 : ℝ) ^ 2 = 2 := Real.sq_sqrt (by norm_num)
  have hEq : E.equation = ⟨125, -200, 125, 0, 0, -5625⟩ := by
    rw [hE]
    unfold Ellipse.equation
    simp only [Bool.false_eq_true, if_false, Real.sin_pi_div_four, Real.cos_pi_div_four]
    ext <;> simp <;> nlinarith
  have hon : ∀ X ∈ B, OnE E X := by
    intro X hX
    have hX' := hB.subset hX
    unfold OnE
    rw [hE, onEllipse_iff (by norm_num) (by norm_num)]
    simp only [LJ4.diagonal, List.mem_cons, List.not_mem_nil, or_false] at hX'
    unfold ellVal axisCoord Ellipse.rad
    simp only [Bool.false_eq_true, if_false, Real.sin_pi_div_four, Real.cos_pi_div_four]
    rcases hX' with rfl | rfl | rfl | rfl | rfl <;> dsimp only <;> ring_nf <;> rw [hs2] <;> norm_num
  obtain ⟨k, hk, hb⟩ := LJ4.base_five (env := env) (B := B) (E := E) (by rw [hB.length_eq]; rfl) (hB.nodup_iff.2 LJ4.diagonal_nodup) hv hon
  rw [hEq] at hb
  dsimp only at hb
  have hev := henv.eigvals (k * 125) (k * (-200)) (k * 125)
  have hk2 : 0 < k ^ 2 := by positivity
  obtain ⟨e, he⟩ := (C66_accepts_exact (k * 125) (k * (-200)) (k * 125) (k * 0) (k * 0) (k * (-5625)) _ hev).2
    ⟨by nlinarith, ⟨⟨10, 5⟩, ⟨10, 11⟩, by simp, by unfold Coeffs.eval; ring, by unfold Coeffs.eval; ring⟩, by nlinarith⟩
  rw [he] at hb
  obtain ⟨-, -, N, a, b, -, hN, ha, hb', e1, e2, hee⟩ := from_equation_ok he
  obtain ⟨v1, v2⟩ := hev
  obtain ⟨ev, hve⟩ : ∃ ev, ev = env.eigvals (Ellipse.eqMatrix (k * 125) (k * (-200)) (k * 125)) := ⟨_, rfl⟩
  rw [← hve] at e1 e2 v2
  have hN' : N / ((4 * (k * 125) * (k * 125) - k * (-200) * (k * (-200))) / 4) = 5625 * k := by
    rw [hN, div_eq_iff (by ring_nf; positivity)]
    unfold Coeffs.k
    ring
  have hv2 : ev.1 * ev.2 = 5625 * k ^ 2 := by
    rw [v2]; simp [Ellipse.eqMatrix]; ring
  rw [hN'] at e1 e2
  have hab : (a * b) ^ 2 = 75 ^ 2 := by
    have h1 : (5625 * k ^ 2) * (a * b) ^ 2 = (5625 * k ^ 2) * 5625 := by
      rw [← hv2]
      linear_combination (ev.2 * b ^ 2) * e1 + (5625 * k) * e2 - 5625 * hv2
    have := mul_left_cancel₀ (by positivity) h1
    rw [this]; norm_num
  have hab' : a * b = 75 := (sq_eq_sq₀ (mul_pos ha hb').le (by norm_num)).1 hab
  have hmm : max a b * min a b = 75 := by rw [max_mul_min]; exact hab'
  have hle : min a b ≤ max a b := min_le_max
  have hm0 : 0 < min a b := lt_min ha hb'
  have hM0 : 0 < max a b := lt_max_of_lt_left ha
  rw [if_pos rfl] at hee
  refine ⟨e, hrun.trans hb, ?_, ?_⟩
  · rw [hee]; exact ⟨hM0, hm0⟩
  · have hr : e.rad = 0 := by
      rw [hee]; unfold Ellipse.rad; simp [pyMod]
    have hc : e.center = ⟨0, 0⟩ := by rw [hee]; ext <;> simp
    have h1 : e.rmajor = max a b := by rw [hee]
    have h2 : e.rminor = min a b := by rw [hee]
    rw [hr, hc, h1, h2]
    unfold InEllipse axisCoord
    simp only [Real.cos_zero, Real.sin_zero]
    intro h
    obtain ⟨u, hu⟩ : ∃ u, u = min a b := ⟨_, rfl⟩
    rw [← hu] at h hm0 hmm hle
    have hu75 : u ^ 2 ≤ 75 := by nlinarith
    have h3 : 1 < (11 / u) ^ 2 := by
      rw [div_pow, one_lt_div (by positivity)]; linarith
    have h4 := sq_nonneg (10 / max a b)
    have h' : (10 / max a b) ^ 2 + (11 / u) ^ 2 ≤ 1 := by simpa using h
    linarith

/-- C112: with at most two points `None` is returned, whatever the random choices. -/
theorem C112_few_points (env : LJ4.Env) (points : List Pt) (h2 : points.length ≤ 2) : LJ4.lownerJohn env [] points [] = .ok none :=
  LJ4.few env points.length [] points [] rfl (by simpa using h2)

/-- Two points give `None`. -/
example (env : LJ4.Env) : LJ4.lownerJohn env [] [⟨0, 0⟩, ⟨1, 0⟩] [] = .ok none := C112_few_points env _ (by simp)

/-- C112: the result does not depend on the random choices, nor on the order of the points, nor on the choices made by numpy among the
roots, the eigenvectors and the orders of equal values. -/
theorem C112_schedule_independent (env env' : LJ4.Env) (henv : env.Ok) (henv' : env'.Ok) (points points' : List Pt) (hp : points.Perm points')
    (h3 : 3 ≤ points.length) (hn : points.Nodup)
    (hg : ∀ P ∈ points, ∀ Q ∈ points, ∀ R ∈ points, P ≠ Q → Q ≠ R → P ≠ R → ¬ Collinear P Q R)
    (h5 : ∀ (E : Ellipse) (P : Fin 5 → Pt), E.Valid → Function.Injective P → (∀ i, P i ∈ points ∧ OnE E (P i)) →
      4 * (E.equation.A + E.equation.C) * E.equation.F < E.equation.D * E.equation.D + E.equation.E * E.equation.E ∧
      (E.equation.A ≠ E.equation.C ∨ E.equation.B = 0)) :
    ∃ e e', LJ4.lownerJohn env [] points [] = .ok (some e) ∧ LJ4.lownerJohn env' [] points' [] = .ok (some e') ∧
      SameRegion e.center e.rmajor e.rminor e.rad e'.center e'.rmajor e'.rminor e'.rad := by
  obtain ⟨e, h1, hv, hin, hm⟩ := C112_lownerJohn_partial env henv points h3 hn hg h5
  obtain ⟨e', h1', hv', hin', hm'⟩ := C112_lownerJohn_partial env' henv' points' (by rw [← hp.length_eq]; exact h3) (hp.nodup_iff.1 hn)
    (fun P hP Q hQ R hR => hg P (hp.mem_iff.2 hP) Q (hp.mem_iff.2 hQ) R (hp.mem_iff.2 hR))
    (fun E P h1 h2 h => h5 E P h1 h2 fun i => ⟨hp.mem_iff.2 (h i).1, (h i).2⟩)
  refine ⟨e, e', h1, h1', ?_⟩
  have k := hm e'.center e'.rmajor e'.rminor e'.rad hv'.1 hv'.2 fun P hP => hin' P (hp.mem_iff.1 hP)
  exact (hm' e.center e.rmajor e.rminor e.rad hv.1 hv.2 fun P hP => hin P (hp.mem_iff.2 hP)).2 k.1

namespace LJ4

/-- The contracts of the numpy functions can be met, with any random indices. -/
theorem exists_env (r : List Bool → ℕ) : ∃ env : Env, env.Ok ∧ env.randint = r := by
  obtain ⟨env, henv⟩ := Boundary4.exists_env
  refine ⟨⟨env, fun M => ((M 0 0 + M 1 1 + √((M 0 0 - M 1 1) ^ 2 + 4 * M 0 1 * M 1 0)) / 2,
    (M 0 0 + M 1 1 - √((M 0 0 - M 1 1) ^ 2 + 4 * M 0 1 * M 1 0)) / 2), r⟩, ⟨henv, ?_⟩, rfl⟩
  intro A B C
  unfold Ellipse.eqMatrix Ellipse.IsEigvals
  simp
  have h := Real.sq_sqrt (show 0 ≤ (A - C) ^ 2 + 4 * (B / 2) * (B / 2) by nlinarith [sq_nonneg (A - C), sq_nonneg B])
  constructor
  · ring
  · linear_combination -h / 4

end LJ4

/-- Four points, the last of them in the triangle of the others: the smallest ellipse is the one of the triangle. -/
example : ∃ env : LJ4.Env, env.Ok ∧ ∃ e, LJ4.lownerJohn env [] [⟨0, 0⟩, ⟨4, 0⟩, ⟨0, 3⟩, ⟨1, 1⟩] [] = .ok (some e) ∧ e.Valid ∧
    InEllipse e.center e.rmajor e.rminor e.rad ⟨1, 1⟩ ∧ InEllipse e.center e.rmajor e.rminor e.rad ⟨0, 3⟩ := by
  obtain ⟨env, henv, -⟩ := LJ4.exists_env fun l => 3 + l.length
  obtain ⟨e, h1, h2, h3, -⟩ := C112_four_points env henv [⟨0, 0⟩, ⟨4, 0⟩, ⟨0, 3⟩, ⟨1, 1⟩] rfl (by simp [Pt.ext_iff]) (by
    intro P hP Q hQ R hR h1 h2 h3 hc
    simp only [List.mem_cons, List.not_mem_nil, or_false] at hP hQ hR
    unfold Collinear cross at hc
    rcases hP with rfl | rfl | rfl | rfl <;> rcases hQ with rfl | rfl | rfl | rfl <;> rcases hR with rfl | rfl | rfl | rfl <;>
      first | exact h1 rfl | exact h2 rfl | exact h3 rfl | (norm_num at hc))
  exact ⟨env, henv, e, h1, h2, h3 _ (by simp), h3 _ (by simp)⟩

/-- Five points of the unit circle meet the conditions of `C112_lownerJohn_partial`, and the unit disk is returned. -/
example : ∃ env : LJ4.Env, env.Ok ∧ ∃ e, LJ4.lownerJohn env [] [⟨1, 0⟩, ⟨0, 1⟩, ⟨-1, 0⟩, ⟨0, -1⟩, ⟨3 / 5, 4 / 5⟩] [] = .ok (some e) ∧
    SameRegion ⟨0, 0⟩ 1 1 0 e.center e.rmajor e.rminor e.rad := by
  obtain ⟨l, hl⟩ : ∃ l : List Pt, l = [⟨1, 0⟩, ⟨0, 1⟩, ⟨-1, 0⟩, ⟨0, -1⟩, ⟨3 / 5, 4 / 5⟩] := ⟨_, rfl⟩
  have hn : l.Nodup := by rw [hl]; simp [Pt.ext_iff]; norm_num
  obtain ⟨env, henv, -⟩ := LJ4.exists_env fun l => 3 + l.length
  obtain ⟨e, h1, h2, h3, h4⟩ := C112_lownerJohn_partial env henv l (by rw [hl]; simp) hn
    (LJ4.quad_general ⟨1, 0, 1, 0, 0, -1⟩ (by norm_num) (by norm_num [EllPencil.Quad.det2]) (by
      rw [hl]; norm_num [EllPencil.Quad.val])) (by
    intro E P hE hinj hP
    have h5 : (List.ofFn P).Nodup := List.nodup_ofFn.2 hinj
    have h6 : (List.ofFn P).Subperm l := h5.subperm (by
      intro X hX
      obtain ⟨i, rfl⟩ := (List.mem_ofFn' P X).1 hX
      exact (hP i).1)
    have h7 : (List.ofFn P).Perm l := h6.perm_of_length_le (by rw [List.length_ofFn, hl]; simp)
    have hall : ∀ X ∈ l, E.equation.eval X = 0 := by
      intro X hX
      obtain ⟨i, rfl⟩ := (List.mem_ofFn' P X).1 (h7.mem_iff.2 hX)
      exact (C64_equation E hE _).1.2 (hP i).2
    rw [hl] at hall
    have k1 := hall ⟨1, 0⟩ (by simp)
    have k2 := hall ⟨0, 1⟩ (by simp)
    have k3 := hall ⟨-1, 0⟩ (by simp)
    have k4 := hall ⟨0, -1⟩ (by simp)
    have k5 := hall ⟨3 / 5, 4 / 5⟩ (by simp)
    unfold Coeffs.eval at k1 k2 k3 k4 k5
    dsimp only at k1 k2 k3 k4 k5
    obtain ⟨pA, pC, -⟩ := equation_pos hE
    have hD : E.equation.D = 0 := by linarith
    have hEe : E.equation.E = 0 := by linarith
    have hF : E.equation.F = -E.equation.A := by linarith
    have hC : E.equation.C = E.equation.A := by linarith
    have hB : E.equation.B = 0 := by rw [hD, hEe, hF, hC] at k5; linarith
    refine ⟨?_, Or.inr hB⟩
    rw [hD, hEe, hF, hC]
    nlinarith)
  rw [hl] at h1 h3
  refine ⟨env, henv, e, h1, (h4 ⟨0, 0⟩ 1 1 0 one_pos one_pos ?_).2 ?_⟩
  · rw [hl]
    norm_num [InEllipse, axisCoord]
  · obtain ⟨q, qA, q2, q3, qin, -⟩ := EllPencil.ellipse_quad e.center e.rmajor e.rminor e.rad h2.1 h2.2
    have hab := mul_pos h2.1 h2.2
    have hd : 0 < q.det2 := by rw [q2]; positivity
    have h0 := EllPencil.Quad.val_ge qA hd ⟨0, 0⟩
    rw [q3, neg_div, div_self hd.ne'] at h0
    have k1 := (qin _).1 (h3 ⟨1, 0⟩ (by simp))
    have k2 := (qin _).1 (h3 ⟨0, 1⟩ (by simp))
    have k3 := (qin _).1 (h3 ⟨-1, 0⟩ (by simp))
    have k4 := (qin _).1 (h3 ⟨0, -1⟩ (by simp))
    unfold EllPencil.Quad.val at h0 k1 k2 k3 k4
    dsimp only at h0 k1 k2 k3 k4
    have hs : q.A + q.C ≤ 2 := by linarith
    have h6 : q.det2 ≤ 1 := by
      have hC : 0 ≤ q.C := by
        unfold EllPencil.Quad.det2 at hd
        by_contra hcon
        push Not at hcon
        nlinarith [sq_nonneg q.B]
      unfold EllPencil.Quad.det2
      nlinarith [sq_nonneg q.B, sq_nonneg (q.A - q.C)]
    rw [q2, div_le_one (by positivity)] at h6
    have h7 : 1 ≤ e.rmajor * e.rminor := by nlinarith
    unfold ellipseArea
    nlinarith [pi_pos]
