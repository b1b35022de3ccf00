import Verif.Props.Ellipse
import Mathlib.LinearAlgebra.Matrix.NonsingularInverse

/-!
# C73, C74: ellipses through given points, Löwner-John ellipse
-/

open Spec Real Classical

/-- The matrix computed by `from_boundary3`, for non-collinear points. -/
theorem boundary3_spec (P Q R : Pt) (h : cross (Q - P) (R - P) ≠ 0) :
    ∃ F, Ellipse.boundary3 P Q R = .ok ((P + Q + R) / (3 : ℝ), F) ∧ PosDef2 F ∧
      ∀ v, quadForm F v = 9 / 2 * (cross (P - (P + Q + R) / (3 : ℝ)) v ^ 2 + cross (Q - (P + Q + R) / (3 : ℝ)) v ^ 2 +
        cross (R - (P + Q + R) / (3 : ℝ)) v ^ 2) / cross (Q - P) (R - P) ^ 2 := by
  obtain ⟨c, hc⟩ : ∃ c : Pt, c = (P + Q + R) / (3 : ℝ) := ⟨_, rfl⟩
  obtain ⟨p, hp⟩ : ∃ p : Pt, p = P - c := ⟨_, rfl⟩
  obtain ⟨q, hq⟩ : ∃ q : Pt, q = Q - c := ⟨_, rfl⟩
  obtain ⟨r, hr⟩ : ∃ r : Pt, r = R - c := ⟨_, rfl⟩
  obtain ⟨k, hk⟩ : ∃ k : ℝ, k = cross (Q - P) (R - P) := ⟨_, rfl⟩
  have hrx : r.x = -p.x - q.x := by rw [hr, hp, hq, hc]; simp; ring
  have hry : r.y = -p.y - q.y := by rw [hr, hp, hq, hc]; simp; ring
  have hk3 : k = 3 * (p.x * q.y - p.y * q.x) := by
    rw [hk, hp, hq, hc]; unfold cross; simp; ring
  obtain ⟨G, hG⟩ : ∃ G : Matrix (Fin 2) (Fin 2) ℝ,
    G = (!![p.x, p.y; q.x, q.y; r.x, r.y] : Matrix (Fin 3) (Fin 2) ℝ).transpose * !![p.x, p.y; q.x, q.y; r.x, r.y] := ⟨_, rfl⟩
  have g00 : G 0 0 = p.x ^ 2 + q.x ^ 2 + r.x ^ 2 := by
    rw [hG, Matrix.mul_apply, Fin.sum_univ_three]; simp [Matrix.transpose_apply]; ring
  have g01 : G 0 1 = p.x * p.y + q.x * q.y + r.x * r.y := by
    rw [hG, Matrix.mul_apply, Fin.sum_univ_three]; simp [Matrix.transpose_apply]
  have g10 : G 1 0 = p.x * p.y + q.x * q.y + r.x * r.y := by
    rw [hG, Matrix.mul_apply, Fin.sum_univ_three]; simp [Matrix.transpose_apply]; ring
  have g11 : G 1 1 = p.y ^ 2 + q.y ^ 2 + r.y ^ 2 := by
    rw [hG, Matrix.mul_apply, Fin.sum_univ_three]; simp [Matrix.transpose_apply]; ring
  have hdet : Matrix.det G = k ^ 2 / 3 := by
    rw [Matrix.det_fin_two, g00, g01, g10, g11, hrx, hry, hk3]; ring
  rw [← hk] at h
  have hdet0 : Matrix.det G ≠ 0 := by rw [hdet]; positivity
  have hGi : G⁻¹ = (Matrix.det G)⁻¹ • !![G 1 1, -G 0 1; -G 1 0, G 0 0] := by
    rw [Matrix.inv_def, Ring.inverse_eq_inv', Matrix.adjugate_fin_two]
  have hval : ∀ v, quadForm ((1.5 : ℝ) • G⁻¹) v = 9 / 2 * (cross p v ^ 2 + cross q v ^ 2 + cross r v ^ 2) / k ^ 2 := by
    intro v
    unfold quadForm
    rw [hGi, hdet]
    simp only [Matrix.smul_apply, Matrix.of_apply, Matrix.cons_val', Matrix.cons_val_zero, Matrix.cons_val_one,
      Matrix.cons_val_fin_one, smul_eq_mul]
    rw [g00, g01, g10, g11]
    unfold cross
    field_simp
    ring
  refine ⟨(1.5 : ℝ) • G⁻¹, ?_, ⟨?_, ?_⟩, ?_⟩
  · unfold Ellipse.boundary3
    dsimp only
    rw [← hc, ← hp, ← hq, ← hr, ← hG, if_neg hdet0]
  · rw [hGi]
    simp [g01, g10]
  · intro v hv
    rw [hval]
    have hpq : p.x * q.y - p.y * q.x ≠ 0 := by
      intro h0; rw [h0, mul_zero] at hk3; exact h hk3
    have : cross p v ≠ 0 ∨ cross q v ≠ 0 := by
      by_contra hcon
      push Not at hcon
      obtain ⟨c1, c2⟩ := hcon
      unfold cross at c1 c2
      apply hv
      ext
      · apply mul_left_cancel₀ hpq
        linear_combination q.x * c1 - p.x * c2
      · apply mul_left_cancel₀ hpq
        linear_combination q.y * c1 - p.y * c2
    have hpos : 0 < cross p v ^ 2 + cross q v ^ 2 + cross r v ^ 2 := by
      rcases this with h1 | h1
      · positivity
      · positivity
    positivity
  · intro v
    rw [hval v, hk]
    rw [← hc, ← hp, ← hq, ← hr]

/-- C73 (part): for three non-collinear points `from_boundary3` returns an ellipse through the three points, centered at
their centroid.  Missing: `from_boundary4`, see `C73_boundary4_counterexample`. -/
theorem C73_from_boundary3_partial (eigh : Matrix (Fin 2) (Fin 2) ℝ → Ellipse.Eigh) (heigh : ∀ S, Ellipse.IsEigh S (eigh S))
    (P Q R : Pt) (h : ¬ Collinear P Q R) :
    ∃ e, Ellipse.from_boundary3 eigh P Q R = .ok e ∧ e.Valid ∧ e.rminor ≤ e.rmajor ∧ e.center = (P + Q + R) / (3 : ℝ) ∧
      OnE e P ∧ OnE e Q ∧ OnE e R := by
  rw [Spec.Collinear] at h
  obtain ⟨F, hF, hpos, hval⟩ := boundary3_spec P Q R h
  obtain ⟨e, he, hv, hm, hc, hon⟩ := C65_from_center_and_matrix ((P + Q + R) / (3 : ℝ)) F hpos (eigh F) (heigh F)
  refine ⟨e, ?_, hv, hm, hc, ?_⟩
  · unfold Ellipse.from_boundary3
    rw [hF]
    exact he
  · rw [hon, hon, hon, hval, hval, hval]
    have h2 : cross (Q - P) (R - P) ^ 2 ≠ 0 := by positivity
    rw [div_eq_one_iff_eq h2, div_eq_one_iff_eq h2, div_eq_one_iff_eq h2]
    unfold cross
    simp
    refine ⟨?_, ?_, ?_⟩ <;> ring

/-- C73: three collinear points raise. -/
theorem C73_collinear (eigh : Matrix (Fin 2) (Fin 2) ℝ → Ellipse.Eigh) (P Q R : Pt) (h : Collinear P Q R) :
    Ellipse.from_boundary3 eigh P Q R = .error .linAlgError := by
  unfold Spec.Collinear cross at h
  simp at h
  unfold Ellipse.from_boundary3 Ellipse.boundary3
  dsimp only
  rw [if_pos]
  · rfl
  · rw [Matrix.det_fin_two, Matrix.mul_apply, Matrix.mul_apply, Matrix.mul_apply, Matrix.mul_apply, Fin.sum_univ_three,
      Fin.sum_univ_three, Fin.sum_univ_three, Fin.sum_univ_three]
    simp [Matrix.transpose_apply]
    linear_combination ((Q.x - P.x) * (R.y - P.y) - (Q.y - P.y) * (R.x - P.x)) / 3 * h

/-- The ellipse through `(0, 0), (4, 0), (1, 3)` is centered at `(5/3, 1)`; the points `(0, 0), (1, 1), (2, 2)` are refused. -/
example (eigh : Matrix (Fin 2) (Fin 2) ℝ → Ellipse.Eigh) (heigh : ∀ S, Ellipse.IsEigh S (eigh S)) :
    (∃ e, Ellipse.from_boundary3 eigh ⟨0, 0⟩ ⟨4, 0⟩ ⟨1, 3⟩ = .ok e ∧ e.center = ⟨5 / 3, 1⟩ ∧ OnE e ⟨1, 3⟩) ∧
    Ellipse.from_boundary3 eigh ⟨0, 0⟩ ⟨1, 1⟩ ⟨2, 2⟩ = .error .linAlgError := by
  constructor
  · obtain ⟨e, h, -, -, hc, -, -, hR⟩ := C73_from_boundary3_partial eigh heigh ⟨0, 0⟩ ⟨4, 0⟩ ⟨1, 3⟩ (by norm_num [Collinear, cross])
    exact ⟨e, h, by rw [hc]; ext <;> norm_num, hR⟩
  · exact C73_collinear eigh _ _ _ (by norm_num [Collinear, cross])

/-- C73 fails for `from_boundary4`: it raises for every four points. -/
theorem C73_boundary4_counterexample (argsort : (Fin 4 → Pt) → Equiv.Perm (Fin 4)) (P : Fin 4 → Pt) :
    Ellipse.from_boundary4 argsort P = .error .linAlgError ∨ Ellipse.from_boundary4 argsort P = .error .attributeError := by
  unfold Ellipse.from_boundary4
  dsimp only
  split_ifs
  · exact Or.inl rfl
  · exact Or.inr rfl

/-- `from_boundary4` raises `AttributeError` on a square in clockwise order. -/
example : Ellipse.from_boundary4 (fun _ => Equiv.refl _) ![⟨0, 1⟩, ⟨1, 1⟩, ⟨1, 0⟩, ⟨0, 0⟩] = .error .attributeError := by
  unfold Ellipse.from_boundary4
  dsimp only
  rw [if_neg]
  rw [Matrix.det_fin_two]
  simp

example : ¬ Collinear ⟨0, 0⟩ ⟨4, 0⟩ ⟨1, 3⟩ := by
  unfold Spec.Collinear cross; simp

/-! ### C74 -/

open Ellipse

theorem getElem_cons_eraseIdx_perm (L : List Pt) (i : ℕ) (h : i < L.length) : L.Perm (L[i] :: L.eraseIdx i) :=
  (List.getElem_cons_eraseIdx_perm h).symm

/-- With four boundary points the recursion always raises. -/
theorem lj_four (env : LJEnv) (n : ℕ) : ∀ (path : List Bool) (ip bp : List Pt), ip.length = n → bp.length = 4 →
    ∃ err, lownerJohn env path ip bp = .error err := by
  induction n with
  | zero =>
    intro path ip bp h1 h2
    rw [lownerJohn, dif_pos (Or.inl h1)]
    obtain ⟨a, b, c, d, rfl⟩ := List.length_eq_four.1 h2
    rcases C73_boundary4_counterexample env.argsort ![a, b, c, d] with h | h
    · refine ⟨.linAlgError, ?_⟩
      have h0 : lownerJohnBase env [a, b, c, d] = (from_boundary4 env.argsort ![a, b, c, d] >>= fun e => pure (some e)) := rfl
      rw [h0, h]; rfl
    · refine ⟨.attributeError, ?_⟩
      have h0 : lownerJohnBase env [a, b, c, d] = (from_boundary4 env.argsort ![a, b, c, d] >>= fun e => pure (some e)) := rfl
      rw [h0, h]; rfl
  | succ n ih =>
    intro path ip bp h1 h2
    rw [lownerJohn, dif_neg (by omega)]
    dsimp only
    obtain ⟨err, he⟩ := ih (path ++ [false]) (ip.eraseIdx (env.randint path % ip.length)) bp
      (by rw [List.length_eraseIdx_of_lt (Nat.mod_lt _ (by omega))]; omega) h2
    rw [he]
    exact ⟨err, rfl⟩

/-- Every returned ellipse contains the interior points, and the boundary points are on it. -/
theorem lj_sound (env : LJEnv) (heigh : ∀ S, IsEigh S (env.eigh S)) (n : ℕ) :
    ∀ (path : List Bool) (ip bp : List Pt) (e : Ellipse), ip.length = n → bp.length ≤ 3 →
    lownerJohn env path ip bp = .ok (some e) → e.Valid ∧ (∀ P ∈ ip, e.contains P) ∧ (∀ P ∈ bp, OnE e P) ∧
      ∃ P Q R, ¬ Collinear P Q R ∧ from_boundary3 env.eigh P Q R = .ok e ∧ P ∈ ip ++ bp ∧ Q ∈ ip ++ bp ∧ R ∈ ip ++ bp := by
  induction n with
  | zero =>
    intro path ip bp e h1 h2 h
    rw [lownerJohn, dif_pos (Or.inl h1)] at h
    obtain rfl := List.length_eq_zero_iff.1 h1
    have hcases : bp = [] ∨ (∃ a, bp = [a]) ∨ (∃ a b, bp = [a, b]) ∨ ∃ a b c, bp = [a, b, c] := by
      match bp, h2 with
      | [], _ => exact Or.inl rfl
      | [a], _ => exact Or.inr (Or.inl ⟨a, rfl⟩)
      | [a, b], _ => exact Or.inr (Or.inr (Or.inl ⟨a, b, rfl⟩))
      | [a, b, c], _ => exact Or.inr (Or.inr (Or.inr ⟨a, b, c, rfl⟩))
      | _ :: _ :: _ :: _ :: _, h2 => simp at h2; omega
    rcases hcases with rfl | ⟨a, rfl⟩ | ⟨a, b, rfl⟩ | ⟨a, b, c, rfl⟩
    · simp [lownerJohnBase] at h
    · simp [lownerJohnBase] at h
    · simp [lownerJohnBase] at h
    · have h0 : lownerJohnBase env [a, b, c] = (from_boundary3 env.eigh a b c >>= fun e => pure (some e)) := rfl
      rw [h0] at h
      have hcol : ¬ Collinear a b c := by
        intro hcol
        rw [C73_collinear env.eigh a b c hcol] at h
        simp at h
      obtain ⟨e', he', hv, -, -, o1, o2, o3⟩ := C73_from_boundary3_partial env.eigh heigh a b c hcol
      rw [he'] at h
      have : e' = e := by simpa using h
      subst this
      refine ⟨hv, by simp, ?_, a, b, c, hcol, he', by simp, by simp, by simp⟩
      intro P hP
      simp at hP
      rcases hP with rfl | rfl | rfl <;> assumption
  | succ n ih =>
    intro path ip bp e h1 h2 h
    rw [lownerJohn, dif_neg (by omega)] at h
    dsimp only at h
    have hlt : env.randint path % ip.length < ip.length := Nat.mod_lt _ (by omega)
    have hperm := getElem_cons_eraseIdx_perm ip _ hlt
    obtain ⟨p, hp⟩ : ∃ p, p = ip[env.randint path % ip.length]'hlt := ⟨_, rfl⟩
    obtain ⟨wo, hwo⟩ : ∃ wo, wo = ip.eraseIdx (env.randint path % ip.length) := ⟨_, rfl⟩
    have hlen : wo.length = n := by rw [hwo, List.length_eraseIdx_of_lt hlt]; omega
    rw [← hp, ← hwo] at h hperm
    have key : ∀ e, lownerJohn env (path ++ [true]) wo (bp ++ [p]) = .ok (some e) →
        e.Valid ∧ (∀ P ∈ ip, e.contains P) ∧ (∀ P ∈ bp, OnE e P) ∧
        ∃ P Q R, ¬ Collinear P Q R ∧ from_boundary3 env.eigh P Q R = .ok e ∧ P ∈ ip ++ bp ∧ Q ∈ ip ++ bp ∧ R ∈ ip ++ bp := by
      intro e h
      by_cases hb : bp.length = 3
      · obtain ⟨err, herr⟩ := lj_four env n (path ++ [true]) wo (bp ++ [p]) hlen (by simp [hb])
        rw [herr] at h; simp at h
      · obtain ⟨k0, k1, k2, P, Q, R, k3, k4, k5, k6, k7⟩ := ih _ _ _ _ hlen (by simp; omega) h
        have hm : ∀ X, X ∈ wo ++ (bp ++ [p]) → X ∈ ip ++ bp := by
          intro X hX
          rw [List.mem_append, hperm.mem_iff, List.mem_cons]
          simp at hX
          tauto
        refine ⟨k0, ?_, ?_, P, Q, R, k3, k4, hm _ k5, hm _ k6, hm _ k7⟩
        · intro X hX
          rw [hperm.mem_iff, List.mem_cons] at hX
          rcases hX with rfl | hX
          · exact (C64_includes e k0 _ (k2 _ (by simp))).2
          · exact k1 X hX
        · intro X hX
          exact k2 X (by simp [hX])
    rcases hrec : lownerJohn env (path ++ [false]) wo bp with err | r
    · rw [hrec] at h
      simp only [Res.error_bind, reduceCtorEq] at h
    · rw [hrec] at h
      simp only [Res.ok_bind] at h
      rcases r with - | e'
      · exact key e h
      · dsimp only at h
        by_cases hc : e'.contains p
        · rw [if_pos hc] at h
          have : e' = e := by simpa only [Res.pure_ok, Except.ok.injEq, Option.some.injEq] using h
          subst this
          obtain ⟨k0, k1, k2, P, Q, R, k3, k4, k5, k6, k7⟩ := ih _ _ _ _ hlen h2 hrec
          have hm : ∀ X, X ∈ wo ++ bp → X ∈ ip ++ bp := by
            intro X hX
            rw [List.mem_append, hperm.mem_iff, List.mem_cons]
            simp at hX
            tauto
          refine ⟨k0, ?_, k2, P, Q, R, k3, k4, hm _ k5, hm _ k6, hm _ k7⟩
          intro X hX
          rw [hperm.mem_iff, List.mem_cons] at hX
          rcases hX with rfl | hX
          · exact hc
          · exact k1 X hX
        · rw [if_neg hc] at h
          exact key e h

/-- C74 (part): for every finite list of points and every random schedule the recursion terminates (`lownerJohn` is a
total function) and if it returns an ellipse then this ellipse contains all the points, and passes through three of
them.  Missing: it does not always return, see `C74_parallelogram_counterexample`. -/
theorem C74_contains_partial (env : LJEnv) (heigh : ∀ S, IsEigh S (env.eigh S)) (points : List Pt) (e : Ellipse)
    (h : lownerJohn env [] points [] = .ok (some e)) :
    e.Valid ∧ (∀ P ∈ points, InEllipse e.center e.rmajor e.rminor e.rad P) ∧
    ∃ P Q R, P ∈ points ∧ Q ∈ points ∧ R ∈ points ∧ ¬ Collinear P Q R ∧ OnE e P ∧ OnE e Q ∧ OnE e R := by
  obtain ⟨k0, k1, -, P, Q, R, k3, k4, k5, k6, k7⟩ := lj_sound env heigh _ [] points [] e rfl (by simp) h
  refine ⟨k0, fun X hX => (C64_contains e k0 X).1 (k1 X hX), P, Q, R, by simpa using k5, by simpa using k6, by simpa using k7, k3, ?_⟩
  obtain ⟨e', he', -, -, -, h1⟩ := C73_from_boundary3_partial env.eigh heigh P Q R k3
  rw [k4] at he'
  have : e = e' := by simpa using he'
  rw [this]; exact h1

/-- Fewer than three points: `None`. -/
theorem lj_few (env : LJEnv) (n : ℕ) : ∀ (path : List Bool) (ip bp : List Pt), ip.length = n → ip.length + bp.length ≤ 2 →
    lownerJohn env path ip bp = .ok none := by
  induction n with
  | zero =>
    intro path ip bp h1 h2
    rw [lownerJohn, dif_pos (Or.inl h1)]
    match bp, h2 with
    | [], _ => rfl
    | [a], _ => rfl
    | [a, b], _ => rfl
    | _ :: _ :: _ :: _, h2 => simp at h2; omega
  | succ n ih =>
    intro path ip bp h1 h2
    have hlt : env.randint path % ip.length < ip.length := Nat.mod_lt _ (by omega)
    have hlen : (ip.eraseIdx (env.randint path % ip.length)).length = n := by
      rw [List.length_eraseIdx_of_lt hlt]; omega
    rw [lownerJohn, dif_neg (by omega)]
    dsimp only
    rw [ih _ _ _ hlen (by omega)]
    simp only [Res.ok_bind]
    exact ih _ _ _ hlen (by rw [List.length_append, List.length_singleton]; omega)

/-- Three points: `from_boundary3` on the points in some order. -/
theorem lj_three (env : LJEnv) (n : ℕ) : ∀ (path : List Bool) (ip bp : List Pt), ip.length = n → ip.length + bp.length = 3 →
    ∃ P Q R, (ip ++ bp).Perm [P, Q, R] ∧
      lownerJohn env path ip bp = (from_boundary3 env.eigh P Q R >>= fun e => pure (some e)) := by
  induction n with
  | zero =>
    intro path ip bp h1 h2
    rw [lownerJohn, dif_pos (Or.inl h1)]
    obtain rfl := List.length_eq_zero_iff.1 h1
    obtain ⟨a, b, c, rfl⟩ := List.length_eq_three.1 (by simpa using h2)
    exact ⟨a, b, c, by simp, rfl⟩
  | succ n ih =>
    intro path ip bp h1 h2
    have hlt : env.randint path % ip.length < ip.length := Nat.mod_lt _ (by omega)
    have hlen : (ip.eraseIdx (env.randint path % ip.length)).length = n := by
      rw [List.length_eraseIdx_of_lt hlt]; omega
    rw [lownerJohn, dif_neg (by omega)]
    dsimp only
    rw [lj_few env n _ _ _ hlen (by omega)]
    simp only [Res.ok_bind]
    obtain ⟨P, Q, R, hp, hr⟩ := ih (path ++ [true]) _ (bp ++ [ip[env.randint path % ip.length]'hlt]) hlen
      (by rw [List.length_append, List.length_singleton]; omega)
    refine ⟨P, Q, R, List.Perm.trans ?_ hp, hr⟩
    refine ((getElem_cons_eraseIdx_perm ip _ hlt).append_right bp).trans ?_
    rw [← List.append_assoc]
    rw [List.cons_append]
    exact (List.perm_append_singleton _ _).symm

/-- The permutations of three points. -/
theorem perm_three {a b c P Q R : Pt} (h : [a, b, c].Perm [P, Q, R]) :
    (P, Q, R) = (a, b, c) ∨ (P, Q, R) = (a, c, b) ∨ (P, Q, R) = (b, a, c) ∨ (P, Q, R) = (b, c, a) ∨ (P, Q, R) = (c, a, b) ∨
      (P, Q, R) = (c, b, a) := by
  have h' := h
  have ha : a ∈ [P, Q, R] := h.subset (by simp)
  simp only [List.mem_cons, List.not_mem_nil, or_false] at ha
  have two : ∀ {x y u v : Pt}, [x, y].Perm [u, v] → (x = u ∧ y = v) ∨ (x = v ∧ y = u) := by
    intro x y u v h
    have hx : x ∈ [u, v] := h.subset (by simp)
    simp only [List.mem_cons, List.not_mem_nil, or_false] at hx
    rcases hx with rfl | rfl
    · left
      have := (List.perm_cons x).1 h
      exact ⟨rfl, by simpa using this⟩
    · right
      have := (List.perm_cons x).1 (h.trans (List.Perm.swap x u []))
      exact ⟨rfl, by simpa using this⟩
  rcases ha with rfl | rfl | rfl
  · rcases two ((List.perm_cons a).1 h) with ⟨rfl, rfl⟩ | ⟨rfl, rfl⟩ <;> simp
  · have := (List.perm_cons a).1 (h.trans (List.Perm.swap a P [R]))
    rcases two this with ⟨rfl, rfl⟩ | ⟨rfl, rfl⟩ <;> simp
  · have h3 : [P, Q, a].Perm [a, P, Q] := (List.perm_append_singleton a [P, Q])
    have := (List.perm_cons a).1 (h.trans h3)
    rcases two this with ⟨rfl, rfl⟩ | ⟨rfl, rfl⟩ <;> simp

theorem collinear_perm {a b c P Q R : Pt} (h : [a, b, c].Perm [P, Q, R]) : Collinear a b c ↔ Collinear P Q R := by
  have key : ∀ x : ℝ, x = 0 ↔ -x = 0 := fun x => neg_eq_zero.symm
  unfold Spec.Collinear cross
  rcases perm_three h with h | h | h | h | h | h <;> simp only [Prod.mk.injEq] at h <;>
    obtain ⟨rfl, rfl, rfl⟩ := h <;> simp <;> constructor <;> intro h <;> linarith

/-- C74: three non-collinear points: an ellipse through the three points is returned, whatever the random schedule. -/
theorem C74_three_points (env : LJEnv) (heigh : ∀ S, IsEigh S (env.eigh S)) (A B C : Pt) (h : ¬ Collinear A B C) :
    ∃ e, lownerJohn env [] [A, B, C] [] = .ok (some e) ∧ e.Valid ∧ e.center = (A + B + C) / (3 : ℝ) ∧
      OnE e A ∧ OnE e B ∧ OnE e C := by
  obtain ⟨P, Q, R, hp, hr⟩ := lj_three env 3 [] [A, B, C] [] rfl rfl
  rw [List.append_nil] at hp
  rw [collinear_perm hp] at h
  obtain ⟨e, he, hv, -, hc, h1, h2, h3⟩ := C73_from_boundary3_partial env.eigh heigh P Q R h
  rw [he] at hr
  refine ⟨e, hr, hv, ?_, ?_⟩
  · rw [hc]
    rcases perm_three hp with h | h | h | h | h | h <;> simp only [Prod.mk.injEq] at h <;>
      obtain ⟨rfl, rfl, rfl⟩ := h <;> ext <;> simp <;> ring
  · rcases perm_three hp with h | h | h | h | h | h <;> simp only [Prod.mk.injEq] at h <;>
      obtain ⟨rfl, rfl, rfl⟩ := h <;> refine ⟨?_, ?_, ?_⟩ <;> assumption

/-- Whatever is returned for the five points below contains the point `(1, 1)` and touches three of them. -/
example (env : LJEnv) (heigh : ∀ S, IsEigh S (env.eigh S)) (e : Ellipse)
    (h : lownerJohn env [] [⟨0, 0⟩, ⟨4, 0⟩, ⟨1, 3⟩, ⟨1, 1⟩, ⟨2, 1⟩] [] = .ok (some e)) :
    InEllipse e.center e.rmajor e.rminor e.rad ⟨1, 1⟩ ∧ ∃ P ∈ [⟨0, 0⟩, ⟨4, 0⟩, ⟨1, 3⟩, ⟨1, 1⟩, ⟨2, 1⟩], OnE e P := by
  obtain ⟨-, h1, P, Q, R, hP, -, -, -, hon, -⟩ := C74_contains_partial env heigh _ e h
  exact ⟨h1 _ (by simp), P, hP, hon⟩

/-- The ellipse of `from_boundary3` does not contain the fourth vertex of a parallelogram. -/
theorem boundary3_not_contains (eigh : Matrix (Fin 2) (Fin 2) ℝ → Eigh) (heigh : ∀ S, IsEigh S (eigh S)) (P Q R : Pt)
    (h : ¬ Collinear P Q R) (e : Ellipse) (he : from_boundary3 eigh P Q R = .ok e) (X : Pt)
    (hX : X = P + Q - R ∨ X = P + R - Q ∨ X = Q + R - P) : ¬ e.contains X := by
  have hcol := h
  rw [Spec.Collinear] at h
  obtain ⟨F, hF, hpos, hval⟩ := boundary3_spec P Q R h
  obtain ⟨e', he', hv, hm, hc, hon⟩ := C65_from_center_and_matrix ((P + Q + R) / (3 : ℝ)) F hpos (eigh F) (heigh F)
  have hee : e' = e := by
    have : from_boundary3 eigh P Q R = .ok e' := by
      unfold from_boundary3
      rw [hF]
      exact he'
    rw [this] at he
    simpa using he
  subst hee
  intro hcon
  -- the point `X` is in the ellipse, so that some point of the ellipse is on the ray from the center beyond `X`
  have hin := (C64_contains e' hv X).1 hcon
  have hq : quadForm F (X - (P + Q + R) / (3 : ℝ)) = 4 := by
    rw [hval]
    have h2 : cross (Q - P) (R - P) ^ 2 ≠ 0 := by positivity
    rw [div_eq_iff h2]
    rcases hX with rfl | rfl | rfl <;> unfold cross <;> simp <;> ring
  obtain ⟨m, hm2⟩ : ∃ m : Pt, m = (P + Q + R) / (3 : ℝ) + (1 / 2 : ℝ) • (X - (P + Q + R) / (3 : ℝ)) := ⟨_, rfl⟩
  have hmOn : OnE e' m := by
    rw [hon, hm2]
    have : quadForm F ((P + Q + R) / (3 : ℝ) + (1 / 2 : ℝ) • (X - (P + Q + R) / (3 : ℝ)) - (P + Q + R) / (3 : ℝ)) =
        1 / 4 * quadForm F (X - (P + Q + R) / (3 : ℝ)) := by
      unfold quadForm; simp; ring
    rw [this, hq]; norm_num
  unfold OnE at hmOn
  rw [onEllipse_iff hv.1 hv.2] at hmOn
  rw [inEllipse_iff] at hin
  have : ellVal e'.center e'.rmajor e'.rminor e'.rad m + 1 = 1 / 4 * (ellVal e'.center e'.rmajor e'.rminor e'.rad X + 1) := by
    rw [hm2, ← hc]
    unfold ellVal axisCoord
    simp; ring
  linarith

/-- C74 fails on the four vertices of every parallelogram (for example of a square): whatever the order of the points and
the random schedule, the function raises. -/
theorem C74_parallelogram_counterexample (env : LJEnv) (heigh : ∀ S, IsEigh S (env.eigh S)) (A B C : Pt)
    (h : ¬ Collinear A B C) (points : List Pt) (hp : points.Perm [A, B, C, A + B - C]) :
    ∃ err, lownerJohn env [] points [] = .error err := by
  have main : ∀ n : ℕ, ∀ (path : List Bool) (ip bp : List Pt), ip.length = n → (ip ++ bp).Perm [A, B, C, A + B - C] →
      ∃ err, lownerJohn env path ip bp = .error err := by
    intro n
    induction n with
    | zero =>
      intro path ip bp h1 h2
      obtain rfl := List.length_eq_zero_iff.1 h1
      exact lj_four env 0 path [] bp rfl (by simpa using h2.length_eq)
    | succ n ih =>
      intro path ip bp h1 h2
      have hlt : env.randint path % ip.length < ip.length := Nat.mod_lt _ (by omega)
      have hlen : (ip.eraseIdx (env.randint path % ip.length)).length = n := by
        rw [List.length_eraseIdx_of_lt hlt]; omega
      have htot : ip.length + bp.length = 4 := by simpa using h2.length_eq
      by_cases hb4 : 5 ≤ bp.length
      · omega
      rw [lownerJohn, dif_neg (by omega)]
      dsimp only
      have hperm := getElem_cons_eraseIdx_perm ip _ hlt
      obtain ⟨p, hpe⟩ : ∃ p, p = ip[env.randint path % ip.length]'hlt := ⟨_, rfl⟩
      obtain ⟨wo, hwo⟩ : ∃ wo, wo = ip.eraseIdx (env.randint path % ip.length) := ⟨_, rfl⟩
      rw [← hpe, ← hwo] at hperm ⊢
      rw [← hwo] at hlen
      obtain ⟨P, Q, R, hPQR, hrec⟩ := lj_three env n (path ++ [false]) wo bp hlen (by omega)
      have hall : [p, P, Q, R].Perm [A, B, C, A + B - C] :=
        ((List.perm_cons p).2 hPQR.symm).trans ((hperm.append_right bp).symm.trans h2)
      have hfour : ¬ Collinear P Q R ∧ (p = P + Q - R ∨ p = P + R - Q ∨ p = Q + R - P) := by
        have hin : p ∈ [A, B, C, A + B - C] := hall.subset (by simp)
        simp only [List.mem_cons, List.not_mem_nil, or_false] at hin
        have fin : ∀ {x y z : Pt}, [x, y, z].Perm [P, Q, R] → ¬ Collinear x y z →
            (p = x + y - z ∨ p = x + z - y ∨ p = y + z - x) →
            ¬ Collinear P Q R ∧ (p = P + Q - R ∨ p = P + R - Q ∨ p = Q + R - P) := by
          intro x y z hxyz hc hsum
          refine ⟨by rwa [← collinear_perm hxyz], ?_⟩
          have comm : ∀ u v w : Pt, u + v - w = v + u - w := by intro u v w; ext <;> simp <;> ring
          rcases perm_three hxyz with h | h | h | h | h | h <;> simp only [Prod.mk.injEq] at h <;>
            obtain ⟨rfl, rfl, rfl⟩ := h
          · exact hsum
          · rcases hsum with h | h | h
            · exact Or.inr (Or.inl h)
            · exact Or.inl h
            · exact Or.inr (Or.inr (h.trans (comm _ _ _)))
          · rcases hsum with h | h | h
            · exact Or.inl (h.trans (comm _ _ _))
            · exact Or.inr (Or.inr h)
            · exact Or.inr (Or.inl h)
          · rcases hsum with h | h | h
            · exact Or.inr (Or.inl (h.trans (comm _ _ _)))
            · exact Or.inr (Or.inr (h.trans (comm _ _ _)))
            · exact Or.inl h
          · rcases hsum with h | h | h
            · exact Or.inr (Or.inr h)
            · exact Or.inl (h.trans (comm _ _ _))
            · exact Or.inr (Or.inl (h.trans (comm _ _ _)))
          · rcases hsum with h | h | h
            · exact Or.inr (Or.inr (h.trans (comm _ _ _)))
            · exact Or.inr (Or.inl (h.trans (comm _ _ _)))
            · exact Or.inl (h.trans (comm _ _ _))
        have ncol : ∀ {x y z : Pt} (k : ℝ), cross (y - x) (z - x) = k * cross (B - A) (C - A) → k ≠ 0 → ¬ Collinear x y z := by
          intro x y z k h1 hk h2
          unfold Spec.Collinear at h h2
          rw [h1] at h2
          exact (mul_ne_zero hk h) h2
        rcases hin with rfl | rfl | rfl | rfl
        · refine fin ((List.perm_cons p).1 hall).symm (ncol 1 ?_ one_ne_zero) ?_
          · unfold cross; simp; ring
          · right; right; ext <;> simp <;> ring
        · have h3 := (List.perm_cons p).1 (hall.trans (List.Perm.swap p A _))
          refine fin h3.symm (ncol (-1) ?_ (by norm_num)) ?_
          · unfold cross; simp; ring
          · right; right; ext <;> simp <;> ring
        · have h4 : [A, B, p, A + B - p].Perm [p, A, B, A + B - p] := by
            have := List.perm_middle (l₁ := [A, B]) (a := p) (l₂ := [A + B - p])
            exact this
          have h3 := (List.perm_cons p).1 (hall.trans h4)
          refine fin h3.symm (ncol (-1) ?_ (by norm_num)) ?_
          · unfold cross; simp; ring
          · left; ext <;> simp
        · have h4 : [A, B, C, A + B - C].Perm [A + B - C, A, B, C] := by
            have := List.perm_middle (l₁ := [A, B, C]) (a := A + B - C) (l₂ := [])
            exact this
          have h3 := (List.perm_cons _).1 (hall.trans h4)
          refine fin h3.symm h ?_
          left; rfl
      obtain ⟨hcol, hsum⟩ := hfour
      obtain ⟨e, he, -⟩ := C73_from_boundary3_partial env.eigh heigh P Q R hcol
      rw [hrec, he]
      simp only [Res.ok_bind, show ∀ x : Option Ellipse, (pure x : Res (Option Ellipse)) = .ok x from fun _ => rfl]
      rw [if_neg (boundary3_not_contains env.eigh heigh P Q R hcol e he p hsum)]
      apply ih _ _ _ hlen
      refine List.Perm.trans ?_ h2
      rw [← List.append_assoc]
      refine (List.perm_append_singleton _ _).trans ?_
      rw [← List.cons_append]
      exact (hperm.append_right bp).symm
  exact main _ [] points [] rfl (by simpa using hp)

/-- The unit square is such a parallelogram; and `env` with the contract exists. -/
example : (⟨1, 1⟩ : Pt) = ⟨1, 0⟩ + ⟨0, 1⟩ - ⟨0, 0⟩ ∧ ¬ Collinear ⟨1, 0⟩ ⟨0, 1⟩ ⟨0, 0⟩ := by
  constructor
  · ext <;> simp
  · unfold Spec.Collinear cross; simp

example : ∃ env : LJEnv, ∀ S, IsEigh S (env.eigh S) :=
  ⟨⟨fun S => (exists_eigh S).choose, fun _ => (0, 0), fun _ => Equiv.refl _, fun _ => 0⟩, fun S => (exists_eigh S).choose_spec⟩
