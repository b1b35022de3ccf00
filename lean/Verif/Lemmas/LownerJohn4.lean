import Verif.Model.LownerJohn4
import Verif.Lemmas.EllipsePencil
import Verif.Props.Exact3

/-!
# The recursion of `LownerJohnEllipse` (with `np.float` being `float`)
-/

open Spec Real Classical

namespace LJ4

theorem on_in {O : Pt} {a b α : ℝ} (ha : 0 < a) (hb : 0 < b) {X : Pt} (h : OnEllipse O a b α X) : InEllipse O a b α X := by
  rw [inEllipse_iff, (onEllipse_iff ha hb).1 h]

/-- A frame for four points in convex position. -/
theorem exists_frame {P : Fin 4 → Pt} (h : ConvexPosition P) :
    ∃ (τ : Equiv.Perm (Fin 4)) (X : Pt) (B : Matrix (Fin 2) (Fin 2) ℝ) (a0 a1 a2 a3 : ℝ), Boundary4.Frame (fun i => P (τ i)) X B a0 a1 a2 a3 := by
  obtain ⟨env, henv⟩ := Boundary4.exists_env
  obtain ⟨τ, -, hcw⟩ := Boundary4.sorted_cw henv h
  obtain ⟨X, B, a0, a1, a2, a3, r, C, F, k, hF, -⟩ := Boundary4.centerForm_ok henv (P := fun i => P (τ i)) hcw
  exact ⟨τ, X, B, a0, a1, a2, a3, hF⟩

/-- Two ellipses through five different points. -/
theorem five_unique {P : Fin 4 → Pt} {Q : Pt} (hd : ∀ i j, i ≠ j → P i ≠ P j) (hQ : ∀ i, Q ≠ P i)
    {O : Pt} {a b α : ℝ} (ha : 0 < a) (hb : 0 < b) (hP : ∀ i, OnEllipse O a b α (P i)) (hOQ : OnEllipse O a b α Q)
    {O' : Pt} {a' b' α' : ℝ} (ha' : 0 < a') (hb' : 0 < b') (hP' : ∀ i, OnEllipse O' a' b' α' (P i)) (hOQ' : OnEllipse O' a' b' α' Q) :
    a * b = a' * b' ∧ SameRegion O a b α O' a' b' α' := by
  obtain ⟨τ, X, B, a0, a1, a2, a3, hF⟩ := exists_frame (Boundary4.cp_of_ellipse hd ha hb hP)
  obtain ⟨s, hs1, hs2, hsa, hsr, hso⟩ := Boundary4.through_frame hF ha hb (fun i => hP (τ i))
  obtain ⟨s', hs1', hs2', hsa', hsr', hso'⟩ := Boundary4.through_frame hF ha' hb' (fun i => hP' (τ i))
  have p0 := hF.pos0; have p1 := hF.pos1; have p2 := hF.pos2; have p3 := hF.pos3; have heq := hF.eq
  have hBd : B 0 0 * B 1 1 - B 0 1 * B 1 0 = 1 := by rw [← Matrix.det_fin_two]; exact hF.det
  have inj : ∀ i, Boundary4.mdot B (Q - X) ≠ Boundary4.mdot B (P (τ i) - X) := by
    intro i h
    have hx := congrArg Pt.x h
    have hy := congrArg Pt.y h
    simp only [Boundary4.mdot_x, Boundary4.mdot_y, Pt.sub_x, Pt.sub_y] at hx hy
    apply hQ (τ i)
    ext
    · linear_combination B 1 1 * hx - B 0 1 * hy - (Q.x - (P (τ i)).x) * hBd
    · linear_combination B 0 0 * hy - B 1 0 * hx - (Q.y - (P (τ i)).y) * hBd
  have k1 := (hso Q).1 hOQ
  have k2 := (hso' Q).1 hOQ'
  have i0 := inj 0; have i1 := inj 1; have i2 := inj 2; have i3 := inj 3
  rw [hF.m0] at i0
  rw [hF.m1] at i1
  rw [hF.m2] at i2
  rw [hF.m3] at i3
  obtain ⟨z, hz⟩ : ∃ z, z = Boundary4.mdot B (Q - X) := ⟨_, rfl⟩
  rw [← hz] at k1 k2 i0 i1 i2 i3
  unfold Boundary4.conic at k1 k2
  have hx : z.x ≠ 0 := by
    intro h0
    rw [h0] at k1
    have : (z.y - a1) * (z.y + a3) = 0 := by linear_combination k1 + heq
    rcases mul_eq_zero.1 this with h | h
    · exact i1 (by ext; exact h0; show z.y = a1; linarith)
    · exact i3 (by ext; exact h0; show z.y = -a3; linarith)
  have hy : z.y ≠ 0 := by
    intro h0
    rw [h0] at k1
    have : (z.x - a2) * (z.x + a0) = 0 := by linear_combination k1
    rcases mul_eq_zero.1 this with h | h
    · exact i2 (by ext; show z.x = a2; linarith; exact h0)
    · exact i0 (by ext; show z.x = -a0; linarith; exact h0)
  have hss : s = s' := by
    have : (s - s') * (2 * z.x * z.y) = 0 := by linear_combination k1 - k2
    rcases mul_eq_zero.1 this with h | h
    · linarith
    · exact absurd h (mul_ne_zero (mul_ne_zero two_ne_zero hx) hy)
  subst hss
  constructor
  · have h1 := mul_pos ha hb
    have h2 := mul_pos ha' hb'
    have h3 : (a * b) ^ 2 = (a' * b') ^ 2 := by linarith
    exact (sq_eq_sq₀ h1.le h2.le).1 h3
  · intro Z
    rw [hsr, hsr']

/-- The ellipses the recursion is about. -/
def Feas (ip bp : List Pt) (O : Pt) (a b α : ℝ) : Prop :=
  0 < a ∧ 0 < b ∧ (∀ P ∈ ip, InEllipse O a b α P) ∧ ∀ P ∈ bp, OnEllipse O a b α P

/-- `e` is the smallest of them. -/
def IsMin (ip bp : List Pt) (e : Ellipse) : Prop :=
  Feas ip bp e.center e.rmajor e.rminor e.rad ∧ ∀ O a b α, Feas ip bp O a b α → e.rmajor * e.rminor ≤ a * b

/-- The guard of `from_equation` that rejects some ellipses. -/
def Guard (e : Ellipse) : Prop :=
  4 * (e.equation.A + e.equation.C) * e.equation.F < e.equation.D * e.equation.D + e.equation.E * e.equation.E

/-- The result comes from the ellipse of at most five of the points. -/
def Source (pts : List Pt) (e : Ellipse) : Prop :=
  ∃ B : List Pt, 3 ≤ B.length ∧ B.length ≤ 5 ∧ B.Nodup ∧ (∀ P ∈ B, P ∈ pts) ∧ IsMin [] B e ∧
    (B.length = 5 → ∃ E : Ellipse, E.Valid ∧ (∀ P ∈ B, OnE E P) ∧ Guard E)

/-- What is proved of a result. -/
def Outcome (pts ip bp : List Pt) (r : Res (Option Ellipse)) : Prop :=
  (∃ e, r = .ok (some e) ∧ IsMin ip bp e ∧ Source pts e) ∨
    ((∃ m, r = .error (.valueError m)) ∧ ∃ (E : Ellipse) (P : Fin 5 → Pt), E.Valid ∧ Function.Injective P ∧
      (∀ i, P i ∈ pts ∧ OnE E (P i)) ∧ ¬ Guard E)

theorem few (env : Env) (n : ℕ) : ∀ (path : List Bool) (ip bp : List Pt), ip.length = n → ip.length + bp.length ≤ 2 →
    lownerJohn env path ip bp = .ok none := by
  induction n with
  | zero =>
    intro path ip bp h1 h2
    rw [lownerJohn, dif_pos (Or.inl h1)]
    match bp, h2 with
    | [], _ => rfl
    | [a], _ => rfl
    | [a, b], _ => rfl
    | _ :: _ :: _ :: _, h2 => simp at h2; omega
  | succ n ih =>
    intro path ip bp h1 h2
    have hlt : env.randint path % ip.length < ip.length := Nat.mod_lt _ (by omega)
    have hlen : (ip.eraseIdx (env.randint path % ip.length)).length = n := by
      rw [List.length_eraseIdx_of_lt hlt]; omega
    rw [lownerJohn, dif_neg (by omega)]
    dsimp only
    rw [ih _ _ _ hlen (by omega)]
    simp only [Res.ok_bind]
    exact ih _ _ _ hlen (by rw [List.length_append, List.length_singleton]; omega)

/-- Three points: `from_boundary3` on the points in some order. -/
theorem three (env : Env) (n : ℕ) : ∀ (path : List Bool) (ip bp : List Pt), ip.length = n → ip.length + bp.length = 3 →
    ∃ P Q R, (ip ++ bp).Perm [P, Q, R] ∧
      lownerJohn env path ip bp = (Ellipse.from_boundary3 env.eigh P Q R >>= fun e => pure (some e)) := by
  induction n with
  | zero =>
    intro path ip bp h1 h2
    rw [lownerJohn, dif_pos (Or.inl h1)]
    obtain rfl := List.length_eq_zero_iff.1 h1
    obtain ⟨a, b, c, rfl⟩ := List.length_eq_three.1 (by simpa using h2)
    exact ⟨a, b, c, by simp, rfl⟩
  | succ n ih =>
    intro path ip bp h1 h2
    have hlt : env.randint path % ip.length < ip.length := Nat.mod_lt _ (by omega)
    have hlen : (ip.eraseIdx (env.randint path % ip.length)).length = n := by
      rw [List.length_eraseIdx_of_lt hlt]; omega
    rw [lownerJohn, dif_neg (by omega)]
    dsimp only
    rw [few env n _ _ _ hlen (by omega)]
    simp only [Res.ok_bind]
    obtain ⟨P, Q, R, hp, hr⟩ := ih (path ++ [true]) _ (bp ++ [ip[env.randint path % ip.length]'hlt]) hlen
      (by rw [List.length_append, List.length_singleton]; omega)
    refine ⟨P, Q, R, List.Perm.trans ?_ hp, hr⟩
    refine ((getElem_cons_eraseIdx_perm ip _ hlt).append_right bp).trans ?_
    rw [← List.append_assoc]
    rw [List.cons_append]
    exact (List.perm_append_singleton _ _).symm

/-- General position. -/
def General (pts : List Pt) : Prop :=
  ∀ P ∈ pts, ∀ Q ∈ pts, ∀ R ∈ pts, P ≠ Q → Q ≠ R → P ≠ R → ¬ Collinear P Q R

theorem outcome_three {env : Env} (he : env.Ok) {pts : List Pt} (hg : General pts) {path : List Bool} {ip bp : List Pt}
    (h3 : ip.length + bp.length = 3) (hn : (ip ++ bp).Nodup) (hm : ∀ P ∈ ip ++ bp, P ∈ pts) :
    Outcome pts ip bp (lownerJohn env path ip bp) := by
  obtain ⟨P, Q, R, hp, hr⟩ := three env _ path ip bp rfl h3
  have hn' : [P, Q, R].Nodup := hp.nodup_iff.1 hn
  simp at hn'
  obtain ⟨⟨n1, n2⟩, n3⟩ := hn'
  have mem : ∀ X ∈ [P, Q, R], X ∈ ip ++ bp := fun X hX => hp.symm.subset hX
  have hcol := hg P (hm P (mem P (by simp))) Q (hm Q (mem Q (by simp))) R (hm R (mem R (by simp))) n1 n3 n2
  obtain ⟨e, he', hv, hP, hQ, hR, hmin⟩ := C80_from_boundary3 env.eigh he.eigh P Q R hcol
  have hon : ∀ X ∈ [P, Q, R], OnE e X := by
    intro X hX
    simp only [List.mem_cons, List.not_mem_nil, or_false] at hX
    rcases hX with rfl | rfl | rfl
    · exact hP
    · exact hQ
    · exact hR
  have hin : ∀ X ∈ ip ++ bp, OnE e X := fun X hX => hon X (hp.subset hX)
  left
  refine ⟨e, by rw [hr, he']; rfl, ⟨⟨hv.1, hv.2, ?_, ?_⟩, ?_⟩, [P, Q, R], by simp, by simp, by simp [n1, n2, n3], fun X hX => hm X (mem X hX),
    ⟨⟨hv.1, hv.2, by simp, hon⟩, ?_⟩, by simp⟩
  · intro X hX
    exact on_in hv.1 hv.2 (hin X (by simp [hX]))
  · intro X hX
    exact hin X (by simp [hX])
  · rintro O a b α ⟨ha, hb, h1, h2⟩
    have hall : ∀ X ∈ ip ++ bp, InEllipse O a b α X := by
      intro X hX
      rcases List.mem_append.1 hX with h | h
      · exact h1 X h
      · exact on_in ha hb (h2 X h)
    have := (hmin O a b α ha hb (hall P (mem P (by simp))) (hall Q (mem Q (by simp))) (hall R (mem R (by simp)))).1
    unfold ellipseArea at this
    rw [mul_assoc, mul_assoc] at this
    exact le_of_mul_le_mul_left this pi_pos
  · rintro O a b α ⟨ha, hb, -, h2⟩
    have := (hmin O a b α ha hb (on_in ha hb (h2 P (by simp))) (on_in ha hb (h2 Q (by simp))) (on_in ha hb (h2 R (by simp)))).1
    unfold ellipseArea at this
    rw [mul_assoc, mul_assoc] at this
    exact le_of_mul_le_mul_left this pi_pos

theorem outcome_four {env : Env} (he : env.Ok) {pts : List Pt} {P Q R S : Pt} (hn : [P, Q, R, S].Nodup)
    (hm : ∀ X ∈ [P, Q, R, S], X ∈ pts) {O : Pt} {a b α : ℝ} (hf : Feas [] [P, Q, R, S] O a b α) :
    Outcome pts [] [P, Q, R, S] (base env [P, Q, R, S]) := by
  have hd : ∀ i j, i ≠ j → (![P, Q, R, S] : Fin 4 → Pt) i ≠ (![P, Q, R, S] : Fin 4 → Pt) j := by
    simp at hn
    obtain ⟨⟨n1, n2, n3⟩, ⟨n4, n5⟩, n6⟩ := hn
    intro i j
    fin_cases i <;> fin_cases j <;> simp [n1, n2, n3, n4, n5, n6, Ne.symm n1, Ne.symm n2, Ne.symm n3, Ne.symm n4, Ne.symm n5, Ne.symm n6]
  have toFin : ∀ {O : Pt} {a b α : ℝ}, (∀ X ∈ [P, Q, R, S], OnEllipse O a b α X) → ∀ i, OnEllipse O a b α ((![P, Q, R, S] : Fin 4 → Pt) i) := by
    intro O a b α h i
    fin_cases i
    · exact h P (by simp)
    · exact h Q (by simp)
    · exact h R (by simp)
    · exact h S (by simp)
  obtain ⟨ha, hb, -, hon⟩ := hf
  obtain ⟨e, hr, hv, -, he', hmin⟩ := C111_from_boundary4 env.toEnv he.toOk ![P, Q, R, S] (Boundary4.cp_of_ellipse hd ha hb (toFin hon))
  have hmin' : IsMin [] [P, Q, R, S] e := by
    refine ⟨⟨hv.1, hv.2, by simp, ?_⟩, ?_⟩
    · intro X hX
      simp only [List.mem_cons, List.not_mem_nil, or_false] at hX
      rcases hX with rfl | rfl | rfl | rfl
      · exact he' 0
      · exact he' 1
      · exact he' 2
      · exact he' 3
    · rintro O a b α ⟨ha, hb, -, h2⟩
      have := (hmin O a b α ha hb (toFin h2)).1
      unfold ellipseArea at this
      rw [mul_assoc, mul_assoc] at this
      exact le_of_mul_le_mul_left this pi_pos
  left
  refine ⟨e, ?_, hmin', [P, Q, R, S], by simp, by simp, hn, hm, hmin', by simp⟩
  unfold base
  dsimp only
  rw [hr]
  rfl

/-- Five points on an ellipse. -/
theorem outcome_five {env : Env} (he : env.Ok) {pts ip : List Pt} {P Q R S T : Pt} (hn : [P, Q, R, S, T].Nodup)
    (hm : ∀ X ∈ [P, Q, R, S, T], X ∈ pts) {O : Pt} {a b α : ℝ} (hf : Feas ip [P, Q, R, S, T] O a b α)
    (h45 : ∀ (E : Ellipse) (P : Fin 5 → Pt), E.Valid → Function.Injective P → (∀ i, P i ∈ pts ∧ OnE E (P i)) →
      E.equation.A ≠ E.equation.C ∨ E.equation.B = 0) :
    Outcome pts ip [P, Q, R, S, T] (base env [P, Q, R, S, T]) := by
  obtain ⟨ha, hb, hin, hon⟩ := hf
  have hinj : Function.Injective (![P, Q, R, S, T] : Fin 5 → Pt) := by
    have hn' := hn
    simp at hn'
    obtain ⟨⟨n1, n2, n3, n4⟩, ⟨n5, n6, n7⟩, ⟨n8, n9⟩, n10⟩ := hn'
    intro i j
    fin_cases i <;> fin_cases j <;>
      simp [n1, n2, n3, n4, n5, n6, n7, n8, n9, n10, Ne.symm n1, Ne.symm n2, Ne.symm n3, Ne.symm n4, Ne.symm n5, Ne.symm n6, Ne.symm n7,
        Ne.symm n8, Ne.symm n9, Ne.symm n10]
  have toFin : ∀ {p : Pt → Prop}, (∀ X ∈ [P, Q, R, S, T], p X) → ∀ i, p ((![P, Q, R, S, T] : Fin 5 → Pt) i) := by
    intro p h i
    fin_cases i
    · exact h P (by simp)
    · exact h Q (by simp)
    · exact h R (by simp)
    · exact h S (by simp)
    · exact h T (by simp)
  obtain ⟨E, hE⟩ : ∃ E : Ellipse, E = ⟨O, a, b, α, false⟩ := ⟨_, rfl⟩
  have hEv : E.Valid := by rw [hE]; exact ⟨ha, hb⟩
  have hErad : E.rad = α := by rw [hE]; rfl
  have hEon : ∀ X, OnE E X ↔ OnEllipse O a b α X := by
    intro X; unfold OnE; rw [hErad, hE]
  have hEall : ∀ X ∈ [P, Q, R, S, T], OnE E X := fun X hX => (hEon X).2 (hon X hX)
  have hEP := toFin hEall
  have hPm := toFin hm
  obtain ⟨q, k, hq, hk, hqk, -⟩ := C67_five_points_of_ellipse E hEv _ hinj hEP
  have hev : ∀ q', Ellipse.equation_from_five_points ![P, Q, R, S, T] = .ok q' →
      Ellipse.IsEigvals (Ellipse.eqMatrix q'.A q'.B q'.C) (env.eigvals (Ellipse.eqMatrix q.A q.B q.C)) := by
    intro q' hq'
    rw [hq] at hq'
    rw [← Except.ok.inj hq']
    exact he.eigvals _ _ _
  obtain ⟨hiff, hsame⟩ := C79_exact E hEv ![P, Q, R, S, T] hinj hEP (env.eigvals (Ellipse.eqMatrix q.A q.B q.C)) hev
  have hbase : base env [P, Q, R, S, T] =
      (Ellipse.from_five_points ![P, Q, R, S, T] (env.eigvals (Ellipse.eqMatrix q.A q.B q.C)) >>= fun e => pure (some e)) := by
    unfold base Ellipse.from_five_points
    dsimp only
    rw [hq, Res.ok_bind, Res.ok_bind]
  have hq5 : Ellipse.from_five_points ![P, Q, R, S, T] (env.eigvals (Ellipse.eqMatrix q.A q.B q.C)) =
      Ellipse.from_equation q.A q.B q.C q.D q.E q.F (env.eigvals (Ellipse.eqMatrix q.A q.B q.C)) := by
    unfold Ellipse.from_five_points
    rw [hq, Res.ok_bind]
  by_cases hgd : Guard E
  · left
    obtain ⟨e, he5⟩ := hiff.2 hgd
    obtain ⟨hv, -, heE⟩ := C79_from_five_points_partial E hEv _ hinj hEP (h45 E _ hEv hinj fun i => ⟨hPm i, hEP i⟩) _ q hq (hev q hq) e he5
    have heon : ∀ X ∈ [P, Q, R, S, T], OnE e X := fun X hX => (heE X).2 (hEall X hX)
    have huniq : ∀ (O' : Pt) (a' b' α' : ℝ), 0 < a' → 0 < b' → (∀ X ∈ [P, Q, R, S, T], OnEllipse O' a' b' α' X) →
        a' * b' = e.rmajor * e.rminor ∧ SameRegion O' a' b' α' e.center e.rmajor e.rminor e.rad := by
      intro O' a' b' α' ha' hb' h'
      have hn' := hn
      simp at hn'
      obtain ⟨⟨n1, n2, n3, n4⟩, ⟨n5, n6, n7⟩, ⟨n8, n9⟩, n10⟩ := hn'
      refine five_unique (P := ![P, Q, R, S]) (Q := T) ?_ ?_ ha' hb' ?_ (h' T (by simp)) hv.1 hv.2 ?_ (heon T (by simp))
      · intro i j
        fin_cases i <;> fin_cases j <;> simp [n1, n2, n3, n5, n6, n8, Ne.symm n1, Ne.symm n2, Ne.symm n3, Ne.symm n5, Ne.symm n6, Ne.symm n8]
      · intro i
        fin_cases i <;> simp [Ne.symm n4, Ne.symm n7, Ne.symm n9, Ne.symm n10]
      · intro i
        fin_cases i
        · exact h' P (by simp)
        · exact h' Q (by simp)
        · exact h' R (by simp)
        · exact h' S (by simp)
      · intro i
        fin_cases i
        · exact heon P (by simp)
        · exact heon Q (by simp)
        · exact heon R (by simp)
        · exact heon S (by simp)
    refine ⟨e, by rw [hbase, he5]; rfl, ⟨⟨hv.1, hv.2, ?_, heon⟩, ?_⟩, [P, Q, R, S, T], by simp, by simp, hn, hm, ⟨⟨hv.1, hv.2, by simp, heon⟩, ?_⟩, fun _ => ⟨E, hEv, hEall, hgd⟩⟩
    · intro X hX
      exact ((huniq O a b α ha hb hon).2 X).1 (hin X hX)
    · rintro O' a' b' α' ⟨ha', hb', -, h'⟩
      exact (huniq O' a' b' α' ha' hb' h').1.ge
    · rintro O' a' b' α' ⟨ha', hb', -, h'⟩
      exact (huniq O' a' b' α' ha' hb' h').1.ge
  · right
    refine ⟨?_, E, _, hEv, hinj, fun i => ⟨hPm i, hEP i⟩, hgd⟩
    refine ⟨"These parameters do not define an ellipse.", ?_⟩
    have hle : q.D * q.D + q.E * q.E ≤ 4 * (q.A + q.C) * q.F := by
      unfold Guard at hgd
      push Not at hgd
      have := mul_le_mul_of_nonneg_left hgd (sq_nonneg k)
      rw [hqk]
      dsimp only
      linarith
    rw [hbase, hq5]
    unfold Ellipse.from_equation
    rw [if_pos (Or.inr (Or.inr hle))]
    rfl

/-- A smaller problem has an ellipse through the last point. -/
theorem feas_step {ip' bp : List Pt} {p : Pt} (hl : 3 ≤ ip'.length + bp.length) (hn : (ip' ++ bp).Nodup) {D : Ellipse} (hD : IsMin ip' bp D)
    (hp : ¬ InEllipse D.center D.rmajor D.rminor D.rad p) {O : Pt} {a b α : ℝ} (hF : Feas ip' bp O a b α) (hFp : InEllipse O a b α p) :
    ∃ O' a' b' α', Feas ip' (bp ++ [p]) O' a' b' α' ∧ a' * b' ≤ a * b := by
  obtain ⟨hDf, hDmin⟩ := hD
  obtain ⟨U, V, hUV, hU, hV⟩ : ∃ U V : Pt, U ≠ V ∧ U ∈ ip' ++ bp ∧ V ∈ ip' ++ bp := by
    have hl : 3 ≤ (ip' ++ bp).length := by rw [List.length_append]; omega
    match hlist : ip' ++ bp, hl with
    | U :: V :: _, _ =>
      rw [hlist] at hn
      refine ⟨U, V, ?_, by simp, by simp⟩
      simp at hn
      exact hn.1.1
  have allIn : ∀ {O a b α}, Feas ip' bp O a b α → ∀ X ∈ ip' ++ bp, InEllipse O a b α X := by
    rintro O a b α ⟨h1, h2, h3, h4⟩ X hX
    rcases List.mem_append.1 hX with h | h
    · exact h3 X h
    · exact on_in h1 h2 (h4 X h)
  obtain ⟨O', a', b', α', ha', hb', har, hpon, hin, hon⟩ := EllPencil.pencil D.center D.rmajor D.rminor D.rad O a b α hDf.1 hDf.2.1 hF.1 hF.2.1
    (hDmin _ _ _ _ hF) U V hUV (allIn hDf U hU) (allIn hDf V hV) (allIn hF U hU) (allIn hF V hV) p hp hFp
  refine ⟨O', a', b', α', ⟨ha', hb', ?_, ?_⟩, har⟩
  · intro X hX
    exact hin X (hDf.2.2.1 X hX) (hF.2.2.1 X hX)
  · intro X hX
    rcases List.mem_append.1 hX with h | h
    · exact hon X (hDf.2.2.2 X h) (hF.2.2.2 X h)
    · rw [List.mem_singleton] at h
      rw [h]; exact hpon

/-- The recursion. -/
theorem outcome {env : Env} (he : env.Ok) {pts : List Pt} (hg : General pts)
    (h45 : ∀ (E : Ellipse) (P : Fin 5 → Pt), E.Valid → Function.Injective P → (∀ i, P i ∈ pts ∧ OnE E (P i)) →
      E.equation.A ≠ E.equation.C ∨ E.equation.B = 0) (n : ℕ) :
    ∀ (path : List Bool) (ip bp : List Pt), ip.length = n → 3 ≤ ip.length + bp.length → bp.length ≤ 5 → (ip ++ bp).Nodup →
      (∀ P ∈ ip ++ bp, P ∈ pts) → (∃ O a b α, Feas ip bp O a b α) → Outcome pts ip bp (lownerJohn env path ip bp) := by
  have five : ∀ (path : List Bool) (ip bp : List Pt), bp.length = 5 → (ip ++ bp).Nodup →
      (∀ P ∈ ip ++ bp, P ∈ pts) → (∃ O a b α, Feas ip bp O a b α) → Outcome pts ip bp (lownerJohn env path ip bp) := by
    intro path ip bp h5 hn hm hf
    obtain ⟨O, a, b, α, hf⟩ := hf
    rw [lownerJohn, dif_pos (Or.inr h5.ge)]
    match bp, h5 with
    | [P, Q, R, S, T], _ =>
      exact outcome_five he (List.nodup_append.1 hn).2.1 (fun X hX => hm X (List.mem_append_right _ hX)) hf h45
  induction n with
  | zero =>
    intro path ip bp h0 h3 h5 hn hm hf
    obtain rfl := List.length_eq_zero_iff.1 h0
    rcases Nat.lt_or_ge 3 bp.length with h | h
    · rcases Nat.lt_or_ge 4 bp.length with h' | h'
      · exact five path [] bp (by omega) hn hm hf
      · obtain ⟨O, a, b, α, hf⟩ := hf
        rw [lownerJohn, dif_pos (Or.inl h0)]
        have h4 : bp.length = 4 := by omega
        match bp, h4 with
        | [P, Q, R, S], _ => exact outcome_four he (by simpa using hn) (by simpa using hm) hf
    · exact outcome_three he hg (by simp at h3 ⊢; omega) hn hm
  | succ n ih =>
    intro path ip bp h0 h3 h5 hn hm hf
    rcases Nat.lt_or_ge 3 (ip.length + bp.length) with h | h
    swap
    · exact outcome_three he hg (by omega) hn hm
    rcases Nat.lt_or_ge 4 bp.length with h' | h'
    · exact five path ip bp (by omega) hn hm hf
    have hlt : env.randint path % ip.length < ip.length := Nat.mod_lt _ (by omega)
    obtain ⟨p, hp⟩ : ∃ p, p = ip[env.randint path % ip.length]'hlt := ⟨_, rfl⟩
    obtain ⟨ip', hip'⟩ : ∃ l, l = ip.eraseIdx (env.randint path % ip.length) := ⟨_, rfl⟩
    have hlen : ip'.length = n := by
      rw [hip', List.length_eraseIdx_of_lt hlt]; omega
    have hperm : (p :: ip').Perm ip := by rw [hp, hip']; exact (getElem_cons_eraseIdx_perm ip _ hlt).symm
    have hmem : ∀ X, X ∈ ip ↔ X = p ∨ X ∈ ip' := fun X => by rw [← hperm.mem_iff, List.mem_cons]
    have hperm2 : (ip' ++ (bp ++ [p])).Perm (ip ++ bp) := by
      rw [← List.append_assoc]
      refine (List.perm_append_singleton _ _).trans ?_
      rw [← List.cons_append]
      exact hperm.append_right bp
    have hn2 : (ip' ++ (bp ++ [p])).Nodup := hperm2.nodup_iff.2 hn
    have hn1 : (ip' ++ bp).Nodup := by
      rw [← List.append_assoc] at hn2
      exact (List.nodup_append.1 hn2).1
    have hm2 : ∀ X ∈ ip' ++ (bp ++ [p]), X ∈ pts := fun X hX => hm X (hperm2.subset hX)
    have hm1 : ∀ X ∈ ip' ++ bp, X ∈ pts := by
      intro X hX
      apply hm2
      rw [← List.append_assoc]
      exact List.mem_append_left _ hX
    have hless : ∀ {O a b α}, Feas ip bp O a b α → Feas ip' bp O a b α := by
      rintro O a b α ⟨h1, h2, h3, h4⟩
      exact ⟨h1, h2, fun X hX => h3 X ((hmem X).2 (Or.inr hX)), h4⟩
    have hrun : lownerJohn env path ip bp = (lownerJohn env (path ++ [false]) ip' bp >>= fun ellipse =>
        match ellipse with
        | some e => if e.contains p then pure (some e) else lownerJohn env (path ++ [true]) ip' (bp ++ [p])
        | none => lownerJohn env (path ++ [true]) ip' (bp ++ [p])) := by
      rw [hp, hip']
      conv_lhs => rw [lownerJohn, dif_neg (by omega)]
      rfl
    obtain ⟨O, a, b, α, hf⟩ := hf
    rw [hrun]
    rcases ih (path ++ [false]) ip' bp hlen (by omega) h5 hn1 hm1 ⟨O, a, b, α, hless hf⟩ with ⟨D, hD, ⟨hDf, hDmin⟩, hDs⟩ | ⟨⟨m, hD⟩, hbad⟩
    swap
    · right
      refine ⟨⟨m, ?_⟩, hbad⟩
      rw [hD]; rfl
    rw [hD, Res.ok_bind]
    dsimp only
    have hDv : D.Valid := ⟨hDf.1, hDf.2.1⟩
    by_cases hc : D.contains p
    · rw [if_pos hc]
      left
      refine ⟨D, rfl, ⟨⟨hDf.1, hDf.2.1, ?_, hDf.2.2.2⟩, fun O a b α h => hDmin O a b α (hless h)⟩, hDs⟩
      intro X hX
      rcases (hmem X).1 hX with rfl | h
      · exact (C64_contains D hDv _).1 hc
      · exact hDf.2.2.1 X h
    · rw [if_neg hc]
      rw [C64_contains D hDv] at hc
      have key : ∀ {O a b α}, Feas ip bp O a b α → ∃ O' a' b' α', Feas ip' (bp ++ [p]) O' a' b' α' ∧ a' * b' ≤ a * b :=
        fun hF => feas_step (by omega) hn1 ⟨hDf, hDmin⟩ hc (hless hF) (hF.2.2.1 p ((hmem p).2 (Or.inl rfl)))
      obtain ⟨O', a', b', α', hf', -⟩ := key hf
      rcases ih (path ++ [true]) ip' (bp ++ [p]) hlen (by rw [List.length_append, List.length_singleton]; omega)
        (by rw [List.length_append, List.length_singleton]; omega) hn2 hm2 ⟨O', a', b', α', hf'⟩ with ⟨D', hD', ⟨hDf', hDmin'⟩, hDs'⟩ | hbad
      · left
        refine ⟨D', hD', ⟨⟨hDf'.1, hDf'.2.1, ?_, ?_⟩, ?_⟩, hDs'⟩
        · intro X hX
          rcases (hmem X).1 hX with rfl | h
          · exact on_in hDf'.1 hDf'.2.1 (hDf'.2.2.2 X (by simp))
          · exact hDf'.2.2.1 X h
        · intro X hX
          exact hDf'.2.2.2 X (by simp [hX])
        · intro O a b α hF
          obtain ⟨O'', a'', b'', α'', hf'', har⟩ := key hF
          exact (hDmin' _ _ _ _ hf'').trans har
      · right
        exact hbad

theorem no_five {l : List Pt} (h : l.length ≤ 4) (P : Fin 5 → Pt) (hinj : Function.Injective P) (hm : ∀ i, P i ∈ l) : False := by
  have h1 : (List.ofFn P).Nodup := List.nodup_ofFn.2 hinj
  have h2 : List.ofFn P ⊆ l := by
    intro X hX
    obtain ⟨i, rfl⟩ := (List.mem_ofFn' P X).1 hX
    exact hm i
  have := (h1.subperm h2).length_le
  rw [List.length_ofFn] at this
  omega

/-- At most four points: the smallest ellipse is returned. -/
theorem outcome_le_four {env : Env} (he : env.Ok) {pts : List Pt} (hg : General pts) (path : List Bool) (ip bp : List Pt)
    (h3 : 3 ≤ ip.length + bp.length) (h4 : ip.length + bp.length ≤ 4) (hn : (ip ++ bp).Nodup) (hm : ∀ P ∈ ip ++ bp, P ∈ pts)
    (hf : ∃ O a b α, Feas ip bp O a b α) :
    ∃ e, lownerJohn env path ip bp = .ok (some e) ∧ IsMin ip bp e ∧
      ∃ B : List Pt, B.length ≤ 4 ∧ (∀ P ∈ B, P ∈ pts) ∧ IsMin [] B e := by
  have hl : (ip ++ bp).length ≤ 4 := by rw [List.length_append]; exact h4
  have hg' : General (ip ++ bp) := fun P hP Q hQ R hR => hg P (hm P hP) Q (hm Q hQ) R (hm R hR)
  rcases outcome he hg' (fun E P _ hinj h => (no_five hl P hinj fun i => (h i).1).elim) _ path ip bp rfl h3 (by omega) hn (fun P hP => hP) hf with
    ⟨e, h1, h2, B, -, -, hB, hBm, hBe, -⟩ | ⟨-, E, P, -, hinj, h, -⟩
  · exact ⟨e, h1, h2, B, ((hB.subperm hBm).length_le).trans hl, fun P hP => hm P (hBm P hP), hBe⟩
  · exact (no_five hl P hinj fun i => (h i).1).elim

/-- Five points: an ellipse determined by at most four of them, or `from_five_points` on the points in some order. -/
theorem five_run {env : Env} (he : env.Ok) {pts : List Pt} (hg : General pts) (n : ℕ) :
    ∀ (path : List Bool) (ip bp : List Pt), ip.length = n → ip.length + bp.length = 5 → (ip ++ bp).Nodup →
      (∀ P ∈ ip ++ bp, P ∈ pts) → (∃ O a b α, Feas ip bp O a b α) →
      (∃ e, lownerJohn env path ip bp = .ok (some e) ∧ IsMin ip bp e ∧
        ∃ B : List Pt, B.length ≤ 4 ∧ (∀ P ∈ B, P ∈ pts) ∧ IsMin [] B e) ∨
      ∃ B : List Pt, B.Perm (ip ++ bp) ∧ lownerJohn env path ip bp = base env B := by
  induction n with
  | zero =>
    intro path ip bp h0 h5 hn hm hf
    right
    obtain rfl := List.length_eq_zero_iff.1 h0
    exact ⟨bp, by simp, by rw [lownerJohn, dif_pos (Or.inl h0)]⟩
  | succ n ih =>
    intro path ip bp h0 h5 hn hm hf
    have hlt : env.randint path % ip.length < ip.length := Nat.mod_lt _ (by omega)
    obtain ⟨p, hp⟩ : ∃ p, p = ip[env.randint path % ip.length]'hlt := ⟨_, rfl⟩
    obtain ⟨ip', hip'⟩ : ∃ l, l = ip.eraseIdx (env.randint path % ip.length) := ⟨_, rfl⟩
    have hlen : ip'.length = n := by
      rw [hip', List.length_eraseIdx_of_lt hlt]; omega
    have hperm : (p :: ip').Perm ip := by rw [hp, hip']; exact (getElem_cons_eraseIdx_perm ip _ hlt).symm
    have hmem : ∀ X, X ∈ ip ↔ X = p ∨ X ∈ ip' := fun X => by rw [← hperm.mem_iff, List.mem_cons]
    have hperm2 : (ip' ++ (bp ++ [p])).Perm (ip ++ bp) := by
      rw [← List.append_assoc]
      refine (List.perm_append_singleton _ _).trans ?_
      rw [← List.cons_append]
      exact hperm.append_right bp
    have hn2 : (ip' ++ (bp ++ [p])).Nodup := hperm2.nodup_iff.2 hn
    have hn1 : (ip' ++ bp).Nodup := by
      rw [← List.append_assoc] at hn2
      exact (List.nodup_append.1 hn2).1
    have hm2 : ∀ X ∈ ip' ++ (bp ++ [p]), X ∈ pts := fun X hX => hm X (hperm2.subset hX)
    have hm1 : ∀ X ∈ ip' ++ bp, X ∈ pts := by
      intro X hX
      apply hm2
      rw [← List.append_assoc]
      exact List.mem_append_left _ hX
    have hless : ∀ {O a b α}, Feas ip bp O a b α → Feas ip' bp O a b α := by
      rintro O a b α ⟨h1, h2, h3, h4⟩
      exact ⟨h1, h2, fun X hX => h3 X ((hmem X).2 (Or.inr hX)), h4⟩
    have hrun : lownerJohn env path ip bp = (lownerJohn env (path ++ [false]) ip' bp >>= fun ellipse =>
        match ellipse with
        | some e => if e.contains p then pure (some e) else lownerJohn env (path ++ [true]) ip' (bp ++ [p])
        | none => lownerJohn env (path ++ [true]) ip' (bp ++ [p])) := by
      rw [hp, hip']
      conv_lhs => rw [lownerJohn, dif_neg (by omega)]
      rfl
    obtain ⟨O, a, b, α, hf⟩ := hf
    rw [hrun]
    obtain ⟨D, hD, hDM, hDs⟩ := outcome_le_four he hg (path ++ [false]) ip' bp (by omega) (by omega) hn1 hm1 ⟨O, a, b, α, hless hf⟩
    have hDM' := hDM
    obtain ⟨hDf, hDmin⟩ := hDM
    rw [hD, Res.ok_bind]
    dsimp only
    have hDv : D.Valid := ⟨hDf.1, hDf.2.1⟩
    by_cases hc : D.contains p
    · rw [if_pos hc]
      left
      refine ⟨D, rfl, ⟨⟨hDf.1, hDf.2.1, ?_, hDf.2.2.2⟩, fun O a b α h => hDmin O a b α (hless h)⟩, hDs⟩
      intro X hX
      rcases (hmem X).1 hX with rfl | h
      · exact (C64_contains D hDv _).1 hc
      · exact hDf.2.2.1 X h
    · rw [if_neg hc]
      rw [C64_contains D hDv] at hc
      have key : ∀ {O a b α}, Feas ip bp O a b α → ∃ O' a' b' α', Feas ip' (bp ++ [p]) O' a' b' α' ∧ a' * b' ≤ a * b :=
        fun hF => feas_step (by omega) hn1 hDM' hc (hless hF) (hF.2.2.1 p ((hmem p).2 (Or.inl rfl)))
      obtain ⟨O', a', b', α', hf', -⟩ := key hf
      rcases ih (path ++ [true]) ip' (bp ++ [p]) hlen (by rw [List.length_append, List.length_singleton]; omega) hn2 hm2 ⟨O', a', b', α', hf'⟩ with
        ⟨D', hD', ⟨hDf', hDmin'⟩, hDs'⟩ | ⟨B, hB, hrun'⟩
      · left
        refine ⟨D', hD', ⟨⟨hDf'.1, hDf'.2.1, ?_, ?_⟩, ?_⟩, hDs'⟩
        · intro X hX
          rcases (hmem X).1 hX with rfl | h
          · exact on_in hDf'.1 hDf'.2.1 (hDf'.2.2.2 X (by simp))
          · exact hDf'.2.2.1 X h
        · intro X hX
          exact hDf'.2.2.2 X (by simp [hX])
        · intro O a b α hF
          obtain ⟨O'', a'', b'', α'', hf'', har⟩ := key hF
          exact (hDmin' _ _ _ _ hf'').trans har
      · right
        exact ⟨B, hB.trans hperm2, hrun'⟩

/-- Five points whose smallest ellipse is not determined by four of them. -/
theorem five_forced {env : Env} (he : env.Ok) {pts : List Pt} (h5 : pts.length = 5) (hn : pts.Nodup) (hg : General pts) {k : ℝ}
    (hk : ∃ O a b α, Feas pts [] O a b α ∧ a * b = k) (hmin : ∀ O a b α, Feas pts [] O a b α → k ≤ a * b)
    (hsm : ∀ X ∈ pts, ∃ O a b α, Feas [] (pts.erase X) O a b α ∧ a * b < k) :
    ∃ B : List Pt, B.Perm pts ∧ lownerJohn env [] pts [] = base env B := by
  obtain ⟨O, a, b, α, hf, hab⟩ := hk
  rcases five_run he hg 5 [] pts [] h5 (by simpa using h5) (by simpa using hn) (by simp) ⟨O, a, b, α, hf⟩ with
    ⟨e, -, ⟨hef, hemin⟩, B, hB4, hBm, -, hBmin⟩ | ⟨B, hB, hrun⟩
  · exfalso
    obtain ⟨X, hX, hXB⟩ : ∃ X ∈ pts, X ∉ B := by
      by_contra hcon
      push Not at hcon
      have := (hn.subperm hcon).length_le
      omega
    obtain ⟨O', a', b', α', ⟨ha', hb', -, hon⟩, hlt⟩ := hsm X hX
    have h1 := hBmin O' a' b' α' ⟨ha', hb', by simp, fun Y hY => hon Y ((List.mem_erase_of_ne (by rintro rfl; exact hXB hY)).2 (hBm Y hY))⟩
    have h2 := hmin _ _ _ _ hef
    linarith
  · exact ⟨B, by simpa using hB, hrun⟩

end LJ4
