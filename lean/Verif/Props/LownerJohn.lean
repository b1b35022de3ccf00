import Verif.Props.Minimal

/-!
# C74: when does `LownerJohnEllipse` return an ellipse?  Four points; dependence on the random choices
-/

open Spec Real Classical Ellipse

namespace Spec

/-- `X` has barycentric coordinates `u`, `v`, `w` with `uv + vw + wu ≥ 0` with respect to `P`, `Q`, `R`: the region bounded by the
circumscribed Steiner ellipse. -/
def InSteiner (P Q R X : Pt) : Prop :=
  ∃ u v w : ℝ, u + v + w = 1 ∧ X = ⟨u * P.x + v * Q.x + w * R.x, u * P.y + v * Q.y + w * R.y⟩ ∧ 0 ≤ u * v + v * w + w * u

theorem inSteiner_perm {a b c P Q R X : Pt} (h : [a, b, c].Perm [P, Q, R]) (hX : InSteiner a b c X) : InSteiner P Q R X := by
  obtain ⟨u, v, w, hs, rfl, hp⟩ := hX
  rcases perm_three h with h | h | h | h | h | h <;> simp only [Prod.mk.injEq] at h <;> obtain ⟨rfl, rfl, rfl⟩ := h
  · exact ⟨u, v, w, by linarith, by ext <;> simp, by linarith⟩
  · exact ⟨u, w, v, by linarith, by ext <;> simp <;> ring, by linarith⟩
  · exact ⟨v, u, w, by linarith, by ext <;> simp <;> ring, by linarith⟩
  · exact ⟨v, w, u, by linarith, by ext <;> simp <;> ring, by linarith⟩
  · exact ⟨w, u, v, by linarith, by ext <;> simp <;> ring, by linarith⟩
  · exact ⟨w, v, u, by linarith, by ext <;> simp <;> ring, by linarith⟩

end Spec

namespace LJ

theorem nrm_comb (O : Pt) (a b α : ℝ) (P Q R : Pt) (u v w : ℝ) (h : u + v + w = 1) :
    MinEll.nrm O a b α ⟨u * P.x + v * Q.x + w * R.x, u * P.y + v * Q.y + w * R.y⟩ =
      ⟨u * (MinEll.nrm O a b α P).x + v * (MinEll.nrm O a b α Q).x + w * (MinEll.nrm O a b α R).x,
       u * (MinEll.nrm O a b α P).y + v * (MinEll.nrm O a b α Q).y + w * (MinEll.nrm O a b α R).y⟩ := by
  have hw : w = 1 - u - v := by linarith
  subst hw
  unfold MinEll.nrm axisCoord
  ext <;> simp <;> ring

/-- What `from_boundary3` returns contains exactly the points of `InSteiner`. -/
theorem contains_iff (eigh : Matrix (Fin 2) (Fin 2) ℝ → Ellipse.Eigh) (heigh : ∀ S, Ellipse.IsEigh S (eigh S)) (P Q R : Pt)
    (h : ¬ Collinear P Q R) (e : Ellipse) (he : from_boundary3 eigh P Q R = .ok e) (X : Pt) :
    e.contains X ↔ InSteiner P Q R X := by
  obtain ⟨e', he', hv, -, hc, hP, hQ, hR⟩ := C73_from_boundary3_partial eigh heigh P Q R h
  obtain rfl : e' = e := by rw [he'] at he; exact Except.ok.inj he
  rw [C64_contains _ hv, MinEll.inEllipse_nrm]
  have hcen := MinEll.nrm_center e'.center e'.rmajor e'.rminor e'.rad P Q R hc
  have hp := MinEll.onE_nrm e' hv P hP
  have hq := MinEll.onE_nrm e' hv Q hQ
  have hr := MinEll.onE_nrm e' hv R hR
  have key : ∀ u v w : ℝ, u + v + w = 1 → X = ⟨u * P.x + v * Q.x + w * R.x, u * P.y + v * Q.y + w * R.y⟩ →
      ((MinEll.nrm e'.center e'.rmajor e'.rminor e'.rad X).x ^ 2 + (MinEll.nrm e'.center e'.rmajor e'.rminor e'.rad X).y ^ 2 ≤ 1 ↔
        0 ≤ u * v + v * w + w * u) := by
    intro u v w hs hX
    rw [hX, nrm_comb _ _ _ _ _ _ _ _ _ _ hs]
    obtain ⟨h1, -⟩ := MinEll.unit_triangle _ _ _ hp hq hr hcen.1 hcen.2
    obtain ⟨h2, -⟩ := MinEll.unit_triangle _ _ _ hq hr hp (by linarith [hcen.1]) (by linarith [hcen.2])
    obtain ⟨h3, -⟩ := MinEll.unit_triangle _ _ _ hr hp hq (by linarith [hcen.1]) (by linarith [hcen.2])
    generalize MinEll.nrm e'.center e'.rmajor e'.rminor e'.rad P = p at *
    generalize MinEll.nrm e'.center e'.rmajor e'.rminor e'.rad Q = q at *
    generalize MinEll.nrm e'.center e'.rmajor e'.rminor e'.rad R = r at *
    have hval : (u * p.x + v * q.x + w * r.x) ^ 2 + (u * p.y + v * q.y + w * r.y) ^ 2 = 1 - 3 * (u * v + v * w + w * u) := by
      have e1 : (u * p.x + v * q.x + w * r.x) ^ 2 + (u * p.y + v * q.y + w * r.y) ^ 2 =
          u ^ 2 + v ^ 2 + w ^ 2 - (u * v + v * w + w * u) := by
        linear_combination u ^ 2 * hp + v ^ 2 * hq + w ^ 2 * hr + 2 * u * v * h1 + 2 * v * w * h2 + 2 * w * u * h3
      rw [e1]
      linear_combination (u + v + w + 1) * hs
    show (u * p.x + v * q.x + w * r.x) ^ 2 + (u * p.y + v * q.y + w * r.y) ^ 2 ≤ 1 ↔ _
    rw [hval]
    constructor <;> intro h <;> linarith
  constructor
  · intro hX
    unfold Spec.Collinear at h
    refine ⟨cross (Q - X) (R - X) / cross (Q - P) (R - P), cross (R - X) (P - X) / cross (Q - P) (R - P),
      cross (P - X) (Q - X) / cross (Q - P) (R - P), ?_⟩
    have h1 : cross (Q - X) (R - X) / cross (Q - P) (R - P) + cross (R - X) (P - X) / cross (Q - P) (R - P) +
        cross (P - X) (Q - X) / cross (Q - P) (R - P) = 1 := by
      rw [← add_div, ← add_div, div_eq_one_iff_eq h]
      unfold cross; simp; ring
    have h2 : X = ⟨cross (Q - X) (R - X) / cross (Q - P) (R - P) * P.x + cross (R - X) (P - X) / cross (Q - P) (R - P) * Q.x +
        cross (P - X) (Q - X) / cross (Q - P) (R - P) * R.x, cross (Q - X) (R - X) / cross (Q - P) (R - P) * P.y +
        cross (R - X) (P - X) / cross (Q - P) (R - P) * Q.y + cross (P - X) (Q - X) / cross (Q - P) (R - P) * R.y⟩ := by
      ext <;> simp only <;> rw [div_mul_eq_mul_div, div_mul_eq_mul_div, div_mul_eq_mul_div, ← add_div, ← add_div, eq_div_iff h] <;>
        unfold cross <;> simp <;> ring
    exact ⟨h1, h2, (key _ _ _ h1 h2).1 hX⟩
  · rintro ⟨u, v, w, hs, hX, hp⟩
    exact (key u v w hs hX).2 hp

end LJ

/-- The points are distinct and no three of them are collinear. -/
def Spec.GeneralPosition (L : List Pt) : Prop :=
  L.Nodup ∧ ∀ P ∈ L, ∀ Q ∈ L, ∀ R ∈ L, P ≠ Q → Q ≠ R → P ≠ R → ¬ Collinear P Q R

theorem LJ.general {L : List Pt} (h : GeneralPosition L) {P Q R : Pt} {rest : List Pt} (hp : L.Perm (P :: Q :: R :: rest)) :
    ¬ Collinear P Q R := by
  have hn := hp.nodup_iff.1 h.1
  simp only [List.nodup_cons, List.mem_cons, not_or] at hn
  exact h.2 P (hp.mem_iff.2 (by simp)) Q (hp.mem_iff.2 (by simp)) R (hp.mem_iff.2 (by simp)) hn.1.1 hn.2.1.1 hn.1.2.1

/-- C74: four points, no three of them collinear, whatever the random choices: `LownerJohnEllipse` returns an ellipse exactly when
one of the four points is in the ellipse through the other three that is centered at their centroid; otherwise it raises. -/
theorem C74_four_points (env : LJEnv) (heigh : ∀ S, IsEigh S (env.eigh S)) (points : List Pt) (h4 : points.length = 4)
    (hg : GeneralPosition points) :
    ((∃ e, lownerJohn env [] points [] = .ok (some e)) ↔
      ∃ P Q R X, points.Perm [P, Q, R, X] ∧ InSteiner P Q R X) ∧
    (lownerJohn env [] points [] ≠ .ok none) := by
  -- a step of the recursion
  have step : ∀ (n : ℕ) (path : List Bool) (ip bp : List Pt), ip.length = n + 1 → (ip ++ bp).Perm points →
      ∃ p ip', ip.Perm (p :: ip') ∧ ∃ P Q R, points.Perm [P, Q, R, p] ∧
        ((InSteiner P Q R p ∧ ∃ e, lownerJohn env path ip bp = .ok (some e)) ∨
         (¬ InSteiner P Q R p ∧ lownerJohn env path ip bp = lownerJohn env (path ++ [true]) ip' (bp ++ [p]))) := by
    intro n path ip bp h1 h2
    have hlen2 : ip.length + bp.length = 4 := by rw [← List.length_append, h2.length_eq, h4]
    have hlt : env.randint path % ip.length < ip.length := Nat.mod_lt _ (by omega)
    have hperm := getElem_cons_eraseIdx_perm ip _ hlt
    rw [lownerJohn, dif_neg (by omega)]
    dsimp only
    generalize hpdef : ip[env.randint path % ip.length]'hlt = p at hperm ⊢
    have hlen : (ip.eraseIdx (env.randint path % ip.length)).length = n := by
      rw [List.length_eraseIdx_of_lt hlt]; omega
    generalize ip.eraseIdx (env.randint path % ip.length) = ip' at *
    obtain ⟨P, Q, R, hPQR, hrec⟩ := lj_three env n (path ++ [false]) ip' bp hlen (by omega)
    have hall : points.Perm [P, Q, R, p] := by
      refine h2.symm.trans ((hperm.append_right bp).trans ?_)
      rw [List.cons_append]
      exact (hPQR.cons p).trans (List.perm_append_singleton p [P, Q, R]).symm
    have hcol := LJ.general hg hall
    obtain ⟨e, he, -⟩ := C73_from_boundary3_partial env.eigh heigh P Q R hcol
    refine ⟨p, ip', hperm, P, Q, R, hall, ?_⟩
    rw [hrec, he]
    simp only [Res.ok_bind, show ∀ x : Option Ellipse, (pure x : Res (Option Ellipse)) = .ok x from fun _ => rfl]
    by_cases hc : e.contains p
    · left
      rw [if_pos hc]
      exact ⟨(LJ.contains_iff env.eigh heigh P Q R hcol e he p).1 hc, e, rfl⟩
    · right
      rw [if_neg hc]
      exact ⟨fun h => hc ((LJ.contains_iff env.eigh heigh P Q R hcol e he p).2 h), rfl⟩
  -- all the points tried so far were outside
  have main : ∀ (n : ℕ) (path : List Bool) (ip bp : List Pt), ip.length = n → (ip ++ bp).Perm points →
      (∀ b ∈ bp, ∀ P Q R, points.Perm [P, Q, R, b] → ¬ InSteiner P Q R b) →
      ((∃ e, lownerJohn env path ip bp = .ok (some e)) ∧ ∃ P Q R X, points.Perm [P, Q, R, X] ∧ InSteiner P Q R X) ∨
      ((∃ err, lownerJohn env path ip bp = .error err) ∧ ∀ b ∈ points, ∀ P Q R, points.Perm [P, Q, R, b] → ¬ InSteiner P Q R b) := by
    intro n
    induction n with
    | zero =>
      intro path ip bp h1 h2 hb
      right
      obtain rfl := List.length_eq_zero_iff.1 h1
      simp only [List.nil_append] at h2
      exact ⟨lj_four env 0 path [] bp rfl (by rw [h2.length_eq, h4]), fun b hbm => hb b (h2.mem_iff.2 hbm)⟩
    | succ n ih =>
      intro path ip bp h1 h2 hb
      obtain ⟨p, ip', hperm, P, Q, R, hall, ⟨hin, hret⟩ | ⟨hout, hret⟩⟩ := step n path ip bp h1 h2
      · exact Or.inl ⟨hret, P, Q, R, p, hall, hin⟩
      · rw [hret]
        refine ih _ _ _ (by have := hperm.length_eq; simp at this; omega) ?_ ?_
        · refine List.Perm.trans ?_ h2
          rw [← List.append_assoc]
          refine (List.perm_append_singleton _ _).trans ?_
          rw [← List.cons_append]
          exact (hperm.append_right bp).symm
        · intro b hbm P' Q' R' hall'
          rcases List.mem_append.1 hbm with hbm | hbm
          · exact hb b hbm P' Q' R' hall'
          · obtain rfl := List.mem_singleton.1 hbm
            intro h
            refine hout (inSteiner_perm ?_ h)
            have := hall'.symm.trans hall
            exact (List.perm_append_right_iff [b]).1 (by simpa using this)
  rcases main 4 [] points [] h4 (by simp) (by simp) with ⟨⟨e, he⟩, hex⟩ | ⟨⟨err, he⟩, hno⟩
  · exact ⟨⟨fun _ => hex, fun _ => ⟨e, he⟩⟩, by rw [he]; simp⟩
  · refine ⟨⟨?_, ?_⟩, by rw [he]; simp⟩
    · rintro ⟨e, he'⟩
      rw [he] at he'
      exact absurd he' (by simp)
    · rintro ⟨P, Q, R, X, hp, hin⟩
      exact absurd hin (hno X (hp.mem_iff.2 (by simp)) P Q R hp)

/-- Four points of each kind: with `(1/4, 1/3)` an ellipse is returned; the unit square, for which none is, is in `C74_parallelogram_counterexample`. -/
example : GeneralPosition [⟨0, 0⟩, ⟨1, 0⟩, ⟨0, 1⟩, ⟨1 / 4, 1 / 3⟩] ∧ InSteiner ⟨0, 0⟩ ⟨1, 0⟩ ⟨0, 1⟩ ⟨1 / 4, 1 / 3⟩ := by
  refine ⟨⟨?_, ?_⟩, 5 / 12, 1 / 4, 1 / 3, by norm_num, by ext <;> simp, by norm_num⟩
  · simp [Pt.ext_iff]
  · intro P hP Q hQ R hR
    simp only [List.mem_cons, List.not_mem_nil, or_false] at hP hQ hR
    unfold Spec.Collinear cross
    rcases hP with rfl | rfl | rfl | rfl <;> rcases hQ with rfl | rfl | rfl | rfl <;> rcases hR with rfl | rfl | rfl | rfl <;>
      simp [Pt.ext_iff] <;> norm_num

/-- C74 is false as stated: three non-collinear points and a fourth one on an edge.  One random schedule returns the ellipse,
another one raises. -/
theorem C74_schedule_counterexample (A B C M : Pt) (h : ¬ Collinear A B C) (t : ℝ) (h0 : 0 ≤ t) (h1 : t ≤ 1)
    (hM : M = (1 - t) • A + t • B) (env : LJEnv) (heigh : ∀ S, IsEigh S (env.eigh S)) :
    (env.randint [] = 3 → ∃ e, lownerJohn env [] [A, B, C, M] [] = .ok (some e)) ∧
    (env.randint [] = 2 → lownerJohn env [] [A, B, C, M] [] = .error .linAlgError) := by
  constructor
  · intro hr
    rw [lownerJohn, dif_neg (by simp)]
    dsimp only
    obtain ⟨P, Q, R, hp, hrec⟩ := lj_three env 3 ([] ++ [false]) [A, B, C] [] rfl rfl
    have hi : env.randint [] % [A, B, C, M].length = 3 := by rw [hr]; rfl
    simp only [hi, List.eraseIdx, List.getElem_cons_succ, List.getElem_cons_zero]
    rw [hrec]
    have hcol : ¬ Collinear P Q R := fun hc => h ((collinear_perm (by simpa using hp)).2 hc)
    obtain ⟨e, he, -⟩ := C73_from_boundary3_partial env.eigh heigh P Q R hcol
    rw [he]
    simp only [Res.ok_bind, show ∀ x : Option Ellipse, (pure x : Res (Option Ellipse)) = .ok x from fun _ => rfl]
    rw [if_pos]
    · exact ⟨e, rfl⟩
    · rw [LJ.contains_iff env.eigh heigh P Q R hcol e he]
      refine inSteiner_perm (by simpa using hp) ⟨1 - t, t, 0, by ring, by rw [hM]; ext <;> simp, ?_⟩
      nlinarith
  · intro hr
    rw [lownerJohn, dif_neg (by simp)]
    dsimp only
    obtain ⟨P, Q, R, hp, hrec⟩ := lj_three env 3 ([] ++ [false]) [A, B, M] [] rfl rfl
    have hi : env.randint [] % [A, B, C, M].length = 2 := by rw [hr]; rfl
    simp only [hi, List.eraseIdx, List.getElem_cons_succ, List.getElem_cons_zero]
    rw [hrec, C73_collinear]
    · rfl
    · refine (collinear_perm (by simpa using hp)).1 ?_
      unfold Spec.Collinear cross
      rw [hM]
      simp
      ring

/-- The two schedules exist, and a repeated point (`t = 0`) is enough: the docstring only asks for three distinct points. -/
example : ∃ env env' : LJEnv, (∀ S, IsEigh S (env.eigh S)) ∧ (∀ S, IsEigh S (env'.eigh S)) ∧ env.randint [] = 3 ∧ env'.randint [] = 2 :=
  ⟨⟨fun S => (exists_eigh S).choose, fun _ => (0, 0), fun _ => Equiv.refl _, fun _ => 3⟩,
   ⟨fun S => (exists_eigh S).choose, fun _ => (0, 0), fun _ => Equiv.refl _, fun _ => 2⟩,
   fun S => (exists_eigh S).choose_spec, fun S => (exists_eigh S).choose_spec, rfl, rfl⟩
