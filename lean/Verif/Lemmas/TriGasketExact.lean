import Verif.Lemmas.TriGasketMalfatti
import Verif.Props.LineExact

/-! When the steps of the triangular gasket succeed. -/

open Spec Real Classical GV

namespace Spec

/-- The ratio of two consecutive circles in an angle with vertex `A`, the first one being `c`. -/
noncomputable def cornerRatio (A : Pt) (c : Circle) : ℝ := (Spec.dist A c.center - c.radius) / (Spec.dist A c.center + c.radius)

/-- The image of `c` by the homothety with center `A` and ratio `cornerRatio A c ^ k`. -/
noncomputable def cornerCircle (A : Pt) (c : Circle) (k : ℕ) : Circle :=
  ⟨A + (cornerRatio A c ^ k) • (c.center - A), cornerRatio A c ^ k * c.radius⟩

end Spec

namespace TriGasket

/-- The lines drawn in the corner are accepted: the points are not `np.allclose`, the tangent at the point nearest to `A` is neither equal nor parallel
to a side within the tolerances. -/
def CornerFine (A B C : Pt) (c : Circle) : Prop :=
  let P := c.center + (c.radius / Spec.dist A c.center) • (A - c.center)
  let Q := P + ⟨-(P - c.center).y, (P - c.center).x⟩
  ¬ allclose P Q ∧ ¬ allclose A B ∧ ¬ allclose A C ∧
  ∀ X, X = B ∨ X = C → ¬ (⟨P, Q, true, true⟩ : Line).is_equal ⟨A, X, true, true⟩ ∧ 1 / 2 ^ 26 ≤ |cross (Q - P) (X - A)|

variable {A B C u w : Pt} {σ γ β κ : ℝ}

theorem Corner.dist_center (h : Corner A B C u w σ γ β κ) {l : ℝ} (hl : 0 < l) : Spec.dist A (A + l • u) = l := by
  have uu := h.uu
  unfold dot at uu
  rw [dist_eq_iff hl.le]
  simp only [sqDist, Pt.add_x, Pt.add_y, Pt.smul_x, Pt.smul_y]
  linear_combination l ^ 2 * uu

theorem Corner.cornerCircle (h : Corner A B C u w σ γ β κ) {l : ℝ} (hl : 0 < l) (k : ℕ) :
    cornerCircle A ⟨A + l • u, σ * l⟩ k = ⟨A + (((1 - σ) / (1 + σ)) ^ k * l) • u, σ * (((1 - σ) / (1 + σ)) ^ k * l)⟩ := by
  have hσ := h.hσ
  have : cornerRatio A ⟨A + l • u, σ * l⟩ = (1 - σ) / (1 + σ) := by
    unfold cornerRatio
    dsimp only
    rw [h.dist_center hl]
    field_simp
  unfold Spec.cornerCircle
  rw [this]
  dsimp only
  congr 1
  · ext <;> simp <;> ring
  · ring

theorem Corner.ratio_pos (h : Corner A B C u w σ γ β κ) : 0 < (1 - σ) / (1 + σ) := by
  have := h.hσ
  have := h.σ_lt
  have : 0 < 1 - σ := by linarith
  positivity

theorem Corner.fine_iff (h : Corner A B C u w σ γ β κ) {l : ℝ} (hl : 0 < l) :
    CornerFine A B C ⟨A + l • u, σ * l⟩ ↔
      ¬ allclose (A + (l - σ * l) • u) (A + (l - σ * l) • u + (σ * l) • (⟨u.y, -u.x⟩ : Pt)) ∧ ¬ allclose A B ∧ ¬ allclose A C ∧
      ∀ X, X = B ∨ X = C →
        ¬ (⟨A + (l - σ * l) • u, A + (l - σ * l) • u + (σ * l) • (⟨u.y, -u.x⟩ : Pt), true, true⟩ : Line).is_equal ⟨A, X, true, true⟩ ∧
        1 / 2 ^ 26 ≤ |cross ((σ * l) • (⟨u.y, -u.x⟩ : Pt)) (X - A)| := by
  have e1 : A + l • u + ((σ * l) / l) • (A - (A + l • u)) = A + (l - σ * l) • u := by
    ext
    · simp; field_simp; ring
    · simp; field_simp; ring
  have e2 : (⟨-(A + (l - σ * l) • u - (A + l • u)).y, (A + (l - σ * l) • u - (A + l • u)).x⟩ : Pt) = (σ * l) • (⟨u.y, -u.x⟩ : Pt) := by
    ext
    · simp; ring
    · simp; ring
  have e3 : A + (l - σ * l) • u + (σ * l) • (⟨u.y, -u.x⟩ : Pt) - (A + (l - σ * l) • u) = (σ * l) • (⟨u.y, -u.x⟩ : Pt) := by
    ext <;> simp
  unfold CornerFine
  dsimp only
  rw [h.dist_center hl, e1, e2, e3]

/-- The step in the corner succeeds exactly when the lines are accepted. -/
theorem Corner.ok_iff (h : Corner A B C u w σ γ β κ) {l : ℝ} (hl : 0 < l) :
    (∃ st, side_side_circle A B C ⟨A + l • u, σ * l⟩ = .ok st) ↔ CornerFine A B C ⟨A + l • u, σ * l⟩ := by
  rw [h.fine_iff hl, corner_point h hl]
  have par : ∀ P τ X : Pt, (⟨P, P + τ, true, true⟩ : Line).is_parallel ⟨A, X, true, true⟩ ↔ ¬ 1 / 2 ^ 26 ≤ |cross τ (X - A)| := by
    intro P τ X
    unfold Line.is_parallel det2x2_ sepsilon_
    dsimp only
    rw [not_le]
    have : (P.x - (P + τ).x) * (A.y - X.y) - (A.x - X.x) * (P.y - (P + τ).y) = cross τ (X - A) := by
      simp only [cross, Pt.add_x, Pt.add_y, Pt.sub_x, Pt.sub_y]; ring
    rw [this]
  constructor
  · rintro ⟨st, hr⟩
    obtain ⟨tg, e1, hr⟩ := Res.bind_ok.1 hr
    obtain ⟨l1, e2, hr⟩ := Res.bind_ok.1 hr
    obtain ⟨l2, e3, hr⟩ := Res.bind_ok.1 hr
    obtain ⟨T, e4, hr⟩ := Res.bind_ok.1 hr
    obtain ⟨n1, rfl⟩ := mkLine_ok.1 e1
    obtain ⟨n2, rfl⟩ := mkLine_ok.1 e2
    obtain ⟨n3, rfl⟩ := mkLine_ok.1 e3
    refine ⟨n1, n3, n2, ?_⟩
    have key : ∀ X, X = B ∨ X = C → Line.intersection_line_line ⟨A + (l - σ * l) • u, A + (l - σ * l) • u + (σ * l) • (⟨u.y, -u.x⟩ : Pt), true, true⟩
        ⟨A, X, true, true⟩ ≠ none := by
      rintro X (rfl | rfl) hn
      · rw [hn] at e4
        cases hq : Line.intersection_line_line ⟨A + (l - σ * l) • u, A + (l - σ * l) • u + (σ * l) • (⟨u.y, -u.x⟩ : Pt), true, true⟩ ⟨A, C, true, true⟩ <;>
          rw [hq] at e4 <;> simp [mkTriangleO] at e4
      · rw [hn] at e4
        simp [mkTriangleO] at e4
    intro X hX
    have := key X hX
    rw [Ne, C12_intersection_none_iff, par] at this
    tauto
  · rintro ⟨n1, n3, n2, hX⟩
    have key : ∀ X, X = B ∨ X = C → ∃ I, Line.intersection_line_line
        ⟨A + (l - σ * l) • u, A + (l - σ * l) • u + (σ * l) • (⟨u.y, -u.x⟩ : Pt), true, true⟩ ⟨A, X, true, true⟩ = some I := by
      intro X hX'
      obtain ⟨x1, x2⟩ := hX X hX'
      rw [← Option.ne_none_iff_exists', Ne, C12_intersection_none_iff, par]
      simp [x1, x2]
      simpa using x2
    obtain ⟨P1, q1⟩ := key C (.inr rfl)
    obtain ⟨P2, q2⟩ := key B (.inl rfl)
    have hσ := h.hσ
    have hγ := h.hγ
    have h1 := h.σ_lt
    have ht : 0 < l * (1 - σ) / γ := by
      have : 0 < 1 - σ := by linarith
      positivity
    have m1 := corner_meet h hl rfl n1 n2 q1
    have m2 := corner_meet h.mirror hl rfl n1 n3 q2
    have m3 : A + (l * (1 - σ) / γ) • (γ • u + σ • -w) = A + (l * (1 - σ) / γ) • (γ • u - σ • w) := by
      ext <;> simp only [Pt.add_x, Pt.add_y, Pt.smul_x, Pt.smul_y, Pt.sub_x, Pt.sub_y, Pt.neg_x, Pt.neg_y] <;> ring
    have i := corner_incircle h ht
    rw [← m1, ← m3, ← m2] at i
    rw [mkLine_ok.2 ⟨n1, rfl⟩, Res.ok_bind, mkLine_ok.2 ⟨n2, rfl⟩, Res.ok_bind, mkLine_ok.2 ⟨n3, rfl⟩, Res.ok_bind, q1, q2]
    unfold mkTriangleO
    dsimp only
    rw [Res.ok_bind, i, Res.ok_bind]
    exact ⟨_, rfl⟩

theorem Corner.cross_B (h : Corner A B C u w σ γ β κ) (l : ℝ) : cross ((σ * l) • (⟨u.y, -u.x⟩ : Pt)) (B - A) = σ * l * (γ * β) := by
  have uu := h.uu
  have uw := h.uw
  unfold dot at uu uw
  rw [h.hB]
  simp only [cross, Pt.add_x, Pt.add_y, Pt.sub_x, Pt.sub_y, Pt.smul_x, Pt.smul_y]
  linear_combination σ * l * β * γ * uu - σ * l * β * σ * uw

/-- The messages of the errors in a corner. -/
def cornerErrs : List Err :=
  [.valueError "`A` and `B` must be distinct.", .valueError "`B` is not a point.", .valueError "`C` is not a point."]

/-- A result which, if it is an error, is one of `cornerErrs`. -/
def OnlyCorner {α : Type} (r : Res α) : Prop := ∀ e, r = .error e → e ∈ cornerErrs

theorem OnlyCorner.bind {α β : Type} {r : Res α} {f : α → Res β} (h1 : OnlyCorner r) (h2 : ∀ a, r = .ok a → OnlyCorner (f a)) : OnlyCorner (r >>= f) := by
  cases r with
  | error e =>
    intro e' he
    rw [Res.error_bind] at he
    cases he
    exact h1 _ rfl
  | ok a => rw [Res.ok_bind]; exact h2 a rfl

theorem OnlyCorner.ok {α : Type} (a : α) : OnlyCorner (.ok a : Res α) := by intro e he; cases he

theorem OnlyCorner.mapM {α β : Type} {f : α → Res β} {L : List α} (h : ∀ a ∈ L, OnlyCorner (f a)) : OnlyCorner (L.mapM f) := by
  induction L with
  | nil => exact OnlyCorner.ok _
  | cons a L ih =>
    rw [List.mapM_cons]
    refine (h a List.mem_cons_self).bind fun b _ => (ih fun x hx => h x (List.mem_cons_of_mem _ hx)).bind fun bs _ => OnlyCorner.ok _

theorem onlyCorner_mkLine (A B : Pt) : OnlyCorner (mkLine A B) := by
  intro e he
  unfold mkLine at he
  split_ifs at he
  · cases he; exact List.mem_cons_self

theorem Corner.only (h : Corner A B C u w σ γ β κ) {l : ℝ} (hl : 0 < l) : OnlyCorner (side_side_circle A B C ⟨A + l • u, σ * l⟩) := by
  rw [corner_point h hl]
  refine (onlyCorner_mkLine _ _).bind fun tg e1 => (onlyCorner_mkLine _ _).bind fun l1 e2 => (onlyCorner_mkLine _ _).bind fun l2 e3 => ?_
  obtain ⟨n1, rfl⟩ := mkLine_ok.1 e1
  obtain ⟨n2, rfl⟩ := mkLine_ok.1 e2
  obtain ⟨n3, rfl⟩ := mkLine_ok.1 e3
  have hσ := h.hσ
  have hγ := h.hγ
  have h1 := h.σ_lt
  have ht : 0 < l * (1 - σ) / γ := by
    have : 0 < 1 - σ := by linarith
    positivity
  cases q1 : Line.intersection_line_line ⟨A + (l - σ * l) • u, A + (l - σ * l) • u + (σ * l) • (⟨u.y, -u.x⟩ : Pt), true, true⟩ ⟨A, C, true, true⟩ with
  | none =>
    unfold mkTriangleO
    dsimp only
    rw [Res.error_bind]
    intro e he
    cases he
    simp [cornerErrs]
  | some P1 =>
    cases q2 : Line.intersection_line_line ⟨A + (l - σ * l) • u, A + (l - σ * l) • u + (σ * l) • (⟨u.y, -u.x⟩ : Pt), true, true⟩ ⟨A, B, true, true⟩ with
    | none =>
      unfold mkTriangleO
      dsimp only
      rw [Res.error_bind]
      intro e he
      cases he
      simp [cornerErrs]
    | some P2 =>
      have m1 := corner_meet h hl rfl n1 n2 q1
      have m2 := corner_meet h.mirror hl rfl n1 n3 q2
      have m3 : A + (l * (1 - σ) / γ) • (γ • u + σ • -w) = A + (l * (1 - σ) / γ) • (γ • u - σ • w) := by
        ext <;> simp only [Pt.add_x, Pt.add_y, Pt.smul_x, Pt.smul_y, Pt.sub_x, Pt.sub_y, Pt.neg_x, Pt.neg_y] <;> ring
      have i := corner_incircle h ht
      rw [← m1, ← m3, ← m2] at i
      unfold mkTriangleO
      dsimp only
      rw [Res.ok_bind, i, Res.ok_bind]
      exact OnlyCorner.ok _

theorem fill_only {h : Hole} {W : List GV} {R : Set Pt} (hh : HoleIs h W R) : OnlyCorner (fill h) := by
  cases h with
  | ccc c1 c2 c3 => obtain ⟨st, e, -⟩ := fill_ccc hh; rw [e]; exact OnlyCorner.ok _
  | ccl cA cB A B => obtain ⟨st, e, -⟩ := fill_ccl hh; rw [e]; exact OnlyCorner.ok _
  | cll A B C c =>
    obtain ⟨u, w, σ, γ, β, κ, m, h, hm, rfl, -⟩ := hh
    have := h.hσ
    exact h.only (by positivity)

/-- The data of a corner: its vertex, a point on each side, and the first circle. -/
abbrev Vtx := Pt × Pt × Pt × Circle

/-- The circle of `v` is in the angle and touches both sides. -/
def VtxOk (v : Vtx) : Prop :=
  ∃ (u w : Pt) (σ γ β κ l : ℝ), Corner v.1 v.2.1 v.2.2.1 u w σ γ β κ ∧ 0 < l ∧ v.2.2.2 = ⟨v.1 + l • u, σ * l⟩

/-- The hole of the corner after `k` passes. -/
noncomputable def vhole (v : Vtx) (k : ℕ) : Hole := .cll v.1 v.2.1 v.2.2.1 (cornerCircle v.1 v.2.2.2 k)

theorem VtxOk.ok_iff {v : Vtx} (h : VtxOk v) (k : ℕ) :
    (∃ st, fill (vhole v k) = .ok st) ↔ CornerFine v.1 v.2.1 v.2.2.1 (cornerCircle v.1 v.2.2.2 k) := by
  obtain ⟨u, w, σ, γ, β, κ, l, h, hl, e⟩ := h
  have hr := h.ratio_pos
  unfold vhole fill
  dsimp only
  rw [e, h.cornerCircle hl]
  exact h.ok_iff (by positivity)

theorem VtxOk.next {v : Vtx} (h : VtxOk v) {k : ℕ} {st : Step} (hf : fill (vhole v k) = .ok st) :
    ∃ a b A B C D E F, st.holes = [vhole v (k + 1), .ccl A B a C, .ccl D E b F] := by
  obtain ⟨u, w, σ, γ, β, κ, l, h, hl, e⟩ := h
  have hr := h.ratio_pos
  unfold vhole fill at hf
  dsimp only at hf
  rw [e, h.cornerCircle hl] at hf
  have := corner_ok h (by positivity) hf
  unfold vhole
  rw [this, e, h.cornerCircle hl, pow_succ, mul_comm (_ ^ k) ((1 - σ) / (1 + σ)), mul_assoc]
  exact ⟨_, _, _, _, _, _, _, _, rfl⟩

/-- The corner holes of a list are those of the vertices `V`, after `k` passes. -/
def Corners (V : List Vtx) (k : ℕ) (Hs : List Hole) : Prop :=
  (∀ h ∈ Hs, (∀ A B C c, h ≠ .cll A B C c) ∨ ∃ v ∈ V, h = vhole v k) ∧ ∀ v ∈ V, vhole v k ∈ Hs

theorem fill_not_cll {h : Hole} {st : Step} (hh : ∀ A B C c, h ≠ .cll A B C c) (hf : fill h = .ok st) :
    ∀ h' ∈ st.holes, ∀ A B C c, h' ≠ .cll A B C c := by
  have key : ∀ A B cA cB, side_circle_circle0 A B cA cB = .ok st → ∀ h' ∈ st.holes, ∀ A B C c, h' ≠ .cll A B C c := by
    intro A B cA cB hf
    unfold side_circle_circle0 at hf
    dsimp only at hf
    obtain ⟨_, _, hf⟩ := Res.bind_ok.1 hf
    obtain ⟨_, _, hf⟩ := Res.bind_ok.1 hf
    obtain ⟨_, _, hf⟩ := Res.bind_ok.1 hf
    obtain ⟨_, _, hf⟩ := Res.bind_ok.1 hf
    obtain ⟨_, _, hf⟩ := Res.bind_ok.1 hf
    split_ifs at hf
    all_goals
      obtain ⟨_, _, hf⟩ := Res.bind_ok.1 hf
      obtain ⟨_, _, hf⟩ := Res.bind_ok.1 hf
      obtain ⟨_, _, hf⟩ := Res.bind_ok.1 hf
      rw [← Res.pure_ok.1 hf]
      simp
  cases h with
  | ccc c1 c2 c3 =>
    unfold fill innerSoddyCircle at hf
    dsimp only at hf
    obtain ⟨_, _, hf⟩ := Res.bind_ok.1 hf
    obtain ⟨⟨_, _⟩, _, hf⟩ := Res.bind_ok.1 hf
    obtain ⟨_, _, hf⟩ := Res.bind_ok.1 hf
    rw [← Res.pure_ok.1 hf]
    simp
  | ccl cA cB A B =>
    unfold fill side_circle_circle at hf
    dsimp only at hf
    split_ifs at hf
    · exact key _ _ _ _ hf
    · exact key _ _ _ _ hf
  | cll A B C c => exact absurd rfl (hh A B C c)

theorem Corners.step {V : List Vtx} (hV : ∀ v ∈ V, VtxOk v) {k : ℕ} {Hs : List Hole} (h : Corners V k Hs) {sts : List Step}
    (hs : List.Forall₂ (fun h st => fill h = .ok st) Hs sts) : Corners V (k + 1) (sts.flatMap Step.holes) := by
  constructor
  · intro h' hh'
    obtain ⟨st, hst, hm⟩ := List.mem_flatMap.1 hh'
    obtain ⟨i, hi, rfl⟩ := List.getElem_of_mem hst
    have hi' : i < Hs.length := by rw [hs.length_eq]; exact hi
    have hf := List.forall₂_iff_get.1 hs |>.2 i hi' hi
    simp only [List.get_eq_getElem] at hf
    rcases h.1 _ (List.getElem_mem hi') with hn | ⟨v, hv, e⟩
    · exact .inl (fill_not_cll hn hf h' hm)
    · rw [e] at hf
      obtain ⟨a, b, A, B, C, D, E, F, e⟩ := (hV v hv).next hf
      rw [e] at hm
      simp only [List.mem_cons, List.not_mem_nil, or_false] at hm
      rcases hm with rfl | rfl | rfl
      · exact .inr ⟨v, hv, rfl⟩
      · exact .inl (by simp)
      · exact .inl (by simp)
  · intro v hv
    obtain ⟨i, hi, e⟩ := List.getElem_of_mem (h.2 v hv)
    have hi' : i < sts.length := by rw [← hs.length_eq]; exact hi
    have hf := List.forall₂_iff_get.1 hs |>.2 i hi hi'
    simp only [List.get_eq_getElem] at hf
    rw [e] at hf
    obtain ⟨a, b, A, B, C, D, E, F, e⟩ := (hV v hv).next hf
    exact List.mem_flatMap.2 ⟨_, List.getElem_mem hi', by rw [e]; exact List.mem_cons_self⟩

/-- All the holes can be filled exactly when the corners can. -/
theorem Corners.fill_iff {V : List Vtx} (hV : ∀ v ∈ V, VtxOk v) {k : ℕ} {Hs : List Hole} (h : Corners V k Hs)
    (hh : ∀ h ∈ Hs, ∃ W R, HoleIs h W R) :
    (∃ sts, List.Forall₂ (fun h st => fill h = .ok st) Hs sts) ↔ ∀ v ∈ V, CornerFine v.1 v.2.1 v.2.2.1 (cornerCircle v.1 v.2.2.2 k) := by
  constructor
  · rintro ⟨sts, hs⟩ v hv
    rw [← (hV v hv).ok_iff]
    obtain ⟨i, hi, e⟩ := List.getElem_of_mem (h.2 v hv)
    have hi' : i < sts.length := by rw [← hs.length_eq]; exact hi
    have hf := List.forall₂_iff_get.1 hs |>.2 i hi hi'
    simp only [List.get_eq_getElem] at hf
    rw [e] at hf
    exact ⟨_, hf⟩
  · intro hf
    have each : ∀ h' ∈ Hs, ∃ st, fill h' = .ok st := by
      intro h' hm
      rcases h.1 h' hm with hn | ⟨v, hv, rfl⟩
      · obtain ⟨W, R, hW⟩ := hh h' hm
        cases h' with
        | ccc c1 c2 c3 => obtain ⟨st, e, -⟩ := fill_ccc hW; exact ⟨st, e⟩
        | ccl cA cB A B => obtain ⟨st, e, -⟩ := fill_ccl hW; exact ⟨st, e⟩
        | cll A B C c => exact absurd rfl (hn A B C c)
      · exact ((hV v hv).ok_iff k).2 (hf v hv)
    clear h hh hf
    induction Hs with
    | nil => exact ⟨[], .nil⟩
    | cons a l ih =>
      obtain ⟨st, e⟩ := each a List.mem_cons_self
      obtain ⟨sts, hs⟩ := ih fun x hx => each x (List.mem_cons_of_mem _ hx)
      exact ⟨st :: sts, .cons e hs⟩

theorem mapM_of_forall2 {sts sts' : List Step} (h : List.Forall₂ (fun h st => fill h = .ok st) (sts.flatMap Step.holes) sts') :
    ∃ Hs, sts.mapM new_holes = .ok Hs ∧ Hs.flatten = sts' := by
  have key : ∀ (l : List Hole) (r : List Step), List.Forall₂ (fun h st => fill h = .ok st) l r → l.mapM fill = .ok r := by
    intro l r hr
    induction hr with
    | nil => rfl
    | cons a b ih => rw [List.mapM_cons, a, Res.ok_bind, ih, Res.ok_bind]; rfl
  induction sts generalizing sts' with
  | nil => rw [List.flatMap_nil] at h; cases h; exact ⟨[], rfl, rfl⟩
  | cons a l ih =>
    rw [List.flatMap_cons] at h
    obtain ⟨r1, r2, h1, h2, rfl⟩ : ∃ r1 r2, List.Forall₂ (fun h st => fill h = .ok st) a.holes r1 ∧
        List.Forall₂ (fun h st => fill h = .ok st) (l.flatMap Step.holes) r2 ∧ r1 ++ r2 = sts' :=
      ⟨_, _, (List.forall₂_take_append _ _ _ h.flip).flip, (List.forall₂_drop_append _ _ _ h.flip).flip, List.take_append_drop _ _⟩
    obtain ⟨Hs, e, rfl⟩ := ih h2
    exact ⟨r1 :: Hs, by rw [List.mapM_cons, new_holes, key _ _ h1, Res.ok_bind, e, Res.ok_bind]; rfl, rfl⟩

theorem Inv.isHole {T : Set Pt} {S : List GV} {first drawn : List Circle} {Hs : List Hole} (h : Inv T S first drawn Hs) :
    ∀ h ∈ Hs, ∃ W R, HoleIs h W R := by
  obtain ⟨⟨L, l1, -⟩, -⟩ := h
  intro h hh
  obtain ⟨i, hi, rfl⟩ := List.getElem_of_mem hh
  have hi' : i < L.length := by rw [← l1.length_eq]; exact hi
  exact ⟨_, _, List.forall₂_iff_get.1 l1 |>.2 i hi hi'⟩

/-- The passes finish exactly when the corners can be filled each time. -/
theorem passes_iff {V : List Vtx} (hV : ∀ v ∈ V, VtxOk v) {T : Set Pt} {S : List GV} {first : List Circle} {d : ℕ} :
    ∀ {drawn : List Circle} {sts : List Step} {k : ℕ}, Inv T S first drawn (sts.flatMap Step.holes) → Corners V k (sts.flatMap Step.holes) →
    ((∃ L, passes d (first ++ drawn) sts = .ok L) ↔
      ∀ j < d, ∀ v ∈ V, CornerFine v.1 v.2.1 v.2.2.1 (cornerCircle v.1 v.2.2.2 (k + j))) := by
  induction d with
  | zero => intro drawn sts k _ _; exact ⟨fun _ j hj => absurd hj (Nat.not_lt_zero j), fun _ => ⟨_, rfl⟩⟩
  | succ d ih =>
    intro drawn sts k inv cor
    have hi := cor.fill_iff hV inv.isHole
    constructor
    · rintro ⟨L, hp⟩
      rw [passes] at hp
      obtain ⟨Hs, e, hp⟩ := Res.bind_ok.1 hp
      have f := forall2_of_mapM e
      rw [List.append_assoc] at hp
      have := (ih (inv.step f) (cor.step hV f)).1 ⟨L, hp⟩
      rintro (_ | j) hj
      · exact hi.1 ⟨_, f⟩
      · have := this j (by omega)
        rwa [show k + 1 + j = k + (j + 1) by ring] at this
    · intro hf
      obtain ⟨sts', f⟩ := hi.2 (hf 0 (Nat.succ_pos d))
      obtain ⟨Hs, e, rfl⟩ := mapM_of_forall2 f
      obtain ⟨L, hp⟩ := (ih (inv.step f) (cor.step hV f)).2 fun j hj => by
        have := hf (j + 1) (by omega)
        rwa [show k + (j + 1) = k + 1 + j by ring] at this
      refine ⟨L, ?_⟩
      rw [passes, e, Res.ok_bind, List.append_assoc]
      exact hp

theorem passes_only {T : Set Pt} {S : List GV} {first : List Circle} {d : ℕ} :
    ∀ {drawn : List Circle} {sts : List Step}, Inv T S first drawn (sts.flatMap Step.holes) → OnlyCorner (passes d (first ++ drawn) sts) := by
  induction d with
  | zero => intro drawn sts _; exact OnlyCorner.ok _
  | succ d ih =>
    intro drawn sts inv
    rw [passes]
    refine OnlyCorner.bind (OnlyCorner.mapM fun st hst => OnlyCorner.mapM fun h hh => ?_) fun Hs e => ?_
    · obtain ⟨W, R, hW⟩ := inv.isHole h (List.mem_flatMap.2 ⟨st, hst, hh⟩)
      exact fill_only hW
    · rw [List.append_assoc]
      exact ih (inv.step (forall2_of_mapM e))

end TriGasket
