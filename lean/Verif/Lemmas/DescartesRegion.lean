import Verif.Lemmas.Descartes
import Verif.Lemmas.GasketFrame

/-! Vectors as regions of the plane with the point at infinity, inversions as reflections, and four mutually tangent regions with the four mirrors
that are orthogonal to three of them. -/

open Spec Real Classical

namespace GV
noncomputable section

/-- The value at a point of the plane with the point at infinity: negative inside. -/
def xev (X : GV) : XPt → ℝ
  | .fin P => ev X P
  | .inf => X 0

/-- The region of a vector. -/
def region (X : GV) : Region := ⟨{p | xev X p < 0}, {p | xev X p = 0}⟩

theorem xev_add (X Y : GV) (p : XPt) : xev (X + Y) p = xev X p + xev Y p := by
  cases p with
  | fin P => exact ev_add X Y P
  | inf => rfl

theorem region_circ {c : Circle} (hc : c.Valid) : region (circ c) = disc c := by
  have hr : 0 < c.radius := hc
  refine Region.ext ?_ ?_
  · ext p
    cases p with
    | inf =>
      simp only [mem_disc_inf, iff_false]
      change ¬ (1 / c.radius < 0)
      have : 0 < 1 / c.radius := by positivity
      linarith
    | fin P => rw [mem_disc_fin]; exact ev_circ_neg hc P
  · ext p
    cases p with
    | inf =>
      simp only [mem_edge_inf, iff_false]
      change ¬ (1 / c.radius = 0)
      exact ne_of_gt (by positivity)
    | fin P =>
      rw [mem_edge_fin]
      change ev (circ c) P = 0 ↔ _
      have := ev_circ hc P
      constructor
      · intro h; rw [h, zero_mul] at this; linarith
      · intro h
        rw [h, sub_self] at this
        rcases mul_eq_zero.1 this with h | h
        · exact h
        · exact absurd h hr.ne'

theorem xev_neg (X : GV) (p : XPt) : xev (-X) p = -xev X p := by
  cases p with
  | fin P => simp only [xev, ev, Pi.neg_apply]; ring
  | inf => rfl

theorem region_neg_circ {c : Circle} (hc : c.Valid) : region (-circ c) = outside c := by
  have h := region_circ hc
  have h1 : {p | xev (circ c) p < 0} = (disc c).inside := congrArg Region.inside h
  have h2 : {p | xev (circ c) p = 0} = (disc c).edge := congrArg Region.edge h
  refine Region.ext ?_ ?_
  · rw [outside_inside, ← h1, ← h2]
    ext p
    simp only [region, xev_neg, Set.mem_setOf_eq, Set.mem_compl_iff, Set.mem_union, not_or]
    constructor
    · intro hp
      exact ⟨by linarith, by linarith⟩
    · rintro ⟨a, b⟩
      have := lt_of_le_of_ne (not_lt.1 a) (Ne.symm b)
      linarith
  · change {p | xev (-circ c) p = 0} = (disc c).edge
    rw [← h2]
    ext p
    simp only [xev_neg, Set.mem_setOf_eq, neg_eq_zero]

/-- Away from each other: the sum of the values is nowhere negative. -/
theorem sum_nonneg {X Y : GV} (h : pr (X + Y) (X + Y) ≤ 0) (h0 : 0 < X 0 + Y 0) (p : XPt) : 0 ≤ xev X p + xev Y p := by
  cases p with
  | inf => exact h0.le
  | fin P =>
    change 0 ≤ ev X P + ev Y P
    have : (X 0 + Y 0) * (ev X P + ev Y P) = ((X 0 + Y 0) * P.x - (X 2 + Y 2)) ^ 2 + ((X 0 + Y 0) * P.y - (X 3 + Y 3)) ^ 2 -
        pr (X + Y) (X + Y) := by
      unfold ev pr
      simp only [Pi.add_apply]
      ring
    by_contra hc
    push Not at hc
    nlinarith [sq_nonneg ((X 0 + Y 0) * P.x - (X 2 + Y 2)), sq_nonneg ((X 0 + Y 0) * P.y - (X 3 + Y 3))]

theorem region_apart {X Y : GV} (h : ∀ p, 0 ≤ xev X p + xev Y p) : (region X).Apart (region Y) := by
  refine Set.disjoint_left.2 ?_
  intro p hp hq
  have := h p
  change xev X p < 0 at hp
  change xev Y p < 0 at hq
  linarith

/-- Tangent regions have exactly one common point on their edges. -/
theorem region_touches {X Y : GV} (hX : pr X X = 1) (hY : pr Y Y = 1) (h : pr X Y = -1) (h0 : 0 < X 0 + Y 0) :
    (region X).Touches (region Y) := by
  have hn : (X 2 + Y 2) ^ 2 + (X 3 + Y 3) ^ 2 = (X 0 + Y 0) * (X 1 + Y 1) := by
    unfold pr at hX hY h
    linear_combination hX + hY + 2 * h
  have key : ∀ P, (X 0 + Y 0) * (ev X P + ev Y P) = ((X 0 + Y 0) * P.x - (X 2 + Y 2)) ^ 2 + ((X 0 + Y 0) * P.y - (X 3 + Y 3)) ^ 2 := by
    intro P
    unfold ev
    linear_combination -hn
  obtain ⟨K, hK⟩ : ∃ K, K = X 0 + Y 0 := ⟨_, rfl⟩
  have hK0 : K ≠ 0 := by rw [hK]; exact h0.ne'
  refine ⟨.fin ⟨(X 2 + Y 2) / K, (X 3 + Y 3) / K⟩, ⟨?_, ?_⟩, ?_⟩
  · change ev X _ = 0
    have e : pr X X + pr X Y = 0 := by rw [hX, h]; ring
    unfold pr at e
    unfold ev
    dsimp only
    have : K ^ 2 * (X 0 * (((X 2 + Y 2) / K) ^ 2 + ((X 3 + Y 3) / K) ^ 2) - 2 * (X 2 * ((X 2 + Y 2) / K) + X 3 * ((X 3 + Y 3) / K)) + X 1) = 0 := by
      field_simp
      rw [hK]
      linear_combination X 0 * hn - 2 * (X 0 + Y 0) * e
    rcases mul_eq_zero.1 this with h' | h'
    · exact absurd h' (pow_ne_zero 2 hK0)
    · exact h'
  · change ev Y _ = 0
    have e : pr Y Y + pr X Y = 0 := by rw [hY, h]; ring
    unfold pr at e
    unfold ev
    dsimp only
    have : K ^ 2 * (Y 0 * (((X 2 + Y 2) / K) ^ 2 + ((X 3 + Y 3) / K) ^ 2) - 2 * (Y 2 * ((X 2 + Y 2) / K) + Y 3 * ((X 3 + Y 3) / K)) + Y 1) = 0 := by
      field_simp
      rw [hK]
      linear_combination Y 0 * hn - 2 * (X 0 + Y 0) * e
    rcases mul_eq_zero.1 this with h' | h'
    · exact absurd h' (pow_ne_zero 2 hK0)
    · exact h'
  · rintro p ⟨h1, h2⟩
    change xev X p = 0 at h1
    change xev Y p = 0 at h2
    cases p with
    | inf =>
      change X 0 = 0 at h1
      change Y 0 = 0 at h2
      linarith
    | fin P =>
      change ev X P = 0 at h1
      change ev Y P = 0 at h2
      have hk := key P
      rw [h1, h2, ← hK] at hk
      have e1 : K * P.x - (X 2 + Y 2) = 0 := by nlinarith [sq_nonneg (K * P.x - (X 2 + Y 2)), sq_nonneg (K * P.y - (X 3 + Y 3))]
      have e2 : K * P.y - (X 3 + Y 3) = 0 := by nlinarith [sq_nonneg (K * P.x - (X 2 + Y 2)), sq_nonneg (K * P.y - (X 3 + Y 3))]
      congr 1
      ext
      · dsimp only; rw [eq_div_iff hK0]; linarith
      · dsimp only; rw [eq_div_iff hK0]; linarith

/-! ### Inversions as reflections -/

/-- The reflection in `m`. -/
def reflect (m X : GV) : GV := X - (2 * pr X m) • m

/-- The inversion in the circle of `m`. -/
def inv (m : GV) : Inversion := ⟨⟨m 2 / m 0, m 3 / m 0⟩, 1 / m 0 ^ 2⟩

/-- An inversion multiplies the values by a positive number. -/
theorem xev_reflect {m : GV} (hm : pr m m = 1) (h0 : m 0 ≠ 0) (X : GV) (p : XPt) :
    ∃ t, 0 < t ∧ xev (reflect m X) (mirror (inv m) p) = t * xev X p := by
  obtain ⟨k, hk⟩ : ∃ k, k = m 0 := ⟨_, rfl⟩
  rw [← hk] at h0
  obtain ⟨u, hu⟩ : ∃ u, u = m 2 / k := ⟨_, rfl⟩
  obtain ⟨v, hv⟩ : ∃ v, v = m 3 / k := ⟨_, rfl⟩
  obtain ⟨κ, hκ⟩ : ∃ κ, κ = 1 / k ^ 2 := ⟨_, rfl⟩
  have h2 : m 2 = k * u := by rw [hu]; field_simp
  have h3 : m 3 = k * v := by rw [hv]; field_simp
  have hkκ : k ^ 2 * κ = 1 := by rw [hκ]; field_simp
  have hκ0 : 0 < κ := by rw [hκ]; positivity
  have h1 : m 1 = k * (u ^ 2 + v ^ 2 - κ) := by
    apply mul_left_cancel₀ h0
    unfold pr at hm
    rw [← hk, h2, h3] at hm
    linear_combination -hm + hkκ
  have hO : (inv m).pole = ⟨u, v⟩ := by unfold inv; rw [← hk, ← hu, ← hv]
  have hP : (inv m).power = κ := by unfold inv; rw [← hk, ← hκ]
  obtain ⟨F, hF⟩ : ∃ F, F = 2 * X 2 * u + 2 * X 3 * v - X 0 * (u ^ 2 + v ^ 2 - κ) - X 1 := ⟨_, rfl⟩
  have hpr : 2 * pr X m = k * F := by
    unfold pr
    rw [← hk, h1, h2, h3, hF]
    ring
  have r0 : κ * reflect m X 0 = κ * X 0 - F := by
    simp only [reflect, Pi.sub_apply, Pi.smul_apply, smul_eq_mul, hpr]
    rw [← hk]; linear_combination (-F) * hkκ
  have r1 : κ * reflect m X 1 = κ * X 1 - F * (u ^ 2 + v ^ 2 - κ) := by
    simp only [reflect, Pi.sub_apply, Pi.smul_apply, smul_eq_mul, hpr]
    rw [h1]; linear_combination (-F * (u ^ 2 + v ^ 2 - κ)) * hkκ
  have r2 : κ * reflect m X 2 = κ * X 2 - F * u := by
    simp only [reflect, Pi.sub_apply, Pi.smul_apply, smul_eq_mul, hpr]
    rw [h2]; linear_combination (-F * u) * hkκ
  have r3 : κ * reflect m X 3 = κ * X 3 - F * v := by
    simp only [reflect, Pi.sub_apply, Pi.smul_apply, smul_eq_mul, hpr]
    rw [h3]; linear_combination (-F * v) * hkκ
  unfold mirror
  rw [hO, hP]
  cases p with
  | inf =>
    refine ⟨κ, hκ0, ?_⟩
    change ev (reflect m X) ⟨u, v⟩ = κ * X 0
    apply mul_left_cancel₀ hκ0.ne'
    unfold ev
    dsimp only
    linear_combination (u ^ 2 + v ^ 2) * r0 - 2 * u * r2 - 2 * v * r3 + r1 + κ * hF
  | fin P =>
    by_cases h : P = ⟨u, v⟩
    · subst h
      refine ⟨1 / κ, by positivity, ?_⟩
      simp only [xinv, if_true]
      change reflect m X 0 = 1 / κ * ev X ⟨u, v⟩
      rw [eq_comm, one_div, inv_mul_eq_iff_eq_mul₀ hκ0.ne']
      unfold ev
      dsimp only
      linear_combination -r0 + hF
    · have hq : 0 < sqDist P ⟨u, v⟩ := sqDist_pos h
      refine ⟨κ / sqDist P ⟨u, v⟩, by positivity, ?_⟩
      simp only [xinv, if_neg h]
      obtain ⟨s, hs⟩ : ∃ s, s = κ / sqDist P ⟨u, v⟩ := ⟨_, rfl⟩
      have hsq : s * sqDist P ⟨u, v⟩ = κ := by rw [hs]; exact div_mul_cancel₀ _ hq.ne'
      rw [← hs]
      change ev (reflect m X) _ = s * ev X P
      unfold sqDist at hsq
      dsimp only at hsq
      apply mul_left_cancel₀ hκ0.ne'
      unfold ev
      simp only [Pt.add_x, Pt.add_y, Pt.smul_x, Pt.smul_y, Pt.sub_x, Pt.sub_y]
      linear_combination ((u + s * (P.x - u)) ^ 2 + (v + s * (P.y - v)) ^ 2) * r0 - 2 * (u + s * (P.x - u)) * r2 - 2 * (v + s * (P.y - v)) * r3 + r1 +
        (-F * s + κ * X 0 * (s - 1)) * hsq + κ * (1 - s) * hF

theorem pr_neg (X Y : GV) : pr (-X) Y = -pr X Y := by unfold pr; simp only [Pi.neg_apply]; ring

theorem pr_sub (X Y Z : GV) : pr (X - Y) Z = pr X Z - pr Y Z := by unfold pr; simp only [Pi.sub_apply]; ring

theorem pr_sub' (X Y Z : GV) : pr X (Y - Z) = pr X Y - pr X Z := by unfold pr; simp only [Pi.sub_apply]; ring

theorem reflect_fix {m X : GV} (h : pr X m = 0) : reflect m X = X := by unfold reflect; rw [h, mul_zero, zero_smul, sub_zero]

theorem reflect_self {m : GV} (hm : pr m m = 1) : reflect m m = -m := by
  unfold reflect; rw [hm]; ext i; simp only [Pi.sub_apply, Pi.smul_apply, smul_eq_mul, Pi.neg_apply]; ring

theorem inv_power_pos {m : GV} (h0 : m 0 ≠ 0) : 0 < (inv m).power := by unfold inv; positivity

/-- The image of a region. -/
theorem image_gv {m : GV} (hm : pr m m = 1) (h0 : m 0 ≠ 0) (X : GV) : (region X).image (mirror (inv m)) = region (reflect m X) := by
  have hinv := xinv_involutive (inv m).pole (inv_power_pos h0).ne'
  refine Region.ext ?_ ?_
  · refine image_eq_of hinv ?_
    intro p
    obtain ⟨t, ht, e⟩ := xev_reflect hm h0 X p
    change xev X p < 0 ↔ xev (reflect m X) (mirror (inv m) p) < 0
    rw [e]
    constructor
    · intro h; exact mul_neg_of_pos_of_neg ht h
    · intro h; by_contra hc; push Not at hc; have := mul_nonneg ht.le hc; linarith
  · refine image_eq_of hinv ?_
    intro p
    obtain ⟨t, ht, e⟩ := xev_reflect hm h0 X p
    change xev X p = 0 ↔ xev (reflect m X) (mirror (inv m) p) = 0
    rw [e, mul_eq_zero, or_iff_right ht.ne']

/-- A set where `m` is positive goes where `m` is negative. -/
theorem image_into {m : GV} (hm : pr m m = 1) (h0 : m 0 ≠ 0) {A : Region} (h : ∀ p ∈ A.inside, 0 < xev m p) :
    (A.image (mirror (inv m))).inside ⊆ (region m).inside := by
  rintro _ ⟨p, hp, rfl⟩
  obtain ⟨t, ht, e⟩ := xev_reflect hm h0 m p
  rw [reflect_self hm, xev_neg] at e
  have := mul_pos ht (h p hp)
  change xev m _ < 0
  linarith

/-! ### Four mutually tangent regions -/

/-- Four mutually tangent regions. -/
structure Four (v : Fin 4 → GV) : Prop where
  self : ∀ i, pr (v i) (v i) = 1
  tangent : ∀ i j, i ≠ j → pr (v i) (v j) = -1
  pos : ∀ i j, i ≠ j → 0 < v i 0 + v j 0

/-- The mirror orthogonal to three of the four. -/
def mir (v : Fin 4 → GV) (i : Fin 4) : GV := (1 / 2 : ℝ) • (v 0 + v 1 + v 2 + v 3) - v i

namespace Four
variable {v : Fin 4 → GV}

theorem pr_sum (h : Four v) (i : Fin 4) : pr (v 0 + v 1 + v 2 + v 3) (v i) = -2 := by
  simp only [pr_add]
  fin_cases i <;> simp only [h.self, h.tangent, Fin.zero_eta, Fin.mk_one, Fin.reduceFinMk, ne_eq, Fin.reduceEq, not_false_eq_true] <;> norm_num

theorem pr_sum_sum (h : Four v) : pr (v 0 + v 1 + v 2 + v 3) (v 0 + v 1 + v 2 + v 3) = -8 := by
  rw [pr_add', pr_add', pr_add', h.pr_sum, h.pr_sum, h.pr_sum, h.pr_sum]; norm_num

theorem mir_v (h : Four v) (i j : Fin 4) : pr (mir v i) (v j) = if i = j then -2 else 0 := by
  unfold mir
  rw [pr_sub, pr_smul, h.pr_sum]
  split
  · next e => rw [e, h.self]; norm_num
  · next e => rw [h.tangent _ _ e]; norm_num

theorem mir_mir (h : Four v) (i j : Fin 4) : pr (mir v i) (mir v j) = if i = j then 1 else -1 := by
  have e : pr (mir v i) (v 0 + v 1 + v 2 + v 3) = -2 := by
    unfold mir
    rw [pr_sub, pr_smul, h.pr_sum_sum, pr_comm, h.pr_sum]; norm_num
  have : pr (mir v i) (mir v j) = (1 / 2) * pr (mir v i) (v 0 + v 1 + v 2 + v 3) - pr (mir v i) (v j) := by
    have e2 : mir v j = (1 / 2 : ℝ) • (v 0 + v 1 + v 2 + v 3) - v j := rfl
    rw [e2, pr_sub', pr_smul']
  rw [this, e, h.mir_v]
  split <;> norm_num

theorem mir_sum_pos (h : Four v) (i j : Fin 4) (hij : i ≠ j) : 0 < mir v i 0 + mir v j 0 := by
  have p01 := h.pos 0 1 (by decide)
  have p02 := h.pos 0 2 (by decide)
  have p03 := h.pos 0 3 (by decide)
  have p12 := h.pos 1 2 (by decide)
  have p13 := h.pos 1 3 (by decide)
  have p23 := h.pos 2 3 (by decide)
  unfold mir
  simp only [Pi.sub_apply, Pi.smul_apply, Pi.add_apply, smul_eq_mul]
  fin_cases i <;> fin_cases j <;> simp only [Fin.zero_eta, Fin.mk_one, Fin.reduceFinMk, ne_eq, not_true_eq_false] at hij ⊢ <;> linarith

/-- The regions of the mirrors are away from each other. -/
theorem mir_apart (h : Four v) {i j : Fin 4} (hij : i ≠ j) (p : XPt) : 0 ≤ xev (mir v i) p + xev (mir v j) p := by
  refine sum_nonneg ?_ (h.mir_sum_pos i j hij) p
  rw [pr_add, pr_add', pr_add', h.mir_mir, h.mir_mir, h.mir_mir, h.mir_mir, if_pos rfl, if_neg hij, if_neg (Ne.symm hij), if_pos rfl]
  norm_num

/-- The regions are away from each other. -/
theorem v_apart (h : Four v) {i j : Fin 4} (hij : i ≠ j) (p : XPt) : 0 ≤ xev (v i) p + xev (v j) p := by
  refine sum_nonneg ?_ (h.pos i j hij) p
  rw [pr_add, pr_add', pr_add', h.self, h.self, h.tangent _ _ hij, h.tangent _ _ (Ne.symm hij)]
  norm_num

/-- A region is away from its mirror. -/
theorem mir_v_apart (h : Four v) (i : Fin 4) (p : XPt) : 0 ≤ xev (mir v i) p + xev (v i) p := by
  refine sum_nonneg ?_ ?_ p
  · rw [pr_add, pr_add', pr_add', h.mir_mir, h.self, pr_comm (v i) (mir v i), h.mir_v, if_pos rfl, if_pos rfl]
    norm_num
  · have p01 := h.pos 0 1 (by decide)
    have p23 := h.pos 2 3 (by decide)
    unfold mir
    simp only [Pi.sub_apply, Pi.smul_apply, Pi.add_apply, smul_eq_mul]
    linarith

/-- The list of the mirrors. -/
def mirs (v : Fin 4 → GV) : List Inversion := [inv (mir v 0), inv (mir v 1), inv (mir v 2), inv (mir v 3)]

theorem mirs_get {j : ℕ} {iota : Inversion} (h : (mirs v)[j]? = some iota) : ∃ i : Fin 4, j = i ∧ iota = inv (mir v i) := by
  unfold mirs at h
  rcases j with _ | _ | _ | _ | j <;> simp at h
  · exact ⟨0, rfl, h.symm⟩
  · exact ⟨1, rfl, h.symm⟩
  · exact ⟨2, rfl, h.symm⟩
  · exact ⟨3, rfl, h.symm⟩

theorem mirs_get' (i : Fin 4) : (mirs v)[(i : ℕ)]? = some (inv (mir v i)) := by
  fin_cases i <;> rfl

/-- The region of mirror number `j`. -/
def mirW (v : Fin 4 → GV) (j : ℕ) : Region := if h : j < 4 then region (mir v ⟨j, h⟩) else ⟨∅, ∅⟩

theorem mirW_fin (i : Fin 4) : mirW v i = region (mir v i) := by
  unfold mirW; rw [dif_pos i.2]

/-- The region made by a mirror from the region it moves. -/
theorem new_sub (h : Four v) (hm : ∀ i, mir v i 0 ≠ 0) (i : Fin 4) : (region (reflect (mir v i) (v i))).inside ⊆ (region (mir v i)).inside := by
  have h1 : pr (mir v i) (mir v i) = 1 := by rw [h.mir_mir, if_pos rfl]
  rw [← image_gv h1 (hm i)]
  refine image_into h1 (hm i) ?_
  intro p hp
  have := h.mir_v_apart i p
  change xev (v i) p < 0 at hp
  linarith

/-- Four mutually tangent regions, the four mirrors and the four regions they make are a gasket. -/
theorem frame (h : Four v) (hm : ∀ i, mir v i 0 ≠ 0) {C : Fin 4 → Circle} (hC : ∀ i, (C i).Valid)
    (hCd : ∀ i, disc (C i) = region (reflect (mir v i) (v i)))
    (far : ∀ i k : Fin 4, k ≠ i → ∀ c : Circle, c.Valid → (disc c).inside ⊆ (region (mir v k)).inside → (∀ j, (disc c).Apart (region (v j))) →
      1 / 2 ^ 26 < sqDist c.center (inv (mir v i)).pole - c.radius ^ 2) :
    GasketFrame (mirs v) (mirW v) (Set.range fun i => region (v i)) [(C 0, 0), (C 1, 1), (C 2, 2), (C 3, 3)] := by
  have hn : ∀ i, pr (mir v i) (mir v i) = 1 := fun i => by rw [h.mir_mir, if_pos rfl]
  have hlen : (mirs v).length = 4 := rfl
  have him : ∀ i j : Fin 4, i ≠ j → (region (v j)).image (mirror (inv (mir v i))) = region (v j) := by
    intro i j hij
    rw [image_gv (hn i) (hm i), reflect_fix]
    rw [pr_comm, h.mir_v, if_neg hij]
  have hiv : ∀ i : Fin 4, Function.Involutive (mirror (inv (mir v i))) := fun i => xinv_involutive _ (inv_power_pos (hm i)).ne'
  have hmem : ∀ p ∈ [(C 0, 0), (C 1, 1), (C 2, 2), (C 3, 3)], ∃ i : Fin 4, p = (C i, (i : ℕ)) := by
    intro p hp
    simp only [List.mem_cons, List.not_mem_nil, or_false] at hp
    rcases hp with rfl | rfl | rfl | rfl
    exacts [⟨0, rfl⟩, ⟨1, rfl⟩, ⟨2, rfl⟩, ⟨3, rfl⟩]
  have hmem' : ∀ i : Fin 4, (C i, (i : ℕ)) ∈ [(C 0, 0), (C 1, 1), (C 2, 2), (C 3, 3)] := by
    intro i; fin_cases i <;> simp
  have hW : ∀ i j : Fin 4, i ≠ j → (region (mir v i)).Apart (region (mir v j)) := fun i j hij => region_apart (h.mir_apart hij)
  have hCW : ∀ i, (disc (C i)).inside ⊆ (region (mir v i)).inside := fun i => by rw [hCd]; exact h.new_sub hm i
  have hCC : ∀ i j : Fin 4, i ≠ j → (disc (C i)).Apart (disc (C j)) := fun i j hij => Set.disjoint_of_subset (hCW i) (hCW j) (hW i j hij)
  refine ⟨?_, ?_, ?_, ?_, ?_, ?_, ?_⟩
  · intro iota hi
    obtain ⟨j, hj, rfl⟩ := List.getElem_of_mem hi
    obtain ⟨i, -, e⟩ := mirs_get (List.getElem?_eq_getElem hj)
    rw [e]
    exact (inv_power_pos (hm i)).ne'
  · intro i j hi hj hij
    rw [hlen] at hi hj
    have := hW ⟨i, hi⟩ ⟨j, hj⟩ (by intro e; exact hij (congrArg Fin.val e))
    rw [← mirW_fin, ← mirW_fin] at this
    exact this
  · intro p hp
    obtain ⟨i, rfl⟩ := hmem p hp
    refine ⟨hC i, _, mirs_get' i, ?_, _, ⟨i, rfl⟩, ?_⟩
    · rw [mirW_fin]; exact hCW i
    · dsimp only; rw [hCd, image_gv (hn i) (hm i)]
  · rintro j iota hj s ⟨k, rfl⟩
    obtain ⟨i, rfl, rfl⟩ := mirs_get hj
    dsimp only
    by_cases hik : i = k
    · subst hik
      exact Or.inr ⟨C i, hmem' i, by rw [hCd, image_gv (hn i) (hm i)]⟩
    · left
      rw [him i k hik]
      exact ⟨k, rfl⟩
  · simp only [List.pairwise_cons, List.mem_cons, List.not_mem_nil, or_false, forall_eq_or_imp, forall_eq, IsEmpty.forall_iff, implies_true,
      List.Pairwise.nil, and_true]
    exact ⟨⟨hCC 0 1 (by decide), hCC 0 2 (by decide), hCC 0 3 (by decide)⟩, ⟨hCC 1 2 (by decide), hCC 1 3 (by decide)⟩, hCC 2 3 (by decide)⟩
  · rintro p hp s ⟨k, rfl⟩
    obtain ⟨i, rfl⟩ := hmem p hp
    dsimp only
    by_cases hik : i = k
    · subst hik
      refine Set.disjoint_of_subset_left (hCW i) ?_
      exact region_apart (h.mir_v_apart i)
    · rw [hCd, ← image_gv (hn i) (hm i), ← him i k hik]
      exact Region.apart_image (hiv i) (region_apart (h.v_apart hik))
  · intro j k iota hj hk hkj c hc hsub hs
    obtain ⟨i, rfl, rfl⟩ := mirs_get hj
    rw [hlen] at hk
    have hki : (⟨k, hk⟩ : Fin 4) ≠ i := by intro e; exact hkj (congrArg Fin.val e)
    have hsub' : (disc c).inside ⊆ (region (mir v ⟨k, hk⟩)).inside := by
      rw [← mirW_fin]; exact hsub
    have hfar := far i ⟨k, hk⟩ hki c hc hsub' (fun j => hs _ ⟨j, rfl⟩)
    have hp26 : (0 : ℝ) < 1 / 2 ^ 26 := by norm_num
    obtain ⟨c', e, hv, -⟩ := C25_invert_circle (inv (mir v i)) (inv_power_pos (hm i)).ne' c hc (by rw [abs_of_pos (by linarith)]; exact hfar)
    have hd := (image_disc e).1 (by linarith)
    refine ⟨c', e, hv, hd.symm, ?_⟩
    rw [mirW_fin, ← hd]
    refine image_into (hn i) (hm i) ?_
    intro p hp
    have h1 := hsub' hp
    change xev (mir v ⟨k, hk⟩) p < 0 at h1
    have := h.mir_apart hki p
    linarith

end Four

end
end GV
