import Verif.Lemmas.Boundary4Sort
import Verif.Lemmas.Boundary4Cubic

/-!
# The frame of `from_boundary4`: the diagonals on the axes
-/

open Spec Real Classical

namespace Boundary4

@[simp] theorem mdot_x (M : Matrix (Fin 2) (Fin 2) ℝ) (P : Pt) : (mdot M P).x = M 0 0 * P.x + M 0 1 * P.y := rfl
@[simp] theorem mdot_y (M : Matrix (Fin 2) (Fin 2) ℝ) (P : Pt) : (mdot M P).y = M 1 0 * P.x + M 1 1 * P.y := rfl

theorem mdot_mul (M N : Matrix (Fin 2) (Fin 2) ℝ) (P : Pt) : mdot (M * N) P = mdot M (mdot N P) := by
  ext <;> simp [Matrix.mul_apply, Fin.sum_univ_two] <;> ring

/-- `B` is linear of determinant 1 and sends the vectors from `X` to the points to the axes. -/
structure Frame (P : Fin 4 → Pt) (X : Pt) (B : Matrix (Fin 2) (Fin 2) ℝ) (a0 a1 a2 a3 : ℝ) : Prop where
  pos0 : 0 < a0
  pos1 : 0 < a1
  pos2 : 0 < a2
  pos3 : 0 < a3
  eq : a0 * a2 = a1 * a3
  det : B.det = 1
  m0 : mdot B (P 0 - X) = ⟨-a0, 0⟩
  m1 : mdot B (P 1 - X) = ⟨0, a1⟩
  m2 : mdot B (P 2 - X) = ⟨a2, 0⟩
  m3 : mdot B (P 3 - X) = ⟨0, -a3⟩

theorem solve_ok {n : ℕ} {A : Matrix (Fin n) (Fin n) ℝ} {b x : Fin n → ℝ} (h : A.det ≠ 0) (hx : A.mulVec x = b) :
    solve A b = .ok x := by
  unfold solve
  rw [if_neg h, ← hx, Matrix.mulVec_mulVec, Matrix.nonsing_inv_mul A (isUnit_iff_ne_zero.2 h), Matrix.one_mulVec]

/-- geometry.py 1343-1347 for a convex quadrilateral in clockwise order. -/
theorem diag_ok {P : Fin 4 → Pt} (h : CW (P 0) (P 1) (P 2) (P 3)) :
    ∃ s t : ℝ, 0 < s ∧ s < 1 ∧ 0 < t ∧ t < 1 ∧ 0 < cross (P 2 - P 0) (P 1 - P 3) ∧
      diagIntersect P = .ok (P 0 + s • (P 2 - P 0)) ∧ P 0 + s • (P 2 - P 0) = P 1 - t • (P 1 - P 3) := by
  obtain ⟨D, hD⟩ : ∃ D, D = cross (P 2 - P 0) (P 1 - P 3) := ⟨_, rfl⟩
  have ha := h.a; have hb := h.b; have hc := h.c; have hd := h.d
  unfold cross at ha hb hc hd hD
  simp at ha hb hc hd hD
  have hDpos : 0 < D := by rw [hD]; nlinarith
  obtain ⟨u, hu⟩ : ∃ u, u = cross (P 1 - P 0) (P 1 - P 3) := ⟨_, rfl⟩
  obtain ⟨w, hw⟩ : ∃ w, w = cross (P 2 - P 0) (P 1 - P 0) := ⟨_, rfl⟩
  unfold cross at hu hw
  simp at hu hw
  have hs0 : 0 < u := by rw [hu]; nlinarith
  have hs1 : u < D := by rw [hu, hD]; nlinarith
  have ht0 : 0 < w := by rw [hw]; nlinarith
  have ht1 : w < D := by rw [hw, hD]; nlinarith
  have hD0 : D ≠ 0 := hDpos.ne'
  have ex : u * ((P 2).x - (P 0).x) + w * ((P 1).x - (P 3).x) = D * ((P 1).x - (P 0).x) := by rw [hu, hw, hD]; ring
  have ey : u * ((P 2).y - (P 0).y) + w * ((P 1).y - (P 3).y) = D * ((P 1).y - (P 0).y) := by rw [hu, hw, hD]; ring
  refine ⟨u / D, w / D, by positivity, (div_lt_one hDpos).2 hs1, by positivity, (div_lt_one hDpos).2 ht1, ?_, ?_, ?_⟩
  · unfold cross; simp; linarith
  · unfold diagIntersect
    dsimp only
    rw [solve_ok (x := ![u / D, w / D])]
    · rfl
    · rw [Matrix.det_fin_two]
      simp
      intro h0
      apply hD0
      rw [hD]; linarith
    · ext i
      fin_cases i
      · simp [Matrix.mulVec, dotProduct, Fin.sum_univ_two]
        field_simp
        linarith
      · simp [Matrix.mulVec, dotProduct, Fin.sum_univ_two]
        field_simp
        linarith
  · ext
    · simp; field_simp; linarith
    · simp; field_simp; linarith

theorem vlength_x (a : ℝ) : vlength_ ⟨a, 0⟩ = |a| := by
  unfold vlength_; simp [Real.sqrt_mul_self_eq_abs]

theorem vlength_y (a : ℝ) : vlength_ ⟨0, a⟩ = |a| := by
  unfold vlength_; simp [Real.sqrt_mul_self_eq_abs]

/-- geometry.py 1352-1357: the rotation. -/
theorem rot_ok {U W : Pt} (h : 0 < cross U W) :
    ∃ (R : Matrix (Fin 2) (Fin 2) ℝ) (u x y : ℝ), 0 < u ∧ 0 < y ∧ R.det = 1 ∧ mdot R U = ⟨u, 0⟩ ∧ mdot R W = ⟨x, y⟩ ∧
      R = !![cos (atan2 U.y U.x), sin (atan2 U.y U.x); -sin (atan2 U.y U.x), cos (atan2 U.y U.x)] := by
  obtain ⟨θ, hθ⟩ : ∃ θ, θ = atan2 U.y U.x := ⟨_, rfl⟩
  obtain ⟨u, hu⟩ : ∃ u, u = ‖(⟨U.x, U.y⟩ : ℂ)‖ := ⟨_, rfl⟩
  have h1 := Complex.norm_mul_cos_arg (⟨U.x, U.y⟩ : ℂ)
  have h2 := Complex.norm_mul_sin_arg (⟨U.x, U.y⟩ : ℂ)
  rw [show Complex.arg (⟨U.x, U.y⟩ : ℂ) = θ from hθ.symm, ← hu] at h1 h2
  dsimp only at h1 h2
  have hsc := sin_sq_add_cos_sq θ
  have hup : 0 < u := by
    rcases (norm_nonneg (⟨U.x, U.y⟩ : ℂ)).lt_or_eq with k | k
    · rw [hu]; exact k
    · exfalso
      rw [← hu] at k
      rw [← k] at h1 h2
      unfold cross at h
      rw [← h1, ← h2] at h
      simp at h
  refine ⟨!![cos θ, sin θ; -sin θ, cos θ], u, cos θ * W.x + sin θ * W.y, -sin θ * W.x + cos θ * W.y, hup, ?_, ?_, ?_, ?_, ?_⟩
  · have : cross U W = u * (-sin θ * W.x + cos θ * W.y) := by unfold cross; rw [← h1, ← h2]; ring
    rw [this] at h
    exact (mul_pos_iff_of_pos_left hup).1 h
  · rw [Matrix.det_fin_two]; simp; linarith
  · ext
    · simp; rw [← h1, ← h2]; linear_combination u * hsc
    · simp; rw [← h1, ← h2]; ring
  · ext <;> simp
  · rw [hθ]

/-- geometry.py 1343-1368: the first transformations succeed and put the diagonals on the axes. -/
theorem frame_ok {P : Fin 4 → Pt} (h : CW (P 0) (P 1) (P 2) (P 3)) :
    ∃ (X : Pt) (R S T : Matrix (Fin 2) (Fin 2) ℝ) (a0 a1 a2 a3 : ℝ), diagIntersect P = .ok X ∧ rotMat (fun i => P i - X) = R ∧
      shearMat (fun i => mdot R (P i - X)) = .ok S ∧ stretchMat (fun i => mdot S (mdot R (P i - X))) = .ok T ∧
      Frame P X (T * S * R) a0 a1 a2 a3 := by
  obtain ⟨s, t, hs0, hs1, ht0, ht1, hcr, hX, hXt⟩ := diag_ok h
  obtain ⟨R, u, x, y, hu, hy, hRd, hRU, hRW, hR⟩ := rot_ok hcr
  obtain ⟨X, hXe⟩ : ∃ X, X = P 0 + s • (P 2 - P 0) := ⟨_, rfl⟩
  rw [← hXe] at hX hXt
  obtain ⟨U, hU⟩ : ∃ U, U = P 2 - P 0 := ⟨_, rfl⟩
  obtain ⟨W, hW⟩ : ∃ W, W = P 1 - P 3 := ⟨_, rfl⟩
  have q0 : P 0 - X = (-s) • U := by rw [hXe, hU]; ext <;> simp
  have q2 : P 2 - X = (1 - s) • U := by rw [hXe, hU]; ext <;> simp <;> ring
  have q1 : P 1 - X = t • W := by rw [hXt, hW]; ext <;> simp
  have q3 : P 3 - X = (t - 1) • W := by rw [hXt, hW]; ext <;> simp <;> ring
  have hAC : (P 2 - X) - (P 0 - X) = U := by rw [hU]; ext <;> simp
  have hRx : R = rotMat (fun i => P i - X) := by
    unfold rotMat; dsimp only; rw [hAC, hR, hU]
  rw [← hU] at hRU
  rw [← hW] at hRW
  have lin : ∀ (M : Matrix (Fin 2) (Fin 2) ℝ) (k : ℝ) (V : Pt), mdot M (k • V) = k • mdot M V := by
    intro M k V; ext <;> simp <;> ring
  have e0 : mdot R (P 0 - X) = ⟨-s * u, 0⟩ := by rw [q0, lin, hRU]; ext <;> simp
  have e1 : mdot R (P 1 - X) = ⟨t * x, t * y⟩ := by rw [q1, lin, hRW]; ext <;> simp
  have e2 : mdot R (P 2 - X) = ⟨(1 - s) * u, 0⟩ := by rw [q2, lin, hRU]; ext <;> simp
  have e3 : mdot R (P 3 - X) = ⟨(t - 1) * x, (t - 1) * y⟩ := by rw [q3, lin, hRW]; ext <;> simp
  obtain ⟨S, hS⟩ : ∃ S : Matrix (Fin 2) (Fin 2) ℝ, S = !![1, x / (-y); 0, 1] := ⟨_, rfl⟩
  have hSh : shearMat (fun i => mdot R (P i - X)) = .ok S := by
    unfold shearMat
    dsimp only
    rw [e1, e3]
    dsimp only
    unfold npDiv
    rw [if_neg (by linarith)]
    rw [show (t * x - (t - 1) * x) / ((t - 1) * y - t * y) = x / (-y) by congr 1 <;> ring, hS]
    rfl
  have hy0 : y ≠ 0 := hy.ne'
  have f0 : mdot S (mdot R (P 0 - X)) = ⟨-s * u, 0⟩ := by rw [e0, hS]; ext <;> simp
  have f1 : mdot S (mdot R (P 1 - X)) = ⟨0, t * y⟩ := by
    rw [e1, hS]; ext
    · simp; field_simp; ring
    · simp
  have f2 : mdot S (mdot R (P 2 - X)) = ⟨(1 - s) * u, 0⟩ := by rw [e2, hS]; ext <;> simp
  have f3 : mdot S (mdot R (P 3 - X)) = ⟨0, (t - 1) * y⟩ := by
    rw [e3, hS]; ext
    · simp; field_simp; ring
    · simp
  have b0 : 0 < s * u := by positivity
  have b1 : 0 < t * y := by positivity
  have b2 : 0 < (1 - s) * u := mul_pos (by linarith) hu
  have b3 : 0 < (1 - t) * y := mul_pos (by linarith) hy
  obtain ⟨d, hd⟩ : ∃ d, d = (t * y) * ((1 - t) * y) / (((1 - s) * u) * (s * u)) := ⟨_, rfl⟩
  have hdp : 0 < d := by rw [hd]; positivity
  obtain ⟨q, hq⟩ : ∃ q, q = d ^ (1 / 4 : ℝ) := ⟨_, rfl⟩
  have hqp : 0 < q := by rw [hq]; exact Real.rpow_pos_of_pos hdp _
  have hq4 : q ^ 4 = d := by
    rw [hq, ← Real.rpow_natCast, ← Real.rpow_mul hdp.le]; norm_num
  have hqi : d ^ (-(1 / 4) : ℝ) = 1 / q := by rw [Real.rpow_neg hdp.le, ← hq]; exact (one_div _).symm
  obtain ⟨T, hT⟩ : ∃ T : Matrix (Fin 2) (Fin 2) ℝ, T = !![q, 0; 0, 1 / q] := ⟨_, rfl⟩
  have hSt : stretchMat (fun i => mdot S (mdot R (P i - X))) = .ok T := by
    unfold stretchMat
    dsimp only
    rw [f0, f1, f2, f3, vlength_x, vlength_x, vlength_y, vlength_y]
    rw [show -s * u = -(s * u) by ring, show (t - 1) * y = -((1 - t) * y) by ring, abs_neg, abs_neg, abs_of_pos b0, abs_of_pos b1,
      abs_of_pos b2, abs_of_pos b3]
    unfold npDiv
    rw [if_neg (by positivity), ← hd]
    show (if d ≤ 0 then _ else _) = _
    rw [if_neg (not_le.2 hdp), hqi, ← hq, ← hT]
    rfl
  have hq0 : q ≠ 0 := hqp.ne'
  refine ⟨X, R, S, T, s * u * q, t * y / q, (1 - s) * u * q, (1 - t) * y / q, hX, hRx.symm, hSh, hSt, ?_⟩
  refine ⟨by positivity, by positivity, mul_pos b2 hqp, div_pos b3 hqp, ?_, ?_, ?_, ?_, ?_, ?_⟩
  · have h4 : q ^ 4 * (((1 - s) * u) * (s * u)) = (t * y) * ((1 - t) * y) := by
      rw [hq4, hd, div_mul_cancel₀]; positivity
    field_simp
    linear_combination h4
  · rw [Matrix.det_mul, Matrix.det_mul, hRd, hS, hT, Matrix.det_fin_two, Matrix.det_fin_two]
    simp [hq0]
  · rw [mdot_mul, mdot_mul, f0, hT]; ext
    · simp; ring
    · simp
  · rw [mdot_mul, mdot_mul, f1, hT]; ext
    · simp
    · simp; field_simp
  · rw [mdot_mul, mdot_mul, f2, hT]; ext
    · simp; ring
    · simp
  · rw [mdot_mul, mdot_mul, f3, hT]; ext
    · simp
    · simp; field_simp; ring

/-- geometry.py 1370-1381: the swing angle exists and is the one root of the cubic in the open interval. -/
theorem swing_ok {env : Env} (he : env.Ok) {P : Fin 4 → Pt} {a0 a1 a2 a3 : ℝ} (h0 : 0 < a0) (h1 : 0 < a1) (h2 : 0 < a2)
    (heq : a0 * a2 = a1 * a3) (m0 : P 0 = ⟨-a0, 0⟩) (m1 : P 1 = ⟨0, a1⟩) (m2 : P 2 = ⟨a2, 0⟩) :
    ∃ r, -1 < r ∧ r < 1 ∧ cubic (a0 * a2) (a2 - a0) (a1 - a3) r = 0 ∧ swing env P = .ok (arcsin r) := by
  have hp : 0 < a0 * a2 := mul_pos h0 h2
  obtain ⟨r, hr1, hr2, hr⟩ := cubic_root (a0 * a2) (a2 - a0) (a1 - a3) hp
  refine ⟨r, hr1, hr2, hr, ?_⟩
  unfold swing
  dsimp only
  rw [m0, m1, m2, vlength_x, vlength_x, vlength_y, abs_neg, abs_of_pos h0, abs_of_pos h1, abs_of_pos h2]
  obtain ⟨c0, hc0⟩ : ∃ c0, c0 = -4 * a1 ^ 2 * a2 * a0 := ⟨_, rfl⟩
  obtain ⟨c1, hc1⟩ : ∃ c1, c1 = -4 * a1 * (a2 - a0) * (a1 ^ 2 - a2 * a0) := ⟨_, rfl⟩
  obtain ⟨c2, hc2⟩ : ∃ c2, c2 = 3 * a1 ^ 2 * (a1 ^ 2 + a2 ^ 2) - 8 * a1 ^ 2 * a2 * a0 + 3 * (a1 ^ 2 + a2 ^ 2) * a0 ^ 2 := ⟨_, rfl⟩
  rw [← hc0, ← hc1, ← hc2]
  have d0 : c0 = a1 ^ 2 * (-4 * (a0 * a2)) := by rw [hc0]; ring
  have d1 : c1 = a1 ^ 2 * (-4 * ((a2 - a0) * (a1 - a3))) := by
    rw [hc1]; linear_combination (-4 * a1 * (a2 - a0)) * (-heq)
  have d2 : c2 = a1 ^ 2 * (4 * (a0 * a2) + 3 * ((a2 - a0) ^ 2 + (a1 - a3) ^ 2)) := by
    rw [hc2]; linear_combination (-6 * a1 ^ 2 + 3 * a0 * a2 + 3 * a1 * a3) * heq
  have hc0n : c0 ≠ 0 := by
    rw [d0]
    have : 0 < a1 ^ 2 * (a0 * a2) := by positivity
    nlinarith
  have hroots := he.roots c0 c1 c2 (c1 / 2) hc0n
  obtain ⟨rts, hrts⟩ : ∃ rts, rts = env.roots c0 c1 c2 (c1 / 2) := ⟨_, rfl⟩
  rw [← hrts] at hroots ⊢
  have ha1 : (a1 : ℂ) ^ 2 ≠ 0 := by
    have : (a1 : ℂ) ≠ 0 := by exact_mod_cast h1.ne'
    exact pow_ne_zero 2 this
  have poly : ∀ z : ℂ, (c0 : ℂ) * z ^ 3 + c1 * z ^ 2 + c2 * z + ((c1 / 2 : ℝ) : ℂ) = (a1 : ℂ) ^ 2 *
      (-4 * ((a0 * a2 : ℝ) : ℂ) * z ^ 3 - 4 * (((a2 - a0 : ℝ) : ℂ) * ((a1 - a3 : ℝ) : ℂ)) * z ^ 2 +
        (4 * ((a0 * a2 : ℝ) : ℂ) + 3 * (((a2 - a0 : ℝ) : ℂ) ^ 2 + ((a1 - a3 : ℝ) : ℂ) ^ 2)) * z -
        2 * (((a2 - a0 : ℝ) : ℂ) * ((a1 - a3 : ℝ) : ℂ))) := by
    intro z
    rw [d0, d1, d2]
    push_cast
    ring
  -- the root is in the list
  have hmem : (r : ℂ) ∈ rts := by
    have k := hroots r
    rw [poly] at k
    have : (-4 * ((a0 * a2 : ℝ) : ℂ) * r ^ 3 - 4 * (((a2 - a0 : ℝ) : ℂ) * ((a1 - a3 : ℝ) : ℂ)) * r ^ 2 +
        (4 * ((a0 * a2 : ℝ) : ℂ) + 3 * (((a2 - a0 : ℝ) : ℂ) ^ 2 + ((a1 - a3 : ℝ) : ℂ) ^ 2)) * r -
        2 * (((a2 - a0 : ℝ) : ℂ) * ((a1 - a3 : ℝ) : ℂ))) = ((cubic (a0 * a2) (a2 - a0) (a1 - a3) r : ℝ) : ℂ) := by
      unfold cubic; push_cast; ring
    rw [this, hr, Complex.ofReal_zero, mul_zero] at k
    have k2 := (mul_eq_zero.1 k.symm).resolve_left (by exact_mod_cast hc0n)
    rw [List.prod_eq_zero_iff, List.mem_map] at k2
    obtain ⟨w, hw, hw0⟩ := k2
    have : (r : ℂ) = w := by linear_combination hw0
    rw [this]; exact hw
  -- an element of the list in the interval is the root
  have hun : ∀ z ∈ rts, ltC (-1) z ∧ ltC z 1 → z.re = r := by
    intro z hz hlt
    have k := hroots z
    have k2 : (rts.map fun r => z - r).prod = 0 :=
      List.prod_eq_zero (List.mem_map.2 ⟨z, hz, sub_self z⟩)
    rw [k2, mul_zero, poly] at k
    have k3 := (mul_eq_zero.1 k).resolve_left ha1
    have him := cubic_real hp hr hr1 hr2 k3
    have hzr : z = (z.re : ℂ) := by apply Complex.ext <;> simp [him]
    obtain ⟨l1, l2⟩ := hlt
    unfold ltC at l1 l2
    rw [him] at l1 l2
    simp at l1 l2
    apply cubic_unique hp hr hr1 hr2 l1 l2
    rw [hzr] at k3
    have : (-4 * ((a0 * a2 : ℝ) : ℂ) * z.re ^ 3 - 4 * (((a2 - a0 : ℝ) : ℂ) * ((a1 - a3 : ℝ) : ℂ)) * z.re ^ 2 +
        (4 * ((a0 * a2 : ℝ) : ℂ) + 3 * (((a2 - a0 : ℝ) : ℂ) ^ 2 + ((a1 - a3 : ℝ) : ℂ) ^ 2)) * z.re -
        2 * (((a2 - a0 : ℝ) : ℂ) * ((a1 - a3 : ℝ) : ℂ))) = ((cubic (a0 * a2) (a2 - a0) (a1 - a3) z.re : ℝ) : ℂ) := by
      unfold cubic; push_cast; ring
    rw [this] at k3
    exact_mod_cast k3
  have hin : (r : ℂ) ∈ rts.filter fun z => decide (ltC (-1) z ∧ ltC z 1) := by
    rw [List.mem_filter]
    refine ⟨hmem, ?_⟩
    rw [decide_eq_true_eq]
    unfold ltC
    simp
    exact ⟨hr1, hr2⟩
  cases hl : rts.filter fun z => decide (ltC (-1) z ∧ ltC z 1) with
  | nil => rw [hl] at hin; simp at hin
  | cons z l =>
    have hz : z ∈ rts.filter fun z => decide (ltC (-1) z ∧ ltC z 1) := by rw [hl]; simp
    rw [List.mem_filter, decide_eq_true_eq] at hz
    dsimp only
    rw [hun z hz.1 hz.2]

end Boundary4
