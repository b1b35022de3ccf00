import Verif.Lemmas.RingApollonian
import Verif.Props.ThreeTangent

/-!
# A circle orthogonal to two tangent circles passes through their contact point
-/

open Spec Real Classical

namespace GV

theorem pr_circ_eq {m : GV} {c : Circle} (hc : c.Valid) (h : pr m (circ c) = 0) :
    m 2 * c.center.x + m 3 * c.center.y - (m 0 * (c.center.x ^ 2 + c.center.y ^ 2 - c.radius ^ 2) + m 1) / 2 = 0 := by
  have hr : 0 < c.radius := hc
  have : pr m (circ c) * c.radius = m 2 * c.center.x + m 3 * c.center.y - (m 0 * (c.center.x ^ 2 + c.center.y ^ 2 - c.radius ^ 2) + m 1) / 2 := by
    simp only [pr, circ, Matrix.cons_val_zero, Matrix.cons_val_one, Matrix.cons_val]
    field_simp
  rw [← this, h, zero_mul]

/-- Contact from outside. -/
theorem ev_contact {m : GV} {a b : Circle} (ha : a.Valid) (hb : b.Valid) (h1 : pr m (circ a) = 0) (h2 : pr m (circ b) = 0)
    (ht : sqDist a.center b.center = (a.radius + b.radius) ^ 2) : ev m (a.center + (a.radius / (a.radius + b.radius)) • (b.center - a.center)) = 0 := by
  have e1 := pr_circ_eq ha h1
  have e2 := pr_circ_eq hb h2
  have ra : 0 < a.radius := ha
  have rb : 0 < b.radius := hb
  unfold sqDist at ht
  unfold ev
  simp only [Pt.add_x, Pt.add_y, Pt.smul_x, Pt.smul_y, Pt.sub_x, Pt.sub_y]
  obtain ⟨s, hs⟩ : ∃ s, s = a.radius / (a.radius + b.radius) := ⟨_, rfl⟩
  obtain ⟨t, htt⟩ : ∃ t, t = a.radius + b.radius := ⟨_, rfl⟩
  have hst : a.radius = s * t := by rw [hs, htt]; field_simp
  have hbt : b.radius = (1 - s) * t := by rw [sub_mul, ← hst, htt]; ring
  rw [← hs]
  rw [← htt] at ht
  rw [hst] at e1
  rw [hbt] at e2
  linear_combination (-2 * (1 - s)) * e1 - 2 * s * e2 - s * (1 - s) * m 0 * ht

/-- Contact from inside. -/
theorem ev_contact_inside {m : GV} {a c0 : Circle} (ha : a.Valid) (hc : c0.Valid) (h1 : pr m (circ a) = 0) (h2 : pr m (circ c0) = 0)
    {u : Pt} (hu : u.x ^ 2 + u.y ^ 2 = 1) (hcen : a.center = (c0.radius - a.radius) • u + c0.center) (hlt : a.radius < c0.radius) :
    ev m (c0.center + c0.radius • u) = 0 := by
  have e1 := pr_circ_eq ha h1
  have e2 := pr_circ_eq hc h2
  rw [hcen] at e1
  simp only [Pt.add_x, Pt.add_y, Pt.smul_x, Pt.smul_y] at e1
  unfold ev
  simp only [Pt.add_x, Pt.add_y, Pt.smul_x, Pt.smul_y]
  have hd : c0.radius - a.radius ≠ 0 := by linarith
  apply mul_left_cancel₀ hd
  linear_combination (-2 * c0.radius) * e1 + 2 * a.radius * e2 + m 0 * (c0.radius - a.radius) * (c0.radius * a.radius) * hu

/-- The circle of a vector through three points is their circumcircle. -/
theorem circum_ev {m : GV} (hm : pr m m = 1) {T : Triangle} {c : Circle} (h : T.circumcircle = .ok (some c)) (hA : ev m T.A = 0) (hB : ev m T.B = 0)
    (hC : ev m T.C = 0) : m 0 ≠ 0 ∧ Inversion.on_circle c = inv m := by
  have hnc := ThreeTangent.circumcircle_some h
  have h0 : m 0 ≠ 0 := by
    intro h0
    apply hnc
    have hn : m 2 ^ 2 + m 3 ^ 2 = 1 := by unfold pr at hm; rw [h0] at hm; linarith
    unfold ev at hA hB hC
    rw [h0] at hA hB hC
    unfold Collinear
    simp only [cross, Pt.sub_x, Pt.sub_y]
    obtain ⟨ux, hux⟩ : ∃ ux, ux = T.B.x - T.A.x := ⟨_, rfl⟩
    obtain ⟨uy, huy⟩ : ∃ uy, uy = T.B.y - T.A.y := ⟨_, rfl⟩
    obtain ⟨wx, hwx⟩ : ∃ wx, wx = T.C.x - T.A.x := ⟨_, rfl⟩
    obtain ⟨wy, hwy⟩ : ∃ wy, wy = T.C.y - T.A.y := ⟨_, rfl⟩
    rw [← hux, ← huy, ← hwx, ← hwy]
    have a2 : m 2 * ux + m 3 * uy = 0 := by rw [hux, huy]; linarith
    have a3 : m 2 * wx + m 3 * wy = 0 := by rw [hwx, hwy]; linarith
    linear_combination (-(ux * wy - uy * wx)) * hn + (m 2 * wy - m 3 * wx) * a2 + (m 3 * ux - m 2 * uy) * a3
  refine ⟨h0, ?_⟩
  have on : ∀ P, ev m P = 0 → OnCircle (inv m).pole (1 / |m 0|) P := by
    intro P hP
    unfold OnCircle inv sqDist
    dsimp only
    unfold ev at hP
    unfold pr at hm
    rw [div_pow, sq_abs, one_pow]
    field_simp
    linear_combination m 0 * hP + hm
  obtain ⟨c', h1, hr, -, -, -, huniq⟩ := C40_circumcircle T hnc
  rw [h] at h1
  injection h1 with h1
  injection h1 with h1
  subst h1
  obtain ⟨e1, e2⟩ := huniq _ _ (by positivity) (on _ hA) (on _ hB) (on _ hC)
  unfold Inversion.on_circle
  rw [← e1, ← e2]
  unfold inv
  congr 1
  rw [div_pow, sq_abs, one_pow]

/-- The image of a point by the inversion of the Steiner chain. -/
theorem ev_invert {I : Pt} {k : ℝ} (hk : 0 < k) {X : GV} {Q K : Pt} (hX : ev X Q = 0) (h : (⟨I, k⟩ : Inversion).invert (.fin Q) = .fin K) :
    ev (reflect (invV I k) X) K = 0 := by
  obtain ⟨us, us0, ei⟩ := invV_spec (I := I) hk
  obtain ⟨t, -, ht⟩ := xev_reflect us us0.ne' X (.fin Q)
  have hne : Q ≠ I := (ne_of_not_allclose (invert_fin h).1).symm
  have hK : mirror (inv (invV I k)) (.fin Q) = .fin K := by
    rw [ei]
    unfold Inversion.invert at h
    dsimp only at h
    split_ifs at h
    injection h with h
    change xinv I k (.fin Q) = _
    unfold xinv
    dsimp only
    rw [if_neg hne, ← h]
    congr 3
    unfold sqDist dot1_ dot_
    simp only [Pt.sub_x, Pt.sub_y]
    ring
  rw [hK] at ht
  change ev (reflect (invV I k) X) K = t * ev X Q at ht
  rw [ht, hX, mul_zero]

/-- Three distinct points of a circle are not collinear. -/
theorem circle_not_collinear {m : GV} (h0 : m 0 ≠ 0) {A B C : Pt} (hAB : A ≠ B) (hAC : A ≠ C) (hBC : B ≠ C) (hA : ev m A = 0) (hB : ev m B = 0)
    (hC : ev m C = 0) : ¬ Collinear A B C := by
  unfold Collinear
  simp only [cross, Pt.sub_x, Pt.sub_y]
  unfold ev at hA hB hC
  intro hcol
  obtain ⟨ux, hux⟩ : ∃ ux, ux = B.x - A.x := ⟨_, rfl⟩
  obtain ⟨uy, huy⟩ : ∃ uy, uy = B.y - A.y := ⟨_, rfl⟩
  obtain ⟨wx, hwx⟩ : ∃ wx, wx = C.x - A.x := ⟨_, rfl⟩
  obtain ⟨wy, hwy⟩ : ∃ wy, wy = C.y - A.y := ⟨_, rfl⟩
  obtain ⟨vx, hvx⟩ : ∃ vx, vx = m 2 - m 0 * A.x := ⟨_, rfl⟩
  obtain ⟨vy, hvy⟩ : ∃ vy, vy = m 3 - m 0 * A.y := ⟨_, rfl⟩
  rw [← hux, ← huy, ← hwx, ← hwy] at hcol
  have eu : m 0 * (ux ^ 2 + uy ^ 2) = 2 * (vx * ux + vy * uy) := by rw [hux, huy, hvx, hvy]; linear_combination hB - hA
  have ew : m 0 * (wx ^ 2 + wy ^ 2) = 2 * (vx * wx + vy * wy) := by rw [hwx, hwy, hvx, hvy]; linear_combination hC - hA
  have pos : ∀ {P Q : Pt}, P ≠ Q → 0 < (Q.x - P.x) ^ 2 + (Q.y - P.y) ^ 2 := by
    intro P Q h
    by_contra hle
    push Not at hle
    have a1 : (Q.x - P.x) ^ 2 = 0 := by nlinarith [sq_nonneg (Q.x - P.x), sq_nonneg (Q.y - P.y)]
    have a2 : (Q.y - P.y) ^ 2 = 0 := by nlinarith [sq_nonneg (Q.x - P.x), sq_nonneg (Q.y - P.y)]
    apply h
    ext
    · have := pow_eq_zero_iff (two_ne_zero) |>.1 a1; linarith
    · have := pow_eq_zero_iff (two_ne_zero) |>.1 a2; linarith
  have pu := pos hAB
  have pw := pos hAC
  have pb := pos hBC
  rw [← hux, ← huy] at pu
  rw [← hwx, ← hwy] at pw
  have pb' : 0 < (wx - ux) ^ 2 + (wy - uy) ^ 2 := by
    rw [hux, huy, hwx, hwy]
    calc 0 < _ := pb
      _ = _ := by ring
  have k1 : (vx * wx + vy * wy) * (ux ^ 2 + uy ^ 2) = (ux * wx + uy * wy) * (vx * ux + vy * uy) := by
    linear_combination (-(vx * uy - vy * ux)) * hcol
  have k2 : (vx * ux + vy * uy) * (wx ^ 2 + wy ^ 2) = (ux * wx + uy * wy) * (vx * wx + vy * wy) := by
    linear_combination (vx * wy - vy * wx) * hcol
  have l1 : wx ^ 2 + wy ^ 2 = ux * wx + uy * wy := by
    have : m 0 * (ux ^ 2 + uy ^ 2) * (wx ^ 2 + wy ^ 2 - (ux * wx + uy * wy)) = 0 := by
      linear_combination (ux ^ 2 + uy ^ 2) * ew - (ux * wx + uy * wy) * eu + 2 * k1
    rcases mul_eq_zero.1 this with h | h
    · exact absurd h (mul_ne_zero h0 pu.ne')
    · linarith
  have l2 : ux ^ 2 + uy ^ 2 = ux * wx + uy * wy := by
    have : m 0 * (wx ^ 2 + wy ^ 2) * (ux ^ 2 + uy ^ 2 - (ux * wx + uy * wy)) = 0 := by
      linear_combination (wx ^ 2 + wy ^ 2) * eu - (ux * wx + uy * wy) * ew + 2 * k2
    rcases mul_eq_zero.1 this with h | h
    · exact absurd h (mul_ne_zero h0 pw.ne')
    · linarith
  have : (wx - ux) ^ 2 + (wy - uy) ^ 2 = 0 := by linear_combination l1 + l2
  linarith

end GV

/-- Three circles outside each other have no common point. -/
theorem no_common_point {a b c : Circle} (ha : a.Valid) (hb : b.Valid) (hc : c.Valid) (hab : 2 * (a.radius * b.radius) ≤ lprod a b)
    (hac : 2 * (a.radius * c.radius) ≤ lprod a c) (hbc : 2 * (b.radius * c.radius) ≤ lprod b c) {T : Pt} (ta : OnCircle a.center a.radius T)
    (tb : OnCircle b.center b.radius T) (tc : OnCircle c.center c.radius T) : False := by
  have ra : 0 < a.radius := ha
  have rb : 0 < b.radius := hb
  have rc : 0 < c.radius := hc
  have opp : ∀ {a b : Circle}, 0 < a.radius → 0 < b.radius → 2 * (a.radius * b.radius) ≤ lprod a b → OnCircle a.center a.radius T →
      OnCircle b.center b.radius T → (a.center.x - T.x) / a.radius = -((b.center.x - T.x) / b.radius) ∧
        (a.center.y - T.y) / a.radius = -((b.center.y - T.y) / b.radius) := by
    intro a b ra rb hab ta tb
    unfold OnCircle sqDist at ta tb
    unfold lprod sqDist at hab
    obtain ⟨ux, hux⟩ : ∃ ux, ux = (a.center.x - T.x) / a.radius := ⟨_, rfl⟩
    obtain ⟨uy, huy⟩ : ∃ uy, uy = (a.center.y - T.y) / a.radius := ⟨_, rfl⟩
    obtain ⟨vx, hvx⟩ : ∃ vx, vx = (b.center.x - T.x) / b.radius := ⟨_, rfl⟩
    obtain ⟨vy, hvy⟩ : ∃ vy, vy = (b.center.y - T.y) / b.radius := ⟨_, rfl⟩
    have e1 : a.center.x = T.x + a.radius * ux := by rw [hux]; field_simp; ring
    have e2 : a.center.y = T.y + a.radius * uy := by rw [huy]; field_simp; ring
    have e3 : b.center.x = T.x + b.radius * vx := by rw [hvx]; field_simp; ring
    have e4 : b.center.y = T.y + b.radius * vy := by rw [hvy]; field_simp; ring
    rw [← hux, ← huy, ← hvx, ← hvy]
    rw [e1, e2, e3, e4] at hab
    have n1 : ux ^ 2 + uy ^ 2 = 1 := by
      have : a.radius ^ 2 * (ux ^ 2 + uy ^ 2 - 1) = 0 := by rw [e1, e2] at ta; linear_combination ta
      rcases mul_eq_zero.1 this with h | h
      · exact absurd h (by positivity)
      · linarith
    have n2 : vx ^ 2 + vy ^ 2 = 1 := by
      have : b.radius ^ 2 * (vx ^ 2 + vy ^ 2 - 1) = 0 := by rw [e3, e4] at tb; linear_combination tb
      rcases mul_eq_zero.1 this with h | h
      · exact absurd h (by positivity)
      · linarith
    have hd : ux * vx + uy * vy ≤ -1 := by
      have hp : 0 < a.radius * b.radius := by positivity
      have e : 2 * (a.radius * b.radius) * (ux * vx + uy * vy + 1) ≤ 0 := by
        have f1 : a.radius ^ 2 * (ux ^ 2 + uy ^ 2) = a.radius ^ 2 := by rw [n1, mul_one]
        have f2 : b.radius ^ 2 * (vx ^ 2 + vy ^ 2) = b.radius ^ 2 := by rw [n2, mul_one]
        linarith
      by_contra hlt
      push Not at hlt
      have : 0 < 2 * (a.radius * b.radius) * (ux * vx + uy * vy + 1) := mul_pos (by linarith) (by linarith)
      linarith
    have hz : (ux + vx) ^ 2 + (uy + vy) ^ 2 ≤ 0 := by linarith
    have z1 : (ux + vx) ^ 2 = 0 := le_antisymm (by linarith [sq_nonneg (uy + vy)]) (sq_nonneg _)
    have z2 : (uy + vy) ^ 2 = 0 := le_antisymm (by linarith [sq_nonneg (ux + vx)]) (sq_nonneg _)
    exact ⟨by linarith [(pow_eq_zero_iff two_ne_zero).1 z1], by linarith [(pow_eq_zero_iff two_ne_zero).1 z2]⟩
  obtain ⟨x1, y1⟩ := opp ra rb hab ta tb
  obtain ⟨x2, y2⟩ := opp ra rc hac ta tc
  obtain ⟨x3, y3⟩ := opp rb rc hbc tb tc
  have zx : (a.center.x - T.x) / a.radius = 0 := by linarith
  have zy : (a.center.y - T.y) / a.radius = 0 := by linarith
  rw [div_eq_zero_iff] at zx zy
  unfold OnCircle sqDist at ta
  have ex : a.center.x = T.x := by rcases zx with h | h <;> linarith
  have ey : a.center.y = T.y := by rcases zy with h | h <;> linarith
  rw [ex, ey] at ta
  have : 0 < a.radius ^ 2 := by positivity
  linarith [show (T.x - T.x) ^ 2 + (T.y - T.y) ^ 2 = 0 by ring]

/-- The contact point of two circles inside a third one, tangent to it, is inside it. -/
theorem contact_inside {a b c0 : Circle} (ha : a.Valid) (hb : b.Valid) (hc : c0.Valid) (h : sqDist a.center b.center = (a.radius + b.radius) ^ 2)
    (e1 : lprod a c0 = -(2 * (a.radius * c0.radius))) (e2 : lprod b c0 = -(2 * (b.radius * c0.radius))) :
    sqDist (a.center + (a.radius / (a.radius + b.radius)) • (b.center - a.center)) c0.center < c0.radius ^ 2 := by
  have ra : 0 < a.radius := ha
  have rb : 0 < b.radius := hb
  have rc : 0 < c0.radius := hc
  unfold sqDist at h
  unfold lprod sqDist at e1 e2
  unfold sqDist
  simp only [Pt.add_x, Pt.add_y, Pt.smul_x, Pt.smul_y, Pt.sub_x, Pt.sub_y]
  obtain ⟨s, hs⟩ : ∃ s, s = a.radius / (a.radius + b.radius) := ⟨_, rfl⟩
  obtain ⟨t, htt⟩ : ∃ t, t = a.radius + b.radius := ⟨_, rfl⟩
  have hst : a.radius = s * t := by rw [hs, htt]; field_simp
  have hbt : b.radius = (1 - s) * t := by rw [sub_mul, ← hst, htt]; ring
  have t0 : 0 < t := by linarith
  have s0 : 0 < s := by rw [hs]; positivity
  have s1 : 0 < 1 - s := by
    by_contra hle
    push Not at hle
    have := mul_nonpos_of_nonpos_of_nonneg hle t0.le
    linarith
  rw [← hs]
  rw [← htt] at h
  rw [hst] at e1
  rw [hbt] at e2
  have key : (a.center.x + s * (b.center.x - a.center.x) - c0.center.x) ^ 2 + (a.center.y + s * (b.center.y - a.center.y) - c0.center.y) ^ 2 =
      c0.radius ^ 2 - 4 * c0.radius * s * (1 - s) * t := by
    linear_combination (1 - s) * e1 + s * e2 - s * (1 - s) * h
  rw [key]
  have : 0 < 4 * c0.radius * s * (1 - s) * t := by positivity
  linarith
