import Verif.Lemmas.Descartes
import Verif.Model.TriangularGasket
import Verif.Props.Triangle

/-! The three ways of filling a hole of the triangular gasket. -/

open Spec Real Classical GV

namespace TriGasket

/-! ### Three circles -/

theorem soddy_radius {x y z : ℝ} (hx : 0 < x) (hy : 0 < y) (hz : 0 < z) :
    innerSoddyRadius x y (some z) = .ok (1 / (1 / x + 1 / y + 1 / z + 2 * √(1 / x / y + 1 / y / z + 1 / z / x))) := by
  have h : (0 : ℝ) ≤ 1 / x / y + 1 / y / z + 1 / z / x := by positivity
  have h2 : 1 / x + 1 / y + 1 / z + 2 * √(1 / x / y + 1 / y / z + 1 / z / x) ≠ 0 := by positivity
  simp only [innerSoddyRadius, pyDiv, if_neg hx.ne', if_neg hy.ne', if_neg hz.ne', Res.ok_bind, pySqrt, if_neg (not_lt.2 h), if_neg h2]

/-- The equal detour point when the vertices are the centers of three mutually tangent circles. -/
theorem detour_explicit {A B C : Pt} {x y z : ℝ} (hx : 0 < x) (hy : 0 < y) (hz : 0 < z)
    (ha : sqDist B C = (y + z) ^ 2) (hb : sqDist A C = (z + x) ^ 2) (hc : sqDist A B = (x + y) ^ 2) :
    ∃ P d ρ, (⟨A, B, C⟩ : Triangle).equal_detour_point = .ok (P, d) ∧ 0 < ρ ∧
      ρ = 1 / (1 / x + 1 / y + 1 / z + 2 * √(1 / x / y + 1 / y / z + 1 / z / x)) ∧
      Spec.dist A P = ρ + x ∧ Spec.dist B P = ρ + y ∧ Spec.dist C P = ρ + z := by
  obtain ⟨S, eS⟩ : ∃ S, S = √(x * y * z * (x + y + z)) := ⟨_, rfl⟩
  have hq : 0 < x * y * z * (x + y + z) := by positivity
  have hSp : 0 < S := by rw [eS]; exact Real.sqrt_pos.2 hq
  have hS' : S ^ 2 = x * y * z * (x + y + z) := by rw [eS]; exact Real.sq_sqrt hq.le
  have da : Spec.dist B C = y + z := (dist_eq_iff (by positivity)).2 ha
  have db : Spec.dist A C = z + x := (dist_eq_iff (by positivity)).2 hb
  have dc : Spec.dist A B = x + y := (dist_eq_iff (by positivity)).2 hc
  have hsq : pySqrt ((y + z + (z + x) + (x + y)) / 2 * ((y + z + (z + x) + (x + y)) / 2 - (y + z)) *
      ((y + z + (z + x) + (x + y)) / 2 - (z + x)) * ((y + z + (z + x) + (x + y)) / 2 - (x + y))) = .ok S := by
    rw [show (y + z + (z + x) + (x + y)) / 2 * ((y + z + (z + x) + (x + y)) / 2 - (y + z)) *
      ((y + z + (z + x) + (x + y)) / 2 - (z + x)) * ((y + z + (z + x) + (x + y)) / 2 - (x + y)) = x * y * z * (x + y + z) by ring]
    unfold pySqrt
    rw [if_neg (not_lt.2 hq.le), eS]
  obtain ⟨u, hu⟩ : ∃ u, u = y + z + S / x := ⟨_, rfl⟩
  obtain ⟨v, hv⟩ : ∃ v, v = z + x + S / y := ⟨_, rfl⟩
  obtain ⟨w, hw⟩ : ∃ w, w = x + y + S / z := ⟨_, rfl⟩
  have hn : 0 < u + v + w := by rw [hu, hv, hw]; positivity
  have e : (⟨A, B, C⟩ : Triangle).equal_detour_point = .ok ((u • A + v • B + w • C) / (u + v + w),
      Spec.dist A ((u • A + v • B + w • C) / (u + v + w)) + Spec.dist B ((u • A + v • B + w • C) / (u + v + w)) - (x + y)) := by
    unfold Triangle.equal_detour_point
    dsimp only
    simp only [distance_eq]
    rw [dist_comm B A, da, db, dc, hsq, Res.ok_bind]
    rw [show z + x + (x + y) - (y + z) = 2 * x by ring, show x + y + (y + z) - (z + x) = 2 * y by ring,
      show y + z + (z + x) - (x + y) = 2 * z by ring, mul_div_mul_left _ _ two_ne_zero, mul_div_mul_left _ _ two_ne_zero,
      mul_div_mul_left _ _ two_ne_zero, if_neg (by push Not; exact ⟨by positivity, by positivity, by positivity⟩),
      ← hu, ← hv, ← hw, if_neg hn.ne']
    rfl
  have kA := detour_dist hx hy hz hSp ha hb hc hS' hu hv hw
  have kB : Spec.dist B ((u • A + v • B + w • C) / (u + v + w)) = S / (u + v + w) + y := by
    have := detour_dist (A := B) (B := C) (C := A) hy hz hx hSp
      (by rw [sqDist_comm, hb]) (by rw [sqDist_comm, hc]) (by rw [ha]) (by rw [hS']; ring) hv hw hu
    rw [show u + v + w = v + w + u by ring, ← this]
    congr 2
    ext <;> simp <;> ring
  have kC : Spec.dist C ((u • A + v • B + w • C) / (u + v + w)) = S / (u + v + w) + z := by
    have := detour_dist (A := C) (B := A) (C := B) hz hx hy hSp
      (by rw [hc]) (by rw [sqDist_comm, ha]) (by rw [sqDist_comm, hb]) (by rw [hS']; ring) hw hu hv
    rw [show u + v + w = w + u + v by ring, ← this]
    congr 2
    ext <;> simp <;> ring
  refine ⟨_, _, S / (u + v + w), e, by positivity, ?_, kA, kB, kC⟩
  have hs : √(1 / x / y + 1 / y / z + 1 / z / x) = (x + y + z) / S := by
    have hpos : 0 ≤ (x + y + z) / S := by positivity
    rw [← Real.sqrt_sq hpos]
    congr 1
    rw [div_pow, hS']
    field_simp
    ring
  rw [hs, hu, hv, hw, eq_div_iff (by positivity)]
  field_simp
  ring

/-- The circle drawn in a hole between three circles. -/
theorem soddy_ok {c1 c2 c3 : Circle} (h1 : c1.Valid) (h2 : c2.Valid) (h3 : c3.Valid) (t12 : pr (circ c1) (circ c2) = -1)
    (t13 : pr (circ c1) (circ c3) = -1) (t23 : pr (circ c2) (circ c3) = -1) :
    ∃ c, innerSoddyCircle c1 c2 c3 = .ok ⟨c, [.ccc c c1 c2, .ccc c c2 c3, .ccc c c1 c3]⟩ ∧ c.Valid ∧
      pr (circ c) (circ c1) = -1 ∧ pr (circ c) (circ c2) = -1 ∧ pr (circ c) (circ c3) = -1 ∧
      circ c1 0 + circ c2 0 + circ c3 0 < circ c 0 := by
  rw [pr_circ_tangent h1 h2] at t12
  rw [pr_circ_tangent h1 h3] at t13
  rw [pr_circ_tangent h2 h3] at t23
  have hx : 0 < c1.radius := h1
  have hy : 0 < c2.radius := h2
  have hz : 0 < c3.radius := h3
  obtain ⟨P, d, ρ, e, hρ, eρ, dA, dB, dC⟩ := detour_explicit hx hy hz t23 (by rw [t13]; ring) t12
  have hv : (⟨P, ρ⟩ : Circle).Valid := hρ
  refine ⟨⟨P, ρ⟩, ?_, hv, ?_, ?_, ?_, ?_⟩
  · unfold innerSoddyCircle
    rw [soddy_radius hx hy hz, Res.ok_bind, e, Res.ok_bind, ← eρ]
    dsimp only
    rw [mkCircle_pos hρ]
    rfl
  · rw [pr_circ_tangent hv h1, sqDist_comm, ← dist_sq, dA]
  · rw [pr_circ_tangent hv h2, sqDist_comm, ← dist_sq, dB]
  · rw [pr_circ_tangent hv h3, sqDist_comm, ← dist_sq, dC]
  · rw [circ_zero, circ_zero, circ_zero, circ_zero]
    dsimp only
    rw [eρ, one_div_one_div]
    have : 0 < √(1 / c1.radius / c2.radius + 1 / c2.radius / c3.radius + 1 / c3.radius / c1.radius) := Real.sqrt_pos.2 (by positivity)
    linarith

/-! ### A side and two circles -/

theorem side_radius {a b : ℝ} (ha : 0 < a) (hb : 0 < b) :
    innerSoddyRadius (a ^ 2) (b ^ 2) none = .ok (a ^ 2 * b ^ 2 / (a + b) ^ 2) := by
  have h : (0 : ℝ) ≤ 1 / a ^ 2 / b ^ 2 + 0 + 0 / a ^ 2 := by positivity
  have hs : √(1 / a ^ 2 / b ^ 2 + 0 + 0 / a ^ 2) = 1 / (a * b) := by
    have hpos : 0 ≤ 1 / (a * b) := by positivity
    rw [← Real.sqrt_sq hpos]
    congr 1
    field_simp
    ring
  have h2 : 1 / a ^ 2 + 1 / b ^ 2 + 0 + 2 * (1 / (a * b)) ≠ 0 := by positivity
  have ha2 : a ^ 2 ≠ 0 := by positivity
  have hb2 : b ^ 2 ≠ 0 := by positivity
  simp only [innerSoddyRadius, pyDiv, if_neg ha2, if_neg hb2, Res.ok_bind, pure_bind, pySqrt, if_neg (not_lt.2 h), hs, if_neg h2]
  congr 1
  field_simp
  ring

theorem half_shift {n A B : Pt} (h : dot n (B - A) = 0) : half n B = half n A := by
  unfold half
  have : dot n B = dot n A := by
    simp only [dot, Pt.sub_x, Pt.sub_y] at *
    linear_combination h
  rw [this]

/-- The abscissa of the new circle. -/
theorem side_abscissa {a b x1 x2 : ℝ} (ha : 0 < a) (hb : 0 < b) (h : (x1 - x2) ^ 2 = 4 * a ^ 2 * b ^ 2) :
    ∃ x, (if x1 < x2 then 2 * a ^ 2 * b / (a + b) + x1 else 2 * b ^ 2 * a / (a + b) + x2) = x ∧
      (x - x1) ^ 2 = 4 * a ^ 2 * (a ^ 2 * b ^ 2 / (a + b) ^ 2) ∧ (x - x2) ^ 2 = 4 * b ^ 2 * (a ^ 2 * b ^ 2 / (a + b) ^ 2) := by
  have hab : 0 < a + b := by positivity
  have h' : (x1 - x2 - 2 * a * b) * (x1 - x2 + 2 * a * b) = 0 := by linear_combination h
  have hp : 0 < a * b := by positivity
  refine ⟨_, rfl, ?_⟩
  by_cases hlt : x1 < x2
  · rw [if_pos hlt]
    rcases mul_eq_zero.1 h' with e | e
    · nlinarith
    · have : x2 = x1 + 2 * a * b := by linarith
      rw [this]
      constructor <;> field_simp <;> ring
  · rw [if_neg hlt]
    rcases mul_eq_zero.1 h' with e | e
    · have : x1 = x2 + 2 * a * b := by linarith
      rw [this]
      constructor <;> field_simp <;> ring
    · nlinarith

theorem copysign_mul {ρ s r : ℝ} (hρ : 0 < ρ) (hr : 0 < r) (hs : s ^ 2 = 1) : copysign ρ (s * r) = s * ρ := by
  have : (s - 1) * (s + 1) = 0 := by linear_combination hs
  unfold copysign
  rw [abs_of_pos hρ]
  rcases mul_eq_zero.1 this with e | e
  · have : s = 1 := by linarith
    rw [this, if_neg (by linarith)]; ring
  · have : s = -1 := by linarith
    rw [this, if_pos (by linarith)]; ring

theorem exp_explicit {ex ey : ℝ} (h : ex ^ 2 + ey ^ 2 = 1) (hy : 0 ≤ ey) :
    Complex.exp (-(arccos ex : ℂ) * Complex.I) = ⟨ex, -ey⟩ ∧ Complex.exp (Complex.I * (arccos ex : ℂ)) = ⟨ex, ey⟩ ∧
      pyAcos ex = .ok (arccos ex) := by
  have h1 : -1 ≤ ex := by nlinarith [sq_nonneg ey]
  have h2 : ex ≤ 1 := by nlinarith [sq_nonneg ey]
  have hc := cos_arccos h1 h2
  have hs : sin (arccos ex) = ey := by
    rw [sin_arccos, show 1 - ex ^ 2 = ey ^ 2 by linarith, Real.sqrt_sq hy]
  refine ⟨?_, ?_, ?_⟩
  · rw [show (-(arccos ex : ℂ)) = ((-arccos ex : ℝ) : ℂ) by push_cast; ring]
    apply Complex.ext
    · rw [Complex.exp_ofReal_mul_I_re, cos_neg, hc]
    · rw [Complex.exp_ofReal_mul_I_im, sin_neg, hs]
  · rw [mul_comm]
    apply Complex.ext
    · rw [Complex.exp_ofReal_mul_I_re, hc]
    · rw [Complex.exp_ofReal_mul_I_im, hs]
  · unfold pyAcos
    rw [if_neg (by push Not; exact ⟨h1, h2⟩)]

set_option maxHeartbeats 1000000 in
/-- The circle drawn in a hole between a side and two circles, after the exchange of the two. -/
theorem side0_ok {A B n : Pt} {cA cB : Circle} (hA : cA.Valid) (hB : cB.Valid) (hAB : A ≠ B) (hy : A.y ≤ B.y) (hn : dot n n = 1)
    (ho : dot n (B - A) = 0) (tAB : pr (circ cA) (circ cB) = -1) (tA : pr (circ cA) (half n A) = -1) (tB : pr (circ cB) (half n A) = -1) :
    ∃ c, side_circle_circle0 A B cA cB = .ok ⟨c, [.ccc c cA cB, .ccl cA c A B, .ccl c cB A B]⟩ ∧ c.Valid ∧
      pr (circ c) (circ cA) = -1 ∧ pr (circ c) (circ cB) = -1 ∧ pr (circ c) (half n A) = -1 ∧ circ cA 0 + circ cB 0 < circ c 0 := by
  have pA := pr_circ_half hA n A
  have pB := pr_circ_half hB n A
  rw [tA] at pA
  rw [tB] at pB
  rw [pr_circ_tangent hA hB] at tAB
  have rA : 0 < cA.radius := hA
  have rB : 0 < cB.radius := hB
  obtain ⟨a, ea⟩ : ∃ a, a = √cA.radius := ⟨_, rfl⟩
  obtain ⟨b, eb⟩ : ∃ b, b = √cB.radius := ⟨_, rfl⟩
  have ha : 0 < a := by rw [ea]; exact Real.sqrt_pos.2 rA
  have hb : 0 < b := by rw [eb]; exact Real.sqrt_pos.2 rB
  have ha2 : cA.radius = a ^ 2 := by rw [ea, Real.sq_sqrt rA.le]
  have hb2 : cB.radius = b ^ 2 := by rw [eb, Real.sq_sqrt rB.le]
  have hd := dist_pos_of_ne hAB
  have hd2 := dist_sq A B
  obtain ⟨d, ed⟩ : ∃ d, d = Spec.dist A B := ⟨_, rfl⟩
  rw [← ed] at hd hd2
  obtain ⟨ex, hex⟩ : ∃ ex, ex = (B.x - A.x) / d := ⟨_, rfl⟩
  obtain ⟨ey, hey⟩ : ∃ ey, ey = (B.y - A.y) / d := ⟨_, rfl⟩
  have hey0 : 0 ≤ ey := by rw [hey]; exact div_nonneg (by linarith) hd.le
  have he : ex ^ 2 + ey ^ 2 = 1 := by
    rw [hex, hey, div_pow, div_pow, ← add_div, div_eq_one_iff_eq (by positivity), hd2]
    unfold sqDist; ring
  have hne : n.x * ex + n.y * ey = 0 := by
    rw [hex, hey]
    simp only [dot, Pt.sub_x, Pt.sub_y] at ho
    field_simp
    linear_combination ho
  obtain ⟨s, hs⟩ : ∃ s, s = n.y * ex - n.x * ey := ⟨_, rfl⟩
  have hn' : n.x ^ 2 + n.y ^ 2 = 1 := by unfold dot at hn; linear_combination hn
  have hs2 : s ^ 2 = 1 := by
    rw [hs]
    linear_combination (n.x ^ 2 + n.y ^ 2) * he + hn' - (n.x * ex + n.y * ey) * hne
  have nx : n.x = -(s * ey) := by rw [hs]; linear_combination (-n.x) * he + ex * hne
  have ny : n.y = s * ex := by rw [hs]; linear_combination (-n.y) * he + ey * hne
  obtain ⟨e1, e2, e3⟩ := exp_explicit he hey0
  obtain ⟨x1, hx1⟩ : ∃ x, x = ex * (cA.center.x - A.x) + ey * (cA.center.y - A.y) := ⟨_, rfl⟩
  obtain ⟨x2, hx2⟩ : ∃ x, x = ex * (cB.center.x - A.x) + ey * (cB.center.y - A.y) := ⟨_, rfl⟩
  have y1 : ex * (cA.center.y - A.y) - ey * (cA.center.x - A.x) = s * a ^ 2 := by
    rw [ha2] at pA
    simp only [dot, Pt.sub_x, Pt.sub_y, nx, ny] at pA
    linear_combination s * pA - (ex * (cA.center.y - A.y) - ey * (cA.center.x - A.x)) * hs2
  have y2 : ex * (cB.center.y - A.y) - ey * (cB.center.x - A.x) = s * b ^ 2 := by
    rw [hb2] at pB
    simp only [dot, Pt.sub_x, Pt.sub_y, nx, ny] at pB
    linear_combination s * pB - (ex * (cB.center.y - A.y) - ey * (cB.center.x - A.x)) * hs2
  have vAx : cA.center.x - A.x = x1 * ex - s * a ^ 2 * ey := by rw [hx1, ← y1]; linear_combination -(cA.center.x - A.x) * he
  have vAy : cA.center.y - A.y = x1 * ey + s * a ^ 2 * ex := by rw [hx1, ← y1]; linear_combination -(cA.center.y - A.y) * he
  have vBx : cB.center.x - A.x = x2 * ex - s * b ^ 2 * ey := by rw [hx2, ← y2]; linear_combination -(cB.center.x - A.x) * he
  have vBy : cB.center.y - A.y = x2 * ey + s * b ^ 2 * ex := by rw [hx2, ← y2]; linear_combination -(cB.center.y - A.y) * he
  have h12 : (x1 - x2) ^ 2 = 4 * a ^ 2 * b ^ 2 := by
    have : sqDist cA.center cB.center = (x1 - x2) ^ 2 + (a ^ 2 - b ^ 2) ^ 2 := by
      unfold sqDist
      rw [show cA.center.x - cB.center.x = (cA.center.x - A.x) - (cB.center.x - A.x) by ring,
        show cA.center.y - cB.center.y = (cA.center.y - A.y) - (cB.center.y - A.y) by ring, vAx, vAy, vBx, vBy]
      linear_combination ((x1 - x2) ^ 2 + s ^ 2 * (a ^ 2 - b ^ 2) ^ 2) * he + (a ^ 2 - b ^ 2) ^ 2 * hs2
    rw [this, ha2, hb2] at tAB
    linear_combination tAB
  obtain ⟨x, hx, q1, q2⟩ := side_abscissa ha hb h12
  obtain ⟨ρ, hρe⟩ : ∃ ρ, ρ = a ^ 2 * b ^ 2 / (a + b) ^ 2 := ⟨_, rfl⟩
  have hρ : 0 < ρ := by rw [hρe]; positivity
  rw [← hρe] at q1 q2
  have hv : (⟨⟨ex * x - ey * (s * ρ) + A.x, ex * (s * ρ) + ey * x + A.y⟩, ρ⟩ : Circle).Valid := hρ
  refine ⟨⟨⟨ex * x - ey * (s * ρ) + A.x, ex * (s * ρ) + ey * x + A.y⟩, ρ⟩, ?_, hv, ?_, ?_, ?_, ?_⟩
  · unfold side_circle_circle0
    dsimp only
    rw [distance_eq, ← ed, npDiv, if_neg hd.ne', ← hex, Res.ok_bind, e3, Res.ok_bind, e1, e2, ha2, hb2, side_radius ha hb, Res.ok_bind,
      ← hρe, pySqrt, if_neg (not_lt.2 (sq_nonneg a)), Real.sqrt_sq ha.le, Res.ok_bind, pySqrt, if_neg (not_lt.2 (sq_nonneg b)), Real.sqrt_sq hb.le, Res.ok_bind]
    have z1 : ((⟨ex, -ey⟩ : ℂ) * ((⟨cA.center.x, cA.center.y⟩ : ℂ) - ⟨A.x, A.y⟩)) = ⟨x1, s * a ^ 2⟩ := by
      apply Complex.ext
      · simp only [Complex.mul_re, Complex.sub_re, Complex.sub_im]; rw [hx1]; ring
      · simp only [Complex.mul_im, Complex.sub_re, Complex.sub_im]; rw [← y1]; ring
    have z2 : ((⟨ex, -ey⟩ : ℂ) * ((⟨cB.center.x, cB.center.y⟩ : ℂ) - ⟨A.x, A.y⟩)) = ⟨x2, s * b ^ 2⟩ := by
      apply Complex.ext
      · simp only [Complex.mul_re, Complex.sub_re, Complex.sub_im]; rw [hx2]; ring
      · simp only [Complex.mul_im, Complex.sub_re, Complex.sub_im]; rw [← y2]; ring
    rw [z1, z2]
    dsimp only
    have hab : a + b ≠ 0 := by positivity
    rw [copysign_mul hρ (by positivity) hs2]
    have z3 : ((⟨ex, ey⟩ : ℂ) * ⟨x, s * ρ⟩ + ⟨A.x, A.y⟩) = ⟨ex * x - ey * (s * ρ) + A.x, ex * (s * ρ) + ey * x + A.y⟩ := by
      apply Complex.ext
      · simp only [Complex.mul_re, Complex.add_re]
      · simp only [Complex.mul_im, Complex.add_im]
    by_cases hlt : x1 < x2
    · rw [if_pos hlt] at hx ⊢
      rw [pyDiv, if_neg hab, Res.ok_bind, pure_bind, hx, z3]
      dsimp only
      rw [mkCircle_pos hρ]
      rfl
    · rw [if_neg hlt] at hx ⊢
      rw [pyDiv, if_neg hab, Res.ok_bind, pure_bind, hx, z3]
      dsimp only
      rw [mkCircle_pos hρ]
      rfl
  · rw [pr_circ_tangent hv hA, sqDist]
    dsimp only
    rw [show ex * x - ey * (s * ρ) + A.x - cA.center.x = ex * x - ey * (s * ρ) - (cA.center.x - A.x) by ring,
      show ex * (s * ρ) + ey * x + A.y - cA.center.y = ex * (s * ρ) + ey * x - (cA.center.y - A.y) by ring, vAx, vAy, ha2]
    linear_combination ((x - x1) ^ 2 + s ^ 2 * (ρ - a ^ 2) ^ 2) * he + (ρ - a ^ 2) ^ 2 * hs2 + q1
  · rw [pr_circ_tangent hv hB, sqDist]
    dsimp only
    rw [show ex * x - ey * (s * ρ) + A.x - cB.center.x = ex * x - ey * (s * ρ) - (cB.center.x - A.x) by ring,
      show ex * (s * ρ) + ey * x + A.y - cB.center.y = ex * (s * ρ) + ey * x - (cB.center.y - A.y) by ring, vBx, vBy, hb2]
    linear_combination ((x - x2) ^ 2 + s ^ 2 * (ρ - b ^ 2) ^ 2) * he + (ρ - b ^ 2) ^ 2 * hs2 + q2
  · have := pr_circ_half hv n A
    dsimp only at this
    apply mul_right_cancel₀ hρ.ne'
    rw [this]
    simp only [dot, Pt.sub_x, Pt.sub_y, nx, ny]
    linear_combination (-(s ^ 2 * ρ)) * he - ρ * hs2
  · rw [circ_zero, circ_zero, circ_zero]
    dsimp only
    rw [hρe, ha2, hb2]
    have : 1 / (a ^ 2 * b ^ 2 / (a + b) ^ 2) = 1 / a ^ 2 + 1 / b ^ 2 + 2 / (a * b) := by field_simp; ring
    rw [this]
    have : 0 < 2 / (a * b) := by positivity
    linarith

/-- The circle drawn in a hole between a side and two circles. -/
theorem side_ok {A B n : Pt} {cA cB : Circle} (hA : cA.Valid) (hB : cB.Valid) (hAB : A ≠ B) (hn : dot n n = 1)
    (ho : dot n (B - A) = 0) (tAB : pr (circ cA) (circ cB) = -1) (tA : pr (circ cA) (half n A) = -1) (tB : pr (circ cB) (half n A) = -1) :
    ∃ c, (side_circle_circle A B cA cB = .ok ⟨c, [.ccc c cA cB, .ccl cA c A B, .ccl c cB A B]⟩ ∨
        side_circle_circle A B cA cB = .ok ⟨c, [.ccc c cB cA, .ccl cB c B A, .ccl c cA B A]⟩) ∧ c.Valid ∧
      pr (circ c) (circ cA) = -1 ∧ pr (circ c) (circ cB) = -1 ∧ pr (circ c) (half n A) = -1 ∧ circ cA 0 + circ cB 0 < circ c 0 := by
  unfold side_circle_circle
  by_cases h : A.y > B.y
  · have hh := half_shift ho
    obtain ⟨c, e, v, p1, p2, p3, p4⟩ := side0_ok hB hA hAB.symm (le_of_lt h) hn
      (by simp only [dot, Pt.sub_x, Pt.sub_y] at *; linear_combination -ho) ((pr_comm _ _).trans tAB) (by rw [hh]; exact tB) (by rw [hh]; exact tA)
    rw [if_pos h]
    rw [hh] at p3
    exact ⟨c, Or.inr e, v, p2, p1, p3, by linarith⟩
  · obtain ⟨c, e, v, p1, p2, p3, p4⟩ := side0_ok hA hB hAB (not_lt.1 h) hn ho tAB tA tB
    rw [if_neg h]
    exact ⟨c, Or.inl e, v, p1, p2, p3, p4⟩

end TriGasket
