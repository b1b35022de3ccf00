import Verif.Props.Triangle
import Verif.Props.SteinerEllipse
import Verif.Model.Aliases

/-!
# C85, C86: identities between the circles of a triangle

The methods of `Triangle` compute the incircle, the excircles, the circumcircle, the angles, the side lengths and the orthic
triangle by separate formulas; here their results are related to each other.
-/

open Spec Real Classical

namespace TriId

/-- The circles of a non-flat triangle in terms of the tangent lengths `x`, `y`, `z` and of twice the area `S`. -/
theorem circles (T : Triangle) (h : ¬ Collinear T.A T.B T.C) :
    ∃ x y z S : ℝ, 0 < x ∧ 0 < y ∧ 0 < z ∧ 0 < S ∧ S = |cross (T.B - T.A) (T.C - T.A)| ∧
      S ^ 2 = 4 * (x * y * z * (x + y + z)) ∧
      Spec.dist T.B T.C = y + z ∧ Spec.dist T.A T.C = z + x ∧ Spec.dist T.A T.B = x + y ∧
      T.incircle = .ok ⟨((y + z) • T.A + (z + x) • T.B + (x + y) • T.C) / (2 * (x + y + z)), S / (2 * (x + y + z))⟩ ∧
      T.excircles = .ok (⟨((-(y + z)) • T.A + (z + x) • T.B + (x + y) • T.C) / (2 * x), S / (2 * x)⟩,
        ⟨((y + z) • T.A + (-(z + x)) • T.B + (x + y) • T.C) / (2 * y), S / (2 * y)⟩,
        ⟨((y + z) • T.A + (z + x) • T.B + (-(x + y)) • T.C) / (2 * z), S / (2 * z)⟩) := by
  obtain ⟨x, y, z, hx, hy, hz, ha, hb, hc, hS⟩ := ravi h
  have hS0 : 0 < |cross (T.B - T.A) (T.C - T.A)| := abs_pos.2 h
  obtain ⟨S, eS⟩ : ∃ S, S = |cross (T.B - T.A) (T.C - T.A)| := ⟨_, rfl⟩
  have hS' : S ^ 2 = 4 * (x * y * z * (x + y + z)) := by rw [eS, sq_abs, hS]
  rw [← eS] at hS0
  refine ⟨x, y, z, S, hx, hy, hz, hS0, eS, hS', ha, hb, hc, ?_, ?_⟩
  · unfold Triangle.incircle
    dsimp only
    rw [distance_eq, distance_eq, distance_eq, dist_comm T.B T.A, ha, hb, hc, heron_sqrt hx hy hz hS, Res.ok_bind,
      if_neg (by positivity), ← eS, mkCircle_pos (by positivity)]
    refine congrArg Except.ok ?_
    rw [show y + z + (z + x) + (x + y) = 2 * (x + y + z) by ring]
    congr 1
    field_simp
  · unfold Triangle.excircles
    dsimp only
    rw [distance_eq, distance_eq, distance_eq, dist_comm T.B T.A, ha, hb, hc]
    rw [show -(y + z) + (z + x) + (x + y) = 2 * x by ring, show y + z - (z + x) + (x + y) = 2 * y by ring,
      show y + z + (z + x) - (x + y) = 2 * z by ring, show (y + z + (z + x) + (x + y)) / 2 = x + y + z by ring,
      show x + y + z - (y + z) = x by ring, show x + y + z - (z + x) = y by ring, show x + y + z - (x + y) = z by ring,
      if_neg (by push Not; exact ⟨by positivity, by positivity, by positivity⟩)]
    have s1 : pySqrt ((x + y + z) * y * z / x) = .ok (S / (2 * x)) := by
      rw [show (x + y + z) * y * z / x = (S / (2 * x)) ^ 2 by rw [div_pow, hS']; field_simp; ring]
      unfold pySqrt
      rw [if_neg (not_lt.2 (sq_nonneg _)), Real.sqrt_sq (by positivity)]
    have s2 : pySqrt ((x + y + z) * x * z / y) = .ok (S / (2 * y)) := by
      rw [show (x + y + z) * x * z / y = (S / (2 * y)) ^ 2 by rw [div_pow, hS']; field_simp; ring]
      unfold pySqrt
      rw [if_neg (not_lt.2 (sq_nonneg _)), Real.sqrt_sq (by positivity)]
    have s3 : pySqrt ((x + y + z) * x * y / z) = .ok (S / (2 * z)) := by
      rw [show (x + y + z) * x * y / z = (S / (2 * z)) ^ 2 by rw [div_pow, hS']; field_simp; ring]
      unfold pySqrt
      rw [if_neg (not_lt.2 (sq_nonneg _)), Real.sqrt_sq (by positivity)]
    rw [s1, s2, s3]
    simp only [Res.ok_bind]
    rw [mkCircle_pos (by positivity), mkCircle_pos (by positivity), mkCircle_pos (by positivity)]
    simp only [Res.ok_bind]
    have hJB : ((y + z) • T.A - (z + x) • T.B + (x + y) • T.C) / (2 * y) =
        ((y + z) • T.A + (-(z + x)) • T.B + (x + y) • T.C) / (2 * y) := by
      ext <;> simp <;> ring
    have hJC : ((y + z) • T.A + (z + x) • T.B - (x + y) • T.C) / (2 * z) =
        ((y + z) • T.A + (z + x) • T.B + (-(x + y)) • T.C) / (2 * z) := by
      ext <;> simp <;> ring
    rw [hJB, hJC]
    rfl

/-- `abc = 2 R S`. -/
theorem circumradius {A B C O : Pt} {R a b c S : ℝ} (hR : 0 < R) (ha : 0 ≤ a) (hb : 0 ≤ b) (hc : 0 ≤ c) (hS : 0 ≤ S)
    (ea : sqDist B C = a ^ 2) (eb : sqDist A C = b ^ 2) (ec : sqDist A B = c ^ 2) (eS : S ^ 2 = cross (B - A) (C - A) ^ 2)
    (hA : OnCircle O R A) (hB : OnCircle O R B) (hC : OnCircle O R C) : 2 * R * S = a * b * c := by
  have key : (2 * R * S) ^ 2 = (a * b * c) ^ 2 := by
    rw [show (2 * R * S) ^ 2 = 4 * R ^ 2 * S ^ 2 by ring, eS, show (a * b * c) ^ 2 = a ^ 2 * b ^ 2 * c ^ 2 by ring,
      ← ea, ← eb, ← ec]
    unfold OnCircle sqDist at hA hB hC
    unfold sqDist cross
    simp only [Pt.sub_x, Pt.sub_y]
    obtain ⟨u1, e1⟩ : ∃ u, u = B.x - A.x := ⟨_, rfl⟩
    obtain ⟨u2, e2⟩ : ∃ u, u = B.y - A.y := ⟨_, rfl⟩
    obtain ⟨v1, e3⟩ : ∃ u, u = C.x - A.x := ⟨_, rfl⟩
    obtain ⟨v2, e4⟩ : ∃ u, u = C.y - A.y := ⟨_, rfl⟩
    obtain ⟨o1, e5⟩ : ∃ u, u = O.x - A.x := ⟨_, rfl⟩
    obtain ⟨o2, e6⟩ : ∃ u, u = O.y - A.y := ⟨_, rfl⟩
    have k1 : 2 * (o1 * u1 + o2 * u2) = u1 ^ 2 + u2 ^ 2 := by
      rw [e1, e2, e5, e6]; linear_combination hA - hB
    have k2 : 2 * (o1 * v1 + o2 * v2) = v1 ^ 2 + v2 ^ 2 := by
      rw [e3, e4, e5, e6]; linear_combination hA - hC
    have k3 : R ^ 2 = o1 ^ 2 + o2 ^ 2 := by rw [e5, e6, ← hA]; ring
    rw [← e1, ← e2, ← e3, ← e4, k3, show B.x - C.x = u1 - v1 by rw [e1, e3]; ring, show B.y - C.y = u2 - v2 by rw [e2, e4]; ring,
      show A.x - C.x = -v1 by rw [e3]; ring, show A.y - C.y = -v2 by rw [e4]; ring,
      show A.x - B.x = -u1 by rw [e1]; ring, show A.y - B.y = -u2 by rw [e2]; ring]
    have l : 4 * (o1 ^ 2 + o2 ^ 2) * (u1 * v2 - u2 * v1) ^ 2 =
        ((2 * (o1 * u1 + o2 * u2)) * v1 - (2 * (o1 * v1 + o2 * v2)) * u1) ^ 2 +
        ((2 * (o1 * u1 + o2 * u2)) * v2 - (2 * (o1 * v1 + o2 * v2)) * u2) ^ 2 := by ring
    rw [l, k1, k2]
    ring
  have h1 : 0 ≤ 2 * R * S := by positivity
  have h2 : 0 ≤ a * b * c := by positivity
  exact (pow_left_inj₀ h1 h2 two_ne_zero).1 key

/-- Square of a combination of three vectors of the same length. -/
theorem comb {A B C O : Pt} {R u v w : ℝ} (hA : OnCircle O R A) (hB : OnCircle O R B) (hC : OnCircle O R C) :
    (u * (A.x - O.x) + v * (B.x - O.x) + w * (C.x - O.x)) ^ 2 + (u * (A.y - O.y) + v * (B.y - O.y) + w * (C.y - O.y)) ^ 2 =
      (u + v + w) ^ 2 * R ^ 2 - (u * v * sqDist A B + v * w * sqDist B C + w * u * sqDist A C) := by
  unfold OnCircle sqDist at hA hB hC
  unfold sqDist
  linear_combination (u + v + w) * u * hA + (u + v + w) * v * hB + (u + v + w) * w * hC

/-- Squared distance from the circumcenter to a point given by weights. -/
theorem dist_center {A B C O : Pt} {R u v w n : ℝ} (hA : OnCircle O R A) (hB : OnCircle O R B) (hC : OnCircle O R C)
    (hn : n ≠ 0) (h : u + v + w = n) :
    sqDist O ((u • A + v • B + w • C) / n) = R ^ 2 - (u * v * sqDist A B + v * w * sqDist B C + w * u * sqDist A C) / n ^ 2 := by
  have k := comb (u := u) (v := v) (w := w) hA hB hC
  have e : sqDist O ((u • A + v • B + w • C) / n) = ((u * (A.x - O.x) + v * (B.x - O.x) + w * (C.x - O.x)) ^ 2 +
      (u * (A.y - O.y) + v * (B.y - O.y) + w * (C.y - O.y)) ^ 2) / n ^ 2 := by
    unfold sqDist
    simp only [Pt.div_x, Pt.div_y, Pt.add_x, Pt.add_y, Pt.smul_x, Pt.smul_y]
    field_simp
    rw [← h]; ring
  rw [e, k, h]
  field_simp

/-- Squared distance from the nine-point center `(A + B + C - O)/2` to a point given by weights. -/
theorem dist_nine {A B C O : Pt} {R u v w n : ℝ} (hA : OnCircle O R A) (hB : OnCircle O R B) (hC : OnCircle O R C)
    (hn : n ≠ 0) (h : u + v + w = n) :
    sqDist ((A + B + C - O) / (2 : ℝ)) ((u • A + v • B + w • C) / n) =
      R ^ 2 / 4 - ((n - 2 * u) * (n - 2 * v) * sqDist A B + (n - 2 * v) * (n - 2 * w) * sqDist B C +
        (n - 2 * w) * (n - 2 * u) * sqDist A C) / (4 * n ^ 2) := by
  have k := comb (u := n - 2 * u) (v := n - 2 * v) (w := n - 2 * w) hA hB hC
  have e : sqDist ((A + B + C - O) / (2 : ℝ)) ((u • A + v • B + w • C) / n) =
      (((n - 2 * u) * (A.x - O.x) + (n - 2 * v) * (B.x - O.x) + (n - 2 * w) * (C.x - O.x)) ^ 2 +
      ((n - 2 * u) * (A.y - O.y) + (n - 2 * v) * (B.y - O.y) + (n - 2 * w) * (C.y - O.y)) ^ 2) / (4 * n ^ 2) := by
    unfold sqDist
    simp only [Pt.div_x, Pt.div_y, Pt.add_x, Pt.add_y, Pt.smul_x, Pt.smul_y, Pt.sub_x, Pt.sub_y]
    field_simp
    rw [← h]; ring
  rw [e, k, show n - 2 * u + (n - 2 * v) + (n - 2 * w) = n by linarith]
  field_simp

end TriId

/-- C85: `edges` are the distances between the vertices. -/
theorem C85_edges (T : Triangle) : T.edges = (Spec.dist T.B T.C, Spec.dist T.C T.A, Spec.dist T.A T.B) := by
  unfold Triangle.edges Triangle.a Triangle.b Triangle.c
  rw [distance_eq, distance_eq, distance_eq, dist_comm T.C T.A]

/-- The 3-4-5 triangle. -/
theorem Ex.edges345 : (⟨⟨0, 0⟩, ⟨4, 0⟩, ⟨0, 3⟩⟩ : Triangle).edges = (5, 3, 4) := by
  have e1 : Spec.dist (⟨4, 0⟩ : Pt) ⟨0, 3⟩ = 5 := by rw [dist_eq_iff (by norm_num)]; norm_num [sqDist]
  have e2 : Spec.dist (⟨0, 3⟩ : Pt) ⟨0, 0⟩ = 3 := by rw [dist_eq_iff (by norm_num)]; norm_num [sqDist]
  have e3 : Spec.dist (⟨0, 0⟩ : Pt) ⟨4, 0⟩ = 4 := by rw [dist_eq_iff (by norm_num)]; norm_num [sqDist]
  rw [C85_edges, e1, e2, e3]

example : (⟨⟨0, 0⟩, ⟨4, 0⟩, ⟨0, 3⟩⟩ : Triangle).edges = (5, 3, 4) := Ex.edges345

/-- C85: Euler's relations between the circumcircle, the incircle and the excircles of a non-flat triangle. -/
theorem C85_euler (T : Triangle) (h : ¬ Collinear T.A T.B T.C) :
    ∃ o i eA eB eC, T.circumcircle = .ok (some o) ∧ T.incircle = .ok i ∧ T.excircles = .ok (eA, eB, eC) ∧
      Spec.dist o.center i.center ^ 2 = o.radius * (o.radius - 2 * i.radius) ∧
      Spec.dist o.center eA.center ^ 2 = o.radius * (o.radius + 2 * eA.radius) ∧
      Spec.dist o.center eB.center ^ 2 = o.radius * (o.radius + 2 * eB.radius) ∧
      Spec.dist o.center eC.center ^ 2 = o.radius * (o.radius + 2 * eC.radius) := by
  obtain ⟨o, ho, hR, hA, hB, hC, -⟩ := C40_circumcircle T h
  obtain ⟨x, y, z, S, hx, hy, hz, hS0, eS, hS, ha, hb, hc, hi, he⟩ := TriId.circles T h
  have a2 : sqDist T.B T.C = (y + z) ^ 2 := by rw [← dist_sq, ha]
  have b2 : sqDist T.A T.C = (z + x) ^ 2 := by rw [← dist_sq, hb]
  have c2 : sqDist T.A T.B = (x + y) ^ 2 := by rw [← dist_sq, hc]
  have hRS := TriId.circumradius hR (by positivity) (by positivity) (by positivity) hS0.le a2 b2 c2 (by rw [eS, sq_abs]) hA hB hC
  refine ⟨o, _, _, _, _, ho, hi, he, ?_, ?_, ?_, ?_⟩
  · rw [dist_sq, TriId.dist_center hA hB hC (by positivity) (by ring), a2, b2, c2]
    dsimp only
    field_simp
    linear_combination (x + y + z) * 2 * hRS
  · rw [dist_sq, TriId.dist_center hA hB hC (by positivity) (by ring), a2, b2, c2]
    dsimp only
    field_simp
    linear_combination (-x) * 2 * hRS
  · rw [dist_sq, TriId.dist_center hA hB hC (by positivity) (by ring), a2, b2, c2]
    dsimp only
    field_simp
    linear_combination (-y) * 2 * hRS
  · rw [dist_sq, TriId.dist_center hA hB hC (by positivity) (by ring), a2, b2, c2]
    dsimp only
    field_simp
    linear_combination (-z) * 2 * hRS

/-- C85: the radii, the side lengths and the area (`|cross|` is twice the area). -/
theorem C85_radii (T : Triangle) (h : ¬ Collinear T.A T.B T.C) :
    ∃ o i eA eB eC a b c, T.circumcircle = .ok (some o) ∧ T.incircle = .ok i ∧ T.excircles = .ok (eA, eB, eC) ∧ T.edges = (a, b, c) ∧
      i.radius * (a + b + c) = |cross (T.B - T.A) (T.C - T.A)| ∧
      a * b * c = 2 * o.radius * |cross (T.B - T.A) (T.C - T.A)| ∧
      1 / i.radius = 1 / eA.radius + 1 / eB.radius + 1 / eC.radius ∧
      eA.radius + eB.radius + eC.radius = 4 * o.radius + i.radius ∧
      cross (T.B - T.A) (T.C - T.A) ^ 2 = 4 * (i.radius * eA.radius * eB.radius * eC.radius) := by
  obtain ⟨o, ho, hR, hA, hB, hC, -⟩ := C40_circumcircle T h
  obtain ⟨x, y, z, S, hx, hy, hz, hS0, eS, hS, ha, hb, hc, hi, he⟩ := TriId.circles T h
  have a2 : sqDist T.B T.C = (y + z) ^ 2 := by rw [← dist_sq, ha]
  have b2 : sqDist T.A T.C = (z + x) ^ 2 := by rw [← dist_sq, hb]
  have c2 : sqDist T.A T.B = (x + y) ^ 2 := by rw [← dist_sq, hc]
  have hRS := TriId.circumradius hR (by positivity) (by positivity) (by positivity) hS0.le a2 b2 c2 (by rw [eS, sq_abs]) hA hB hC
  refine ⟨o, _, _, _, _, _, _, _, ho, hi, he, C85_edges T, ?_, ?_, ?_, ?_, ?_⟩
  · rw [dist_comm T.C T.A, ha, hb, hc, ← eS]
    dsimp only
    field_simp
    ring
  · rw [dist_comm T.C T.A, ha, hb, hc, ← eS, hRS]
  · dsimp only
    field_simp
  · dsimp only
    apply mul_left_cancel₀ (show (S : ℝ) ≠ 0 from hS0.ne')
    have e1 : S * (4 * o.radius + S / (2 * (x + y + z))) = 2 * ((y + z) * (z + x) * (x + y)) + S ^ 2 / (2 * (x + y + z)) := by
      rw [← hRS]; field_simp; ring
    have e2 : S * (S / (2 * x) + S / (2 * y) + S / (2 * z)) = S ^ 2 * (1 / (2 * x) + 1 / (2 * y) + 1 / (2 * z)) := by
      field_simp
    rw [e1, e2, hS]
    field_simp
    ring
  · dsimp only
    rw [← sq_abs, ← eS]
    have : 4 * (S / (2 * (x + y + z)) * (S / (2 * x)) * (S / (2 * y)) * (S / (2 * z))) =
        S ^ 2 * (S ^ 2 / (4 * (x * y * z * (x + y + z)))) := by field_simp; ring
    rw [this, ← hS]
    field_simp

/-- C85: the law of sines. -/
theorem C85_sines (T : Triangle) (h : ¬ Collinear T.A T.B T.C) :
    ∃ o α β γ a b c, T.circumcircle = .ok (some o) ∧ T.angleA = .ok α ∧ T.angleB = .ok β ∧ T.angleC = .ok γ ∧ T.edges = (a, b, c) ∧
      a = 2 * o.radius * sin α ∧ b = 2 * o.radius * sin β ∧ c = 2 * o.radius * sin γ := by
  obtain ⟨o, ho, hR, hA, hB, hC, -⟩ := C40_circumcircle T h
  obtain ⟨x, y, z, S, hx, hy, hz, hS0, eS, hS, ha, hb, hc, hi, he⟩ := TriId.circles T h
  have a2 : sqDist T.B T.C = (y + z) ^ 2 := by rw [← dist_sq, ha]
  have b2 : sqDist T.A T.C = (z + x) ^ 2 := by rw [← dist_sq, hb]
  have c2 : sqDist T.A T.B = (x + y) ^ 2 := by rw [← dist_sq, hc]
  have hRS := TriId.circumradius hR (by positivity) (by positivity) (by positivity) hS0.le a2 b2 c2 (by rw [eS, sq_abs]) hA hB hC
  obtain ⟨h1, h2, h3⟩ := ne_of_not_collinear h
  refine ⟨o, angleAt T.B T.A T.C, angleAt T.A T.B T.C, angleAt T.A T.C T.B, _, _, _, ho, ?_, ?_, ?_, C85_edges T, ?_, ?_, ?_⟩
  · exact angle_aux T.A T.B T.C h1 h2
  · exact angle_aux T.B T.A T.C h1.symm h3
  · have e : dot_ (T.A - T.C) (T.B - T.C) = dot_ (T.B - T.C) (T.A - T.C) := by unfold dot_; ring
    unfold Triangle.angleC
    dsimp only
    rw [e]
    exact angle_aux T.C T.A T.B h2.symm h3.symm
  · rw [sin_angleAt _ _ _ h1 h2, ← eS, ha, hb, hc]
    field_simp
    linear_combination -hRS
  · rw [sin_angleAt _ _ _ h1.symm h3, dist_comm T.B T.A, dist_comm T.C T.A,
      show |cross (T.A - T.B) (T.C - T.B)| = S by rw [eS, ← abs_neg]; congr 1; simp only [cross, Pt.sub_x, Pt.sub_y]; ring, ha, hb, hc]
    field_simp
    linear_combination -hRS
  · rw [sin_angleAt _ _ _ h2.symm h3.symm, dist_comm T.C T.A, dist_comm T.C T.B,
      show |cross (T.A - T.C) (T.B - T.C)| = S by rw [eS]; congr 1; simp only [cross, Pt.sub_x, Pt.sub_y]; ring, ha, hb, hc]
    field_simp
    linear_combination -hRS

/-- In the 3-4-5 triangle the incircle has radius 1, the circumcircle 5/2, the distance of the centers is `√5 / 2`
and the sine of the angle at `(4, 0)` is 3/5. -/
example : ∃ o i β, (⟨⟨0, 0⟩, ⟨4, 0⟩, ⟨0, 3⟩⟩ : Triangle).circumcircle = .ok (some o) ∧
    (⟨⟨0, 0⟩, ⟨4, 0⟩, ⟨0, 3⟩⟩ : Triangle).incircle = .ok i ∧ (⟨⟨0, 0⟩, ⟨4, 0⟩, ⟨0, 3⟩⟩ : Triangle).angleB = .ok β ∧
    i.radius = 1 ∧ o.radius = 5 / 2 ∧ Spec.dist o.center i.center ^ 2 = 5 / 4 ∧ sin β = 3 / 5 := by
  have hc : ¬ Collinear (⟨0, 0⟩ : Pt) ⟨4, 0⟩ ⟨0, 3⟩ := by norm_num [Collinear, cross]
  have hx : |cross ((⟨4, 0⟩ : Pt) - ⟨0, 0⟩) ((⟨0, 3⟩ : Pt) - ⟨0, 0⟩)| = 12 := by norm_num [cross]
  obtain ⟨o, i, eA, eB, eC, h1, h2, -, h3, -⟩ := C85_euler ⟨⟨0, 0⟩, ⟨4, 0⟩, ⟨0, 3⟩⟩ hc
  obtain ⟨o', i', eA', eB', eC', a, b, c, h1', h2', -, h4, h5, h6, -⟩ := C85_radii ⟨⟨0, 0⟩, ⟨4, 0⟩, ⟨0, 3⟩⟩ hc
  obtain ⟨o'', α, β, γ, a', b', c', h1'', -, h7, -, h8, -, h9, -⟩ := C85_sines ⟨⟨0, 0⟩, ⟨4, 0⟩, ⟨0, 3⟩⟩ hc
  rw [h1] at h1' h1''
  rw [h2] at h2'
  cases h1'
  cases h1''
  cases h2'
  rw [Ex.edges345] at h4 h8
  cases h4
  cases h8
  simp only [hx] at h5 h6
  have hi : i.radius = 1 := by linarith
  have ho : o.radius = 5 / 2 := by linarith
  refine ⟨o, i, β, h1, h2, h7, hi, ho, by rw [h3, ho, hi]; norm_num, ?_⟩
  rw [ho] at h9
  linarith

/-! ## C86: the nine-point circle -/

namespace TriId

/-- The foot of an altitude is on the nine-point circle. -/
theorem foot_on_nine {A B C O F : Pt} {R : ℝ} (hA : OnCircle O R A) (hB : OnCircle O R B) (hC : OnCircle O R C)
    (h1 : OnLine B C F) (h2 : Perp (F - A) (C - B)) : OnCircle ((A + B + C - O) / (2 : ℝ)) (R / 2) F := by
  obtain ⟨t, rfl⟩ := h1
  unfold OnCircle sqDist at hA hB hC ⊢
  unfold Perp dot at h2
  simp only [Pt.div_x, Pt.div_y, Pt.add_x, Pt.add_y, Pt.smul_x, Pt.smul_y, Pt.sub_x, Pt.sub_y] at h2 ⊢
  linear_combination (t - 1 / 2) * h2 + (t / 2 - 1 / 4) * hB + (1 / 4 - t / 2) * hC + 1 / 4 * hA

/-- The midpoint of a side is on the nine-point circle. -/
theorem mid_on_nine {A B C O : Pt} {R : ℝ} (hA : OnCircle O R A) : OnCircle ((A + B + C - O) / (2 : ℝ)) (R / 2) (midPt B C) := by
  unfold OnCircle sqDist at hA ⊢
  unfold midPt
  simp only [Pt.div_x, Pt.div_y, Pt.add_x, Pt.add_y, Pt.sub_x, Pt.sub_y]
  linear_combination hA / 4

/-- The orthic triangle of a triangle without right angle is not flat. -/
theorem orthic_not_flat {A B C H K L : Pt} (h : ¬ Collinear A B C) (rA : ¬ Perp (B - A) (C - A)) (rB : ¬ Perp (A - B) (C - B))
    (rC : ¬ Perp (A - C) (B - C)) (h1 : OnLine B C H) (p1 : Perp (H - A) (C - B)) (h2 : OnLine C A K) (p2 : Perp (K - B) (A - C))
    (h3 : OnLine A B L) (p3 : Perp (L - C) (B - A)) : ¬ Collinear H K L := by
  obtain ⟨t, rfl⟩ := h1
  obtain ⟨s, rfl⟩ := h2
  obtain ⟨r, rfl⟩ := h3
  intro hc
  obtain ⟨n1, n2, n3⟩ := ne_of_not_collinear h
  have q1 : t * sqDist B C = dot (A - B) (C - B) := by
    unfold Perp dot at p1; unfold sqDist dot
    simp only [Pt.add_x, Pt.add_y, Pt.smul_x, Pt.smul_y, Pt.sub_x, Pt.sub_y] at p1 ⊢
    linear_combination p1
  have q1' : (1 - t) * sqDist B C = dot (A - C) (B - C) := by
    have : sqDist B C = dot (A - B) (C - B) + dot (A - C) (B - C) := by
      simp only [sqDist, dot, Pt.sub_x, Pt.sub_y]; ring
    linarith
  have q2 : s * sqDist A C = dot (A - C) (B - C) := by
    unfold Perp dot at p2; unfold sqDist dot
    simp only [Pt.add_x, Pt.add_y, Pt.smul_x, Pt.smul_y, Pt.sub_x, Pt.sub_y] at p2 ⊢
    linear_combination p2
  have q2' : (1 - s) * sqDist A C = dot (B - A) (C - A) := by
    have : sqDist A C = dot (A - C) (B - C) + dot (B - A) (C - A) := by
      simp only [sqDist, dot, Pt.sub_x, Pt.sub_y]; ring
    linarith
  have q3 : r * sqDist A B = dot (B - A) (C - A) := by
    unfold Perp dot at p3; unfold sqDist dot
    simp only [Pt.add_x, Pt.add_y, Pt.smul_x, Pt.smul_y, Pt.sub_x, Pt.sub_y] at p3 ⊢
    linear_combination p3
  have q3' : (1 - r) * sqDist A B = dot (A - B) (C - B) := by
    have : sqDist A B = dot (A - B) (C - B) + dot (B - A) (C - A) := by
      simp only [sqDist, dot, Pt.sub_x, Pt.sub_y]; ring
    linarith
  have e : cross ((C + s • (A - C)) - (B + t • (C - B))) ((A + r • (B - A)) - (B + t • (C - B))) =
      cross (B - A) (C - A) * (t * s * r + (1 - t) * (1 - s) * (1 - r)) := by
    simp only [cross, Pt.add_x, Pt.add_y, Pt.smul_x, Pt.smul_y, Pt.sub_x, Pt.sub_y]; ring
  unfold Spec.Collinear at hc h
  rw [e] at hc
  have hz := (mul_eq_zero.1 hc).resolve_left h
  have : 2 * (dot (B - A) (C - A) * dot (A - B) (C - B) * dot (A - C) (B - C)) = 0 := by
    have : 2 * (dot (B - A) (C - A) * dot (A - B) (C - B) * dot (A - C) (B - C)) =
        (t * s * r + (1 - t) * (1 - s) * (1 - r)) * (sqDist B C * sqDist A C * sqDist A B) := by
      have k1 : t * s * r * (sqDist B C * sqDist A C * sqDist A B) = (t * sqDist B C) * (s * sqDist A C) * (r * sqDist A B) := by ring
      have k2 : (1 - t) * (1 - s) * (1 - r) * (sqDist B C * sqDist A C * sqDist A B) =
          ((1 - t) * sqDist B C) * ((1 - s) * sqDist A C) * ((1 - r) * sqDist A B) := by ring
      rw [add_mul, k1, k2, q1, q1', q2, q2', q3, q3']; ring
    rw [this, hz, zero_mul]
  have h2 : dot (B - A) (C - A) * dot (A - B) (C - B) * dot (A - C) (B - C) ≠ 0 := mul_ne_zero (mul_ne_zero rA rB) rC
  exact h2 (by linarith)

end TriId

/-- C86: for a triangle without right angle, the circumcircle of the orthic triangle passes through the midpoints of the
sides, its radius is half the circumradius, the incircle touches it from the inside
and the three excircles touch it from outside (Feuerbach). -/
theorem C86_feuerbach (T : Triangle) (h : ¬ Collinear T.A T.B T.C) (rA : ¬ Perp (T.B - T.A) (T.C - T.A))
    (rB : ¬ Perp (T.A - T.B) (T.C - T.B)) (rC : ¬ Perp (T.A - T.C) (T.B - T.C)) :
    ∃ o H n i eA eB eC, T.circumcircle = .ok (some o) ∧ T.orthic_triangle = .ok H ∧ H.circumcircle = .ok (some n) ∧
      T.incircle = .ok i ∧ T.excircles = .ok (eA, eB, eC) ∧
      n.radius = o.radius / 2 ∧ n.center = (T.A + T.B + T.C - o.center) / (2 : ℝ) ∧
      OnCircle n.center n.radius (midPt T.B T.C) ∧ OnCircle n.center n.radius (midPt T.C T.A) ∧
      OnCircle n.center n.radius (midPt T.A T.B) ∧
      IntTangent n.center n.radius i.center i.radius ∧ ExtTangent n.center n.radius eA.center eA.radius ∧
      ExtTangent n.center n.radius eB.center eB.radius ∧ ExtTangent n.center n.radius eC.center eC.radius := by
  obtain ⟨o, ho, hR, hA, hB, hC, -⟩ := C40_circumcircle T h
  obtain ⟨x, y, z, S, hx, hy, hz, hS0, eS, hS, ha, hb, hc, hi, he⟩ := TriId.circles T h
  have a2 : sqDist T.B T.C = (y + z) ^ 2 := by rw [← dist_sq, ha]
  have b2 : sqDist T.A T.C = (z + x) ^ 2 := by rw [← dist_sq, hb]
  have c2 : sqDist T.A T.B = (x + y) ^ 2 := by rw [← dist_sq, hc]
  have hRS := TriId.circumradius hR (by positivity) (by positivity) (by positivity) hS0.le a2 b2 c2 (by rw [eS, sq_abs]) hA hB hC
  obtain ⟨n1, n2, n3⟩ := ne_of_not_collinear h
  obtain ⟨H, hH, l1, p1, l2, p2, l3, p3⟩ := C41_orthic T n1 n2 n3
  have hflat := TriId.orthic_not_flat h rA rB rC l1 p1 l2 p2 l3 p3
  obtain ⟨n, hn, -, -, -, -, huniq⟩ := C40_circumcircle H hflat
  have f1 := TriId.foot_on_nine hA hB hC l1 p1
  have f2 := TriId.foot_on_nine hB hC hA l2 p2
  have f3 := TriId.foot_on_nine hC hA hB l3 p3
  have s2 : (T.B + T.C + T.A - o.center) / (2 : ℝ) = (T.A + T.B + T.C - o.center) / (2 : ℝ) := by ext <;> simp <;> ring
  have s3 : (T.C + T.A + T.B - o.center) / (2 : ℝ) = (T.A + T.B + T.C - o.center) / (2 : ℝ) := by ext <;> simp <;> ring
  rw [s2] at f2
  rw [s3] at f3
  obtain ⟨hc1, hc2⟩ := huniq _ _ (by positivity) f1 f2 f3
  have m1 := TriId.mid_on_nine (B := T.B) (C := T.C) hA
  have m2 := TriId.mid_on_nine (B := T.C) (C := T.A) hB
  have m3 := TriId.mid_on_nine (B := T.A) (C := T.B) hC
  rw [s2] at m2
  rw [s3] at m3
  refine ⟨o, H, n, _, _, _, _, ho, hH, hn, hi, he, hc2.symm, hc1.symm, ?_, ?_, ?_, ?_, ?_, ?_, ?_⟩
  · rw [← hc1, ← hc2]; exact m1
  · rw [← hc1, ← hc2]; exact m2
  · rw [← hc1, ← hc2]; exact m3
  · unfold IntTangent
    rw [← hc1, ← hc2]
    dsimp only
    have hle : 0 ≤ o.radius / 2 - S / (2 * (x + y + z)) := by
      have h8 : 8 * (x * y * z) ≤ (y + z) * (z + x) * (x + y) := by
        nlinarith [mul_nonneg hx.le (sq_nonneg (y - z)), mul_nonneg hy.le (sq_nonneg (z - x)), mul_nonneg hz.le (sq_nonneg (x - y))]
      have : S / (2 * (x + y + z)) ≤ o.radius / 2 := by
        rw [div_le_div_iff₀ (by positivity) (by positivity)]
        have : S * (S * 2) ≤ S * (o.radius * (2 * (x + y + z))) := by
          have e1 : S * (S * 2) = 8 * (x * y * z) * (x + y + z) := by linear_combination 2 * hS
          have e2 : S * (o.radius * (2 * (x + y + z))) = (y + z) * (z + x) * (x + y) * (x + y + z) := by
            linear_combination (x + y + z) * hRS
          rw [e1, e2]
          exact mul_le_mul_of_nonneg_right h8 (by positivity)
        exact le_of_mul_le_mul_left this hS0
      linarith
    rw [dist_eq_iff hle, TriId.dist_nine hA hB hC (by positivity) (by ring), a2, b2, c2]
    field_simp
    linear_combination 4 * (x + y + z) * hRS - 4 * hS
  · unfold ExtTangent
    rw [← hc1, ← hc2]
    dsimp only
    rw [dist_eq_iff (by positivity), TriId.dist_nine hA hB hC (by positivity) (by ring), a2, b2, c2]
    field_simp
    linear_combination -4 * x * hRS - 4 * hS
  · unfold ExtTangent
    rw [← hc1, ← hc2]
    dsimp only
    rw [dist_eq_iff (by positivity), TriId.dist_nine hA hB hC (by positivity) (by ring), a2, b2, c2]
    field_simp
    linear_combination -4 * y * hRS - 4 * hS
  · unfold ExtTangent
    rw [← hc1, ← hc2]
    dsimp only
    rw [dist_eq_iff (by positivity), TriId.dist_nine hA hB hC (by positivity) (by ring), a2, b2, c2]
    field_simp
    linear_combination -4 * z * hRS - 4 * hS

/-- Concrete case: the triangle `(0,0), (4,0), (1,3)` meets the hypotheses of C85 and C86. -/
example : ¬ Collinear (⟨0, 0⟩ : Pt) ⟨4, 0⟩ ⟨1, 3⟩ ∧ ¬ Perp ((⟨4, 0⟩ : Pt) - ⟨0, 0⟩) ((⟨1, 3⟩ : Pt) - ⟨0, 0⟩) ∧
    ¬ Perp ((⟨0, 0⟩ : Pt) - ⟨4, 0⟩) ((⟨1, 3⟩ : Pt) - ⟨4, 0⟩) ∧ ¬ Perp ((⟨0, 0⟩ : Pt) - ⟨1, 3⟩) ((⟨4, 0⟩ : Pt) - ⟨1, 3⟩) := by
  norm_num [Collinear, cross, Perp, dot]
