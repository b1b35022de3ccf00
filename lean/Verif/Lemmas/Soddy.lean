import Verif.Model.MalfattiApollonian
import Verif.Lemmas.Triangle

/-! The circle found by `soddyOuterCircle` for three mutually tangent circles. -/

open Spec Real Classical MalfattiApollonian

theorem soddy_algebra {x y z Δ : ℝ} (h : Δ ^ 2 = (x + y + z) * (x * y * z)) :
    (y * (x + z) - Δ) ^ 2 * (z * (x + y)) ^ 2 + (z * (x + y) - Δ) ^ 2 * (y * (x + z)) ^ 2 +
      (y * (x + z) - Δ) * (z * (x + y) - Δ) * (y * z * (2 * x ^ 2 + 2 * x * z + 2 * x * y - 2 * y * z)) =
    Δ ^ 2 * (y * z + (x * y + y * z + z * x) - 2 * Δ) ^ 2 := by
  have h1 : y * (x + z) * (z * (x + y)) = Δ ^ 2 + (y * z) ^ 2 := by rw [h]; ring
  linear_combination (4 * (y * (x + z) * (z * (x + y)) + Δ ^ 2 + (y * z) ^ 2) - 4 * Δ * (y * (x + z) + z * (x + y)) - 4 * (y * z) ^ 2) * h1

/-- The distance from the point with barycentric coordinates `p1`, `p2`, `p3` to `A`. -/
theorem soddy_bary_dist (A B C : Pt) {p1 p2 p3 : ℝ} (hp : p1 + p2 + p3 ≠ 0) :
    sqDist ((p1 • A + p2 • B + p3 • C) / (p1 + p2 + p3)) A * (p1 + p2 + p3) ^ 2 =
      p2 ^ 2 * sqDist A B + p3 ^ 2 * sqDist A C + p2 * p3 * (sqDist A B + sqDist A C - sqDist B C) := by
  simp only [sqDist, Pt.add_x, Pt.add_y, Pt.smul_x, Pt.smul_y, Pt.div_x, Pt.div_y]
  field_simp
  ring

/-- One of the three tangencies. -/
theorem soddy_tangent {A B C : Pt} {x y z Δ : ℝ} (hx : 0 < x) (hy : 0 < y) (hz : 0 < z) (hΔ : 0 < Δ) (h : Δ ^ 2 = (x + y + z) * (x * y * z))
    (hN : x * y + y * z + z * x - 2 * Δ ≠ 0)
    (hab : sqDist A B = (x + y) ^ 2) (hac : sqDist A C = (x + z) ^ 2) (hbc : sqDist B C = (y + z) ^ 2) :
    (y + z - Δ / x) + (x + z - Δ / y) + (x + y - Δ / z) = -(Δ * (x * y + y * z + z * x - 2 * Δ) / (x * y * z)) ∧
    sqDist (((y + z - Δ / x) • A + (x + z - Δ / y) • B + (x + y - Δ / z) • C) / ((y + z - Δ / x) + (x + z - Δ / y) + (x + y - Δ / z))) A =
      (x * y * z / (x * y + y * z + z * x - 2 * Δ) + x) ^ 2 := by
  obtain ⟨N, eN⟩ : ∃ N, N = x * y + y * z + z * x - 2 * Δ := ⟨_, rfl⟩
  rw [← eN] at hN ⊢
  have hsum : (y + z - Δ / x) + (x + z - Δ / y) + (x + y - Δ / z) = -(Δ * N / (x * y * z)) := by
    rw [eN]
    field_simp
    linear_combination (-2) * h
  refine ⟨hsum, ?_⟩
  have hs0 : (y + z - Δ / x) + (x + z - Δ / y) + (x + y - Δ / z) ≠ 0 := by
    rw [hsum]
    exact neg_ne_zero.2 (div_ne_zero (mul_ne_zero hΔ.ne' hN) (by positivity))
  have hb := soddy_bary_dist A B C hs0
  have alg := soddy_algebra h
  apply mul_right_cancel₀ (pow_ne_zero 2 hs0)
  rw [hb, hab, hac, hbc, hsum]
  have e : (x * y * z / N + x) ^ 2 * (-(Δ * N / (x * y * z))) ^ 2 = Δ ^ 2 * (y * z + N) ^ 2 / (y * z) ^ 2 := by
    field_simp
  rw [e, eq_div_iff (by positivity), show y * z + N = y * z + (x * y + y * z + z * x) - 2 * Δ by rw [eN]; ring, ← alg]
  field_simp
  ring

/-- The outer radius is larger than the three radii. -/
theorem soddy_large {x y z Δ : ℝ} (hx : 0 < x) (hy : 0 < y) (hz : 0 < z) (hΔ : 0 < Δ) (h : Δ ^ 2 = (x + y + z) * (x * y * z))
    (hN : x * y + y * z + z * x - 2 * Δ < 0) : x < -(x * y * z / (x * y + y * z + z * x - 2 * Δ)) := by
  rw [← div_neg, lt_div_iff₀ (by linarith)]
  have h1 : 2 * Δ < y * (x + z) + z * (x + y) := by
    apply lt_of_pow_lt_pow_left₀ 2 (by positivity)
    have : y * (x + z) * (z * (x + y)) = Δ ^ 2 + (y * z) ^ 2 := by rw [h]; ring
    have hyz : 0 < y * z := by positivity
    nlinarith [sq_nonneg (y * (x + z) - z * (x + y))]
  have : 0 < x * (y * z + (x * y + y * z + z * x) - 2 * Δ) := mul_pos hx (by linarith)
  nlinarith

/-- The result of the code in terms of the three radii. -/
theorem soddy_run {A B C : Pt} {x y z : ℝ} (hx : 0 < x) (hy : 0 < y) (hz : 0 < z)
    (hab : sqDist A B = (x + y) ^ 2) (hac : sqDist A C = (x + z) ^ 2) (hbc : sqDist B C = (y + z) ^ 2) :
    ∃ Δ, 0 < Δ ∧ Δ = √((x + y + z) * (x * y * z)) ∧ Δ ^ 2 = (x + y + z) * (x * y * z) ∧
      (x * y + y * z + z * x - 2 * Δ = 0 → soddyOuterCircle ⟨A, B, C⟩ = .error .nonFinite) ∧
      (x * y + y * z + z * x - 2 * Δ ≠ 0 → soddyOuterCircle ⟨A, B, C⟩ = .ok
        ⟨((y + z - Δ / x) • A + (x + z - Δ / y) • B + (x + y - Δ / z) • C) / ((y + z - Δ / x) + (x + z - Δ / y) + (x + y - Δ / z)),
          |x * y * z / (x * y + y * z + z * x - 2 * Δ)|⟩) := by
  obtain ⟨Δ, eΔ⟩ : ∃ Δ, Δ = √((x + y + z) * (x * y * z)) := ⟨_, rfl⟩
  have hΔ : 0 < Δ := by rw [eΔ]; positivity
  have h2 : Δ ^ 2 = (x + y + z) * (x * y * z) := by rw [eΔ]; exact Real.sq_sqrt (by positivity)
  have da : (⟨A, B, C⟩ : Triangle).a = y + z := by
    unfold Triangle.a; rw [distance_eq]; exact (dist_eq_iff (by positivity)).2 hbc
  have db : (⟨A, B, C⟩ : Triangle).b = x + z := by
    unfold Triangle.b; rw [distance_eq]; exact (dist_eq_iff (by positivity)).2 hac
  have dc : (⟨A, B, C⟩ : Triangle).c = x + y := by
    unfold Triangle.c; rw [distance_eq]; exact (dist_eq_iff (by positivity)).2 hab
  have s1 : pySqrt ((x + y + z) * x * y * z) = .ok Δ := by
    unfold pySqrt
    rw [if_neg (not_lt.2 (by positivity)), eΔ]
    congr 2; ring
  have s2 : pySqrt ((x + y + z) * z * y * x) = .ok Δ := by
    unfold pySqrt
    rw [if_neg (not_lt.2 (by positivity)), eΔ]
    congr 2; ring
  have nd : ∀ {u w : ℝ}, w ≠ 0 → npDiv u w = .ok (u / w) := fun h => by unfold npDiv; rw [if_neg h]
  have rad : 4 * ((y + z) * (x + z) * (x + y) / (4 * Δ)) + Δ / (x + y + z) - (y + z + (x + z) + (x + y)) =
      (x + y + z) * (x * y + y * z + z * x - 2 * Δ) / Δ := by
    have e : Δ / (x + y + z) = x * y * z / Δ := by
      rw [div_eq_div_iff (by positivity) hΔ.ne']
      linear_combination h2
    rw [e]
    field_simp
    ring
  refine ⟨Δ, hΔ, eΔ, h2, ?_, ?_⟩
  · intro hN
    unfold soddyOuterCircle
    simp only [da, db, dc]
    rw [show (y + z + (x + z) + (x + y)) / 2 = x + y + z by ring, show x + y + z - (y + z) = x by ring, show x + y + z - (x + z) = y by ring,
      show x + y + z - (x + y) = z by ring, show y + z + (x + z) - (x + y + z) = z by ring, show y + z + (x + y) - (x + y + z) = y by ring,
      show x + z + (x + y) - (x + y + z) = x by ring, s1, Res.ok_bind, s2, Res.ok_bind, nd (by positivity), Res.ok_bind, nd (by positivity), Res.ok_bind,
      rad, hN, mul_zero, zero_div]
    unfold npDiv
    rw [if_pos rfl]
    rfl
  · intro hN
    unfold soddyOuterCircle
    simp only [da, db, dc]
    have hs : (y + z - Δ / x) + (x + z - Δ / y) + (x + y - Δ / z) ≠ 0 := by
      rw [(soddy_tangent hx hy hz hΔ h2 hN hab hac hbc).1]
      exact neg_ne_zero.2 (div_ne_zero (mul_ne_zero hΔ.ne' hN) (by positivity))
    have hr : Δ / ((x + y + z) * (x * y + y * z + z * x - 2 * Δ) / Δ) = x * y * z / (x * y + y * z + z * x - 2 * Δ) := by
      have : x + y + z ≠ 0 := by positivity
      rw [div_div_eq_mul_div, div_eq_div_iff (mul_ne_zero this hN) hN]
      linear_combination (x * y + y * z + z * x - 2 * Δ) * h2
    rw [show (y + z + (x + z) + (x + y)) / 2 = x + y + z by ring, show x + y + z - (y + z) = x by ring, show x + y + z - (x + z) = y by ring,
      show x + y + z - (x + y) = z by ring, show y + z + (x + z) - (x + y + z) = z by ring, show y + z + (x + y) - (x + y + z) = y by ring,
      show x + z + (x + y) - (x + y + z) = x by ring, s1, Res.ok_bind, s2, Res.ok_bind, nd (by positivity), Res.ok_bind, nd (by positivity), Res.ok_bind,
      rad, nd (div_ne_zero (mul_ne_zero (by positivity) hN) hΔ.ne'), Res.ok_bind, nd hx.ne', Res.ok_bind, nd hy.ne', Res.ok_bind, nd hz.ne', Res.ok_bind,
      if_neg hs, hr, mkCircle_pos (abs_pos.2 (div_ne_zero (by positivity) hN))]
