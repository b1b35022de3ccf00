import Verif.Props.Triangle

/-!
# C43: Malfatti circles
-/

open Spec Real Classical

/-- The algebra of one pair of Malfatti circles: `x`, `y`, `z` are the tangent lengths, `r` the inradius, `p`, `q`, `t`
the distances from the incenter to the vertices. -/
theorem malfatti_pair {x y z r p q t : ℝ} (hx : 0 < x) (hy : 0 < y) (hz : 0 < z) (hr : 0 < r)
    (hrs : r ^ 2 * (x + y + z) = x * y * z) (hp : 0 < p) (hq : 0 < q) (ht : 0 < t)
    (p2 : p ^ 2 = r ^ 2 + x ^ 2) (q2 : q ^ 2 = r ^ 2 + y ^ 2) (t2 : t ^ 2 = r ^ 2 + z ^ 2) :
    0 < x + y + z - r - t ∧
    ((x + y + z - r - t) ^ 2 - (p - q) ^ 2) * z = (x + y + z) * (r + t - z) ^ 2 := by
  have hpq : p * q * z = (x + y) * r * t := by
    have h1 : (p * q * z) ^ 2 = ((x + y) * r * t) ^ 2 := by
      have e1 : p ^ 2 * (x + y + z) = x * (x + y) * (x + z) := by rw [p2, add_mul, hrs]; ring
      have e2 : q ^ 2 * (x + y + z) = y * (x + y) * (y + z) := by rw [q2, add_mul, hrs]; ring
      have e3 : t ^ 2 * (x + y + z) = z * (z + x) * (z + y) := by rw [t2, add_mul, hrs]; ring
      have hs : (x + y + z) ^ 2 ≠ 0 := by positivity
      apply mul_left_cancel₀ hs
      calc (x + y + z) ^ 2 * (p * q * z) ^ 2 = (p ^ 2 * (x + y + z)) * (q ^ 2 * (x + y + z)) * z ^ 2 := by ring
        _ = (x + y) ^ 2 * (r ^ 2 * (x + y + z)) * (t ^ 2 * (x + y + z)) := by rw [e1, e2, e3, hrs]; ring
        _ = (x + y + z) ^ 2 * ((x + y) * r * t) ^ 2 := by ring
    exact (pow_left_inj₀ (by positivity) (by positivity) two_ne_zero).1 h1
  constructor
  · -- `2 s r < (x + y) (z + (x + y) / 2)`
    have k1 : (2 * (x + y + z) * r) ^ 2 < ((x + y) * (z + (x + y) / 2)) ^ 2 := by
      have e : (2 * (x + y + z) * r) ^ 2 = 4 * (x * y) * (z * (x + y + z)) := by
        linear_combination 4 * (x + y + z) * hrs
      rw [e]
      have m1 : 4 * (x * y) ≤ (x + y) ^ 2 := by nlinarith [sq_nonneg (x - y)]
      have m2 : z * (x + y + z) < (z + (x + y) / 2) ^ 2 := by nlinarith [sq_pos_of_pos (add_pos hx hy)]
      have m3 : 0 < z * (x + y + z) := by positivity
      rw [mul_pow]
      calc 4 * (x * y) * (z * (x + y + z)) ≤ (x + y) ^ 2 * (z * (x + y + z)) := mul_le_mul_of_nonneg_right m1 m3.le
        _ < (x + y) ^ 2 * (z + (x + y) / 2) ^ 2 := mul_lt_mul_of_pos_left m2 (by positivity)
    have k2 : 2 * (x + y + z) * r < (x + y) * (z + (x + y) / 2) := lt_of_pow_lt_pow_left₀ 2 (by positivity) k1
    have k3 : r < x + y + z := by nlinarith [mul_pos hx hy, mul_pos hx hz, mul_pos hy hz]
    have k4 : t ^ 2 < (x + y + z - r) ^ 2 := by
      rw [t2]; nlinarith [mul_pos hx hz, mul_pos hy hz, sq_pos_of_pos (add_pos hx hy)]
    have := lt_of_pow_lt_pow_left₀ 2 (by linarith) k4
    linarith
  · linear_combination (x + y + z) * t2 * (-1) - z * p2 - z * q2 + 2 * hpq + z * t2 - 2 * hrs

/-- `tan` of the half-angle at a vertex. -/
theorem tan_half {x y z r : ℝ} (hx : 0 < x) (hy : 0 < y) (hz : 0 < z) (hr : 0 < r)
    (hrs : r ^ 2 * (x + y + z) = x * y * z) {k : ℝ} (hk : k * ((z + x) * (x + y)) = x ^ 2 + z * x + x * y - y * z) :
    pyAcos k = .ok (arccos k) ∧ tan (arccos k / 2) = r / x := by
  have hd : 0 < (z + x) * (x + y) := by positivity
  have hp1 : (1 + k) * ((z + x) * (x + y)) = 2 * x * (x + y + z) := by linear_combination hk
  have hm1 : (1 - k) * ((z + x) * (x + y)) = 2 * y * z := by linear_combination -hk
  have hk1 : 0 < 1 + k := by
    by_contra hc; push Not at hc
    have : 0 < 2 * x * (x + y + z) := by positivity
    nlinarith
  have hk2 : 0 < 1 - k := by
    by_contra hc; push Not at hc
    have : 0 < 2 * y * z := by positivity
    nlinarith
  refine ⟨by unfold pyAcos; rw [if_neg (by push Not; constructor <;> linarith)], ?_⟩
  have hth : 0 < arccos k := arccos_pos.2 (by linarith)
  have hth2 : arccos k < π := lt_of_le_of_ne (arccos_le_pi k) (fun h => by
    have := arccos_eq_pi.1 h; linarith)
  have hc : 0 < cos (arccos k / 2) := cos_pos_of_mem_Ioo ⟨by linarith [pi_pos], by linarith⟩
  have hs : 0 < sin (arccos k / 2) := sin_pos_of_pos_of_lt_pi (by linarith) (by linarith [pi_pos])
  have c2 : 2 * cos (arccos k / 2) ^ 2 = 1 + k := by
    have := cos_sq (arccos k / 2)
    rw [mul_div_cancel₀ _ two_ne_zero, cos_arccos (by linarith) (by linarith)] at this
    linarith
  have s2 : 2 * sin (arccos k / 2) ^ 2 = 1 - k := by
    have := sin_sq_add_cos_sq (arccos k / 2)
    linarith
  rw [tan_eq_sin_div_cos, div_eq_div_iff hc.ne' hx.ne']
  have : (sin (arccos k / 2) * x) ^ 2 = (r * cos (arccos k / 2)) ^ 2 := by
    have hne : 2 * (x + y + z) * ((z + x) * (x + y)) ≠ 0 := by positivity
    apply mul_left_cancel₀ hne
    calc 2 * (x + y + z) * ((z + x) * (x + y)) * (sin (arccos k / 2) * x) ^ 2 =
        (x + y + z) * x ^ 2 * ((2 * sin (arccos k / 2) ^ 2) * ((z + x) * (x + y))) := by ring
      _ = (r ^ 2 * (x + y + z)) * (2 * x * (x + y + z)) := by rw [s2, hm1, hrs]; ring
      _ = 2 * (x + y + z) * ((z + x) * (x + y)) * (r * cos (arccos k / 2)) ^ 2 := by
        rw [← hp1, ← c2]; ring
  exact (pow_left_inj₀ (by positivity) (by positivity) two_ne_zero).1 this

/-- Everything about the radii: `e₁ = d₁`, `e₂ = d₂`, `e₃ = d₃` are the distances from the vertices to the contact
points. -/
theorem malfatti_radii {x y z r p q t : ℝ} (hx : 0 < x) (hy : 0 < y) (hz : 0 < z) (hr : 0 < r)
    (hrs : r ^ 2 * (x + y + z) = x * y * z) (hp : 0 < p) (hq : 0 < q) (ht : 0 < t)
    (p2 : p ^ 2 = r ^ 2 + x ^ 2) (q2 : q ^ 2 = r ^ 2 + y ^ 2) (t2 : t ^ 2 = r ^ 2 + z ^ 2) :
    0 < x + y + z - r - (q + t - p) ∧ 0 < x + y + z - r - (t + p - q) ∧
    x + y + z - r - (q + t - p) < 2 * x ∧ 0 < r + t - z ∧
    Real.sqrt (r / 2 * (x + y + z - r - (q + t - p)) / x * (r / 2 * (x + y + z - r - (t + p - q)) / y)) =
      (r + t - z) / 2 := by
  obtain ⟨h1, h2⟩ := malfatti_pair hx hy hz hr hrs hp hq ht p2 q2 t2
  have htz : z < t := lt_of_pow_lt_pow_left₀ 2 ht.le (by rw [t2]; nlinarith)
  have hqy : y < q := lt_of_pow_lt_pow_left₀ 2 hq.le (by rw [q2]; nlinarith)
  have hpx : p < x + r := lt_of_pow_lt_pow_left₀ 2 (by positivity) (by rw [p2]; nlinarith [mul_pos hx hr])
  have hm : 0 < r + t - z := by linarith
  have hprod : 0 < ((x + y + z - r - t) ^ 2 - (p - q) ^ 2) := by
    have : 0 < ((x + y + z - r - t) ^ 2 - (p - q) ^ 2) * z := by rw [h2]; positivity
    exact (pos_iff_pos_of_mul_pos this).2 hz
  have habs := abs_lt_of_sq_lt_sq (show (p - q) ^ 2 < (x + y + z - r - t) ^ 2 by linarith) h1.le
  rw [abs_lt] at habs
  refine ⟨by linarith [habs.1], by linarith [habs.2], by linarith, hm, ?_⟩
  rw [show r / 2 * (x + y + z - r - (q + t - p)) / x * (r / 2 * (x + y + z - r - (t + p - q)) / y) = ((r + t - z) / 2) ^ 2 by
    have e : ((x + y + z - r - t) ^ 2 - (p - q) ^ 2) * r ^ 2 = x * y * (r + t - z) ^ 2 := by
      have hs : z * (x + y + z) ≠ 0 := by positivity
      apply mul_left_cancel₀ hs
      calc z * (x + y + z) * (((x + y + z - r - t) ^ 2 - (p - q) ^ 2) * r ^ 2) =
          (((x + y + z - r - t) ^ 2 - (p - q) ^ 2) * z) * (r ^ 2 * (x + y + z)) := by ring
        _ = z * (x + y + z) * (x * y * (r + t - z) ^ 2) := by rw [h2, hrs]; ring
    field_simp
    linear_combination e]
  exact Real.sqrt_sq (by linarith)

/-- Squared distance from a vertex to the incenter. -/
theorem incenter_dist {A B C : Pt} {x y z r : ℝ} (hx : 0 < x) (hy : 0 < y) (hz : 0 < z)
    (ha : sqDist B C = (y + z) ^ 2) (hb : sqDist A C = (z + x) ^ 2) (hc : sqDist A B = (x + y) ^ 2)
    (hrs : r ^ 2 * (x + y + z) = x * y * z) :
    sqDist A (((y + z) • A + (z + x) • B + (x + y) • C) / (y + z + (z + x) + (x + y))) = r ^ 2 + x ^ 2 := by
  have e := bary_dist (u := y + z) (v := z + x) (w := x + y) (n := y + z + (z + x) + (x + y)) (by positivity) rfl ha hb hc
  have hn : (y + z + (z + x) + (x + y)) ^ 2 ≠ 0 := by positivity
  apply mul_left_cancel₀ hn
  rw [e]
  have : (y + z + (z + x) + (x + y)) ^ 2 * (r ^ 2 + x ^ 2) =
    4 * (x + y + z) * (r ^ 2 * (x + y + z)) + 4 * (x + y + z) ^ 2 * x ^ 2 := by ring
  rw [this, hrs]; ring

/-- The contact point of two circles tangent from outside. -/
theorem contact_point {O₁ O₂ : Pt} {r₁ r₂ : ℝ} (h1 : 0 < r₁) (h2 : 0 < r₂) (h : ExtTangent O₁ r₁ O₂ r₂) :
    vlength_ (O₂ - O₁) ≠ 0 ∧ OnCircle O₁ r₁ (O₁ + (r₁ / vlength_ (O₂ - O₁)) • (O₂ - O₁)) ∧
      OnCircle O₂ r₂ (O₁ + (r₁ / vlength_ (O₂ - O₁)) • (O₂ - O₁)) := by
  rw [vlength_sub]
  unfold ExtTangent at h
  have hd := dist_sq O₁ O₂
  rw [h] at hd ⊢
  have hs : 0 < r₁ + r₂ := by positivity
  refine ⟨hs.ne', ?_, ?_⟩
  · unfold OnCircle
    have : sqDist (O₁ + (r₁ / (r₁ + r₂)) • (O₂ - O₁)) O₁ = (r₁ / (r₁ + r₂)) ^ 2 * sqDist O₁ O₂ := by
      simp only [sqDist, Pt.add_x, Pt.add_y, Pt.smul_x, Pt.smul_y, Pt.sub_x, Pt.sub_y]; ring
    rw [this, ← hd]; field_simp
  · unfold OnCircle
    have : sqDist (O₁ + (r₁ / (r₁ + r₂)) • (O₂ - O₁)) O₂ = (1 - r₁ / (r₁ + r₂)) ^ 2 * sqDist O₁ O₂ := by
      simp only [sqDist, Pt.add_x, Pt.add_y, Pt.smul_x, Pt.smul_y, Pt.sub_x, Pt.sub_y]; ring
    rw [this, ← hd]; field_simp; ring

/-- Two circles centered on bisectors, homothetic to the incircle with ratios `k₁` and `k₂`. -/
theorem malfatti_tangent {A B I : Pt} {x y r k₁ k₂ : ℝ} (hA : sqDist A I = r ^ 2 + x ^ 2) (hB : sqDist B I = r ^ 2 + y ^ 2)
    (hAB : sqDist A B = (x + y) ^ 2) (hr : 0 < r) (h1 : 0 < k₁) (h2 : 0 < k₂)
    (hk : (x + y - k₁ * x - k₂ * y) ^ 2 = 4 * (k₁ * r) * (k₂ * r)) :
    ExtTangent (A + k₁ • (I - A)) (k₁ * r) (B + k₂ • (I - B)) (k₂ * r) := by
  unfold ExtTangent
  rw [dist_eq_iff (by positivity)]
  have e : sqDist (A + k₁ • (I - A)) (B + k₂ • (I - B)) = (1 - k₁) ^ 2 * sqDist A I + (1 - k₂) ^ 2 * sqDist B I -
      (1 - k₁) * (1 - k₂) * (sqDist A I + sqDist B I - sqDist A B) := by
    simp only [sqDist, Pt.add_x, Pt.add_y, Pt.smul_x, Pt.smul_y, Pt.sub_x, Pt.sub_y]; ring
  rw [e, hA, hB, hAB]
  linear_combination hk

/-- One Malfatti center: `O₁` is homothetic to the incenter. -/
theorem malfatti_center {A B C : Pt} {x y z r r₁ S : ℝ} (hx : 0 < x) (hy : 0 < y) (hz : 0 < z) (hr : 0 < r)
    (hr1 : 0 < r₁) (hS : S = r * (x + y + z)) :
    (((y + z) * (2 * S / r₁ - (z + x + (x + y)))) • A + ((z + x) * (y + z)) • B + ((x + y) * (y + z)) • C) /
      ((y + z) * (2 * S / r₁ - (z + x + (x + y))) + (z + x) * (y + z) + (x + y) * (y + z)) =
    A + (r₁ / r) • (((y + z) • A + (z + x) • B + (x + y) • C) / (y + z + (z + x) + (x + y)) - A) := by
  have hden : (y + z) * (2 * S / r₁ - (z + x + (x + y))) + (z + x) * (y + z) + (x + y) * (y + z) = (y + z) * (2 * S / r₁) := by ring
  rw [hden, hS]
  ext
  · simp only [Pt.add_x, Pt.smul_x, Pt.sub_x, Pt.div_x]; field_simp; ring
  · simp only [Pt.add_y, Pt.smul_y, Pt.sub_y, Pt.div_y]; field_simp; ring

theorem malfatti_center2 {A B C : Pt} {x y z r r₁ S : ℝ} (hx : 0 < x) (hy : 0 < y) (hz : 0 < z) (hr : 0 < r)
    (hr1 : 0 < r₁) (hS : S = r * (x + y + z)) :
    (((y + z) * (z + x)) • A + ((z + x) * (2 * S / r₁ - (y + z + (x + y)))) • B + ((x + y) * (z + x)) • C) /
      ((y + z) * (z + x) + (z + x) * (2 * S / r₁ - (y + z + (x + y))) + (x + y) * (z + x)) =
    B + (r₁ / r) • (((y + z) • A + (z + x) • B + (x + y) • C) / (y + z + (z + x) + (x + y)) - B) := by
  have hden : (y + z) * (z + x) + (z + x) * (2 * S / r₁ - (y + z + (x + y))) + (x + y) * (z + x) = (z + x) * (2 * S / r₁) := by ring
  rw [hden, hS]
  ext
  · simp only [Pt.add_x, Pt.smul_x, Pt.sub_x, Pt.div_x]; field_simp; ring
  · simp only [Pt.add_y, Pt.smul_y, Pt.sub_y, Pt.div_y]; field_simp; ring

theorem malfatti_center3 {A B C : Pt} {x y z r r₁ S : ℝ} (hx : 0 < x) (hy : 0 < y) (hz : 0 < z) (hr : 0 < r)
    (hr1 : 0 < r₁) (hS : S = r * (x + y + z)) :
    (((y + z) * (x + y)) • A + ((z + x) * (x + y)) • B + ((x + y) * (2 * S / r₁ - (y + z + (z + x)))) • C) /
      ((y + z) * (x + y) + (z + x) * (x + y) + (x + y) * (2 * S / r₁ - (y + z + (z + x)))) =
    C + (r₁ / r) • (((y + z) • A + (z + x) • B + (x + y) • C) / (y + z + (z + x) + (x + y)) - C) := by
  have hden : (y + z) * (x + y) + (z + x) * (x + y) + (x + y) * (2 * S / r₁ - (y + z + (z + x))) = (x + y) * (2 * S / r₁) := by ring
  rw [hden, hS]
  ext
  · simp only [Pt.add_x, Pt.smul_x, Pt.sub_x, Pt.div_x]; field_simp; ring
  · simp only [Pt.add_y, Pt.smul_y, Pt.sub_y, Pt.div_y]; field_simp; ring

/-- A homothety centered at a point of a line preserves tangency to this line. -/
theorem hom_tangent {A B V I : Pt} {r k : ℝ} (h : A ≠ B) (hV : OnLine A B V) (ht : TangentLine I r A B) :
    TangentLine (V + k • (I - V)) (k * r) A B := by
  rw [tangentLine_iff h] at *
  rw [onLine_iff_cross h] at hV
  have : cross (B - A) (V + k • (I - V) - A) = k * cross (B - A) (I - A) + (1 - k) * cross (B - A) (V - A) := by
    simp only [cross, Pt.add_x, Pt.add_y, Pt.smul_x, Pt.smul_y, Pt.sub_x, Pt.sub_y]; ring
  rw [this, hV]
  linear_combination k ^ 2 * ht

theorem hom_inTriangle {A B C I : Pt} {k : ℝ} (h0 : 0 < k) (h1 : k < 1) (h : InTriangle A B C I) :
    InTriangle A B C (A + k • (I - A)) ∧ InTriangle A B C (B + k • (I - B)) ∧ InTriangle A B C (C + k • (I - C)) := by
  obtain ⟨u, v, w, hu, hv, hw, hs, rfl⟩ := h
  have h1' : 0 < 1 - k := by linarith
  refine ⟨⟨1 - k + k * u, k * v, k * w, by positivity, by positivity, by positivity, ?_, ?_⟩,
    ⟨k * u, 1 - k + k * v, k * w, by positivity, by positivity, by positivity, ?_, ?_⟩,
    ⟨k * u, k * v, 1 - k + k * w, by positivity, by positivity, by positivity, ?_, ?_⟩⟩
  · linear_combination k * hs
  · ext <;> simp <;> ring
  · linear_combination k * hs
  · ext <;> simp <;> ring
  · linear_combination k * hs
  · ext <;> simp <;> ring

/-- A point is inside a triangle when it is on the inner side of each side. -/
theorem inTriangle_iff_cross {A B C : Pt} (h : ¬ Collinear A B C) (P : Pt) :
    InTriangle A B C P ↔ 0 < cross (B - A) (C - A) * cross (B - A) (P - A) ∧ 0 < cross (B - A) (C - A) * cross (C - B) (P - B) ∧
      0 < cross (B - A) (C - A) * cross (A - C) (P - C) := by
  obtain ⟨K, hK⟩ : ∃ K, K = cross (B - A) (C - A) := ⟨_, rfl⟩
  have hK0 : K ≠ 0 := by rw [hK]; exact h
  have hK2 : 0 < K ^ 2 := by positivity
  rw [← hK]
  constructor
  · rintro ⟨u, v, w, hu, hv, hw, hs, rfl⟩
    have e1 : cross (B - A) (u • A + v • B + w • C - A) = w * K := by
      rw [hK, show u = 1 - v - w by linarith]; simp only [cross, Pt.add_x, Pt.add_y, Pt.smul_x, Pt.smul_y, Pt.sub_x, Pt.sub_y]; ring
    have e2 : cross (C - B) (u • A + v • B + w • C - B) = u * K := by
      rw [hK, show u = 1 - v - w by linarith]; simp only [cross, Pt.add_x, Pt.add_y, Pt.smul_x, Pt.smul_y, Pt.sub_x, Pt.sub_y]; ring
    have e3 : cross (A - C) (u • A + v • B + w • C - C) = v * K := by
      rw [hK, show u = 1 - v - w by linarith]; simp only [cross, Pt.add_x, Pt.add_y, Pt.smul_x, Pt.smul_y, Pt.sub_x, Pt.sub_y]; ring
    rw [e1, e2, e3]
    refine ⟨?_, ?_, ?_⟩
    · rw [show K * (w * K) = w * K ^ 2 by ring]; positivity
    · rw [show K * (u * K) = u * K ^ 2 by ring]; positivity
    · rw [show K * (v * K) = v * K ^ 2 by ring]; positivity
  · rintro ⟨h1, h2, h3⟩
    refine ⟨K * cross (C - B) (P - B) / K ^ 2, K * cross (A - C) (P - C) / K ^ 2, K * cross (B - A) (P - A) / K ^ 2, by positivity, by positivity,
      by positivity, ?_, ?_⟩
    · have : cross (C - B) (P - B) + cross (A - C) (P - C) + cross (B - A) (P - A) = K := by
        rw [hK]; simp only [cross, Pt.sub_x, Pt.sub_y]; ring
      rw [← add_div, ← add_div, ← mul_add, ← mul_add, this]
      field_simp
    · ext
      · simp only [Pt.add_x, Pt.smul_x]
        field_simp
        rw [hK]; simp only [cross, Pt.sub_x, Pt.sub_y]; ring
      · simp only [Pt.add_y, Pt.smul_y]
        field_simp
        rw [hK]; simp only [cross, Pt.sub_x, Pt.sub_y]; ring

/-- The disc of a circle touching the three sides, with its center inside the triangle, is inside the triangle. -/
theorem disc_inTriangle {A B C I : Pt} {r : ℝ} (h : ¬ Collinear A B C) (hI : InTriangle A B C I)
    (ht : TangentLine I r B C ∧ TangentLine I r C A ∧ TangentLine I r A B) {P : Pt} (hP : sqDist P I < r ^ 2) : InTriangle A B C P := by
  obtain ⟨h1, h2, h3⟩ := ne_of_not_collinear h
  have key : ∀ {K : ℝ} {U V : Pt}, K ≠ 0 → U ≠ V → TangentLine I r U V → 0 < K * cross (V - U) (I - U) → 0 < K * cross (V - U) (P - U) := by
    intro K U V hK hUV htan hpos
    rw [tangentLine_iff hUV] at htan
    have e : cross (V - U) (P - U) = cross (V - U) (I - U) + cross (V - U) (P - I) := by
      simp only [cross, Pt.sub_x, Pt.sub_y]; ring
    have hd : cross (V - U) (P - I) ^ 2 < cross (V - U) (I - U) ^ 2 := by
      rw [htan]
      have l : cross (V - U) (P - I) ^ 2 + dot (V - U) (P - I) ^ 2 = sqDist U V * sqDist P I := by
        simp only [cross, dot, sqDist, Pt.sub_x, Pt.sub_y]; ring
      have := sqDist_pos hUV
      nlinarith [sq_nonneg (dot (V - U) (P - I)), mul_pos this (sub_pos.2 hP)]
    rw [e, mul_add]
    have hK2 : 0 < K ^ 2 := by positivity
    have : (K * cross (V - U) (P - I)) ^ 2 < (K * cross (V - U) (I - U)) ^ 2 := by
      rw [mul_pow, mul_pow]; exact mul_lt_mul_of_pos_left hd hK2
    have := (abs_lt.1 (abs_lt_of_sq_lt_sq this hpos.le)).1
    linarith
  have hK : cross (B - A) (C - A) ≠ 0 := h
  rw [inTriangle_iff_cross h] at *
  exact ⟨key hK h1 ht.2.2 hI.1, key hK h3 ht.1 hI.2.1, key hK h2.symm ht.2.1 hI.2.2⟩

/-- The disc homothetic to the disc of center `I`. -/
theorem hom_disc {V I P : Pt} {r k : ℝ} (hk : 0 < k) (h : sqDist P (V + k • (I - V)) < (k * r) ^ 2) :
    sqDist (V + (1 / k) • (P - V)) I < r ^ 2 ∧ P = V + k • (V + (1 / k) • (P - V) - V) := by
  have e : sqDist P (V + k • (I - V)) = k ^ 2 * sqDist (V + (1 / k) • (P - V)) I := by
    simp only [sqDist, Pt.add_x, Pt.add_y, Pt.smul_x, Pt.smul_y, Pt.sub_x, Pt.sub_y]; field_simp; ring
  refine ⟨?_, ?_⟩
  · rw [e, mul_pow] at h
    exact lt_of_mul_lt_mul_left h (sq_nonneg k)
  · ext
    · simp only [Pt.add_x, Pt.smul_x, Pt.sub_x]; field_simp; ring
    · simp only [Pt.add_y, Pt.smul_y, Pt.sub_y]; field_simp; ring

set_option maxHeartbeats 4000000 in
/-- Tangent lengths, inradius, incenter and distances from the incenter to the vertices, and the radii and centers of the Malfatti circles. -/
structure MalfattiData (T : Triangle) (m : Triangle.Malfatti) (x y z r p q t : ℝ) (I : Pt) : Prop where
  hx : 0 < x
  hy : 0 < y
  hz : 0 < z
  hr : 0 < r
  hp : 0 < p
  hq : 0 < q
  ht : 0 < t
  ha : Spec.dist T.B T.C = y + z
  hb : Spec.dist T.A T.C = z + x
  hc : Spec.dist T.A T.B = x + y
  hrs : r ^ 2 * (x + y + z) = x * y * z
  p2 : p ^ 2 = r ^ 2 + x ^ 2
  q2 : q ^ 2 = r ^ 2 + y ^ 2
  t2 : t ^ 2 = r ^ 2 + z ^ 2
  hI : I = ((y + z) • T.A + (z + x) • T.B + (x + y) • T.C) / (y + z + (z + x) + (x + y))
  r1 : m.cA.radius = r / 2 * (x + y + z - r - (q + t - p)) / x
  r2 : m.cB.radius = r / 2 * (x + y + z - r - (t + p - q)) / y
  r3 : m.cC.radius = r / 2 * (x + y + z - r - (p + q - t)) / z
  c1 : m.cA.center = T.A + (m.cA.radius / r) • (I - T.A)
  c2 : m.cB.center = T.B + (m.cB.radius / r) • (I - T.B)
  c3 : m.cC.center = T.C + (m.cC.radius / r) • (I - T.C)
  s12 : √(m.cA.radius * m.cB.radius) = (r + t - z) / 2
  s23 : √(m.cB.radius * m.cC.radius) = (r + p - x) / 2
  s31 : √(m.cC.radius * m.cA.radius) = (r + q - y) / 2

set_option maxHeartbeats 800000 in
theorem malfatti_full (T : Triangle) (h : ¬ Collinear T.A T.B T.C) :
    ∃ m, T.malfatti_circles = .ok (some m) ∧
      MalfattiConfig T.A T.B T.C m.cA.center m.cA.radius m.cB.center m.cB.radius m.cC.center m.cC.radius m.TA m.TB m.TC ∧
      ∃ x y z r p q t I, MalfattiData T m x y z r p q t I := by
  obtain ⟨h1, h2, h3⟩ := ne_of_not_collinear h
  have hf := flatness_eq T h1 h2
  have hf1 : dot (T.B - T.A) (T.C - T.A) ^ 2 /
      (dot (T.B - T.A) (T.C - T.A) ^ 2 + cross (T.B - T.A) (T.C - T.A) ^ 2) ≠ 1 := by
    intro e; rw [e] at hf; exact h ((flatness_one_iff T h1 h2).1 hf)
  obtain ⟨x, y, z, hx, hy, hz, ha, hb, hc, hS⟩ := ravi h
  have hS0 : 0 < |cross (T.B - T.A) (T.C - T.A)| := abs_pos.2 h
  have hsq := heron_sqrt hx hy hz hS
  rw [show (y + z + (z + x) + (x + y)) / 2 = x + y + z by ring, show x + y + z - (y + z) = x by ring,
    show x + y + z - (z + x) = y by ring, show x + y + z - (x + y) = z by ring] at hsq
  have a2 : sqDist T.B T.C = (y + z) ^ 2 := by rw [← dist_sq, ha]
  have b2 : sqDist T.A T.C = (z + x) ^ 2 := by rw [← dist_sq, hb]
  have c2 : sqDist T.A T.B = (x + y) ^ 2 := by rw [← dist_sq, hc]
  have sd : sqDist T.B T.A = (x + y) ^ 2 := by rw [sqDist_comm, c2]
  have dA : dot_ (T.C - T.A) (T.B - T.A) = x ^ 2 + z * x + x * y - y * z := by
    have := dot_of_sides T.A T.B T.C
    rw [ha, hb, hc] at this
    have e : dot_ (T.C - T.A) (T.B - T.A) = dot (T.B - T.A) (T.C - T.A) := by unfold dot_ dot; ring
    rw [e]; linarith
  have dB : dot_ (T.C - T.B) (T.A - T.B) = y ^ 2 + x * y + y * z - z * x := by
    have := dot_of_sides T.B T.A T.C
    rw [dist_comm T.B T.A, ha, hb, hc] at this
    have e : dot_ (T.C - T.B) (T.A - T.B) = dot (T.A - T.B) (T.C - T.B) := by unfold dot_ dot; ring
    rw [e]; linarith
  have dC : dot_ (T.A - T.C) (T.B - T.C) = z ^ 2 + y * z + z * x - x * y := by
    have := dot_of_sides T.C T.A T.B
    rw [dist_comm T.C T.A, dist_comm T.C T.B, ha, hb, hc] at this
    have e : dot_ (T.A - T.C) (T.B - T.C) = dot (T.A - T.C) (T.B - T.C) := rfl
    rw [e]; linarith
  obtain ⟨S, eS⟩ : ∃ S, S = |cross (T.B - T.A) (T.C - T.A)| / 2 := ⟨_, rfl⟩
  have hS' : S ^ 2 = x * y * z * (x + y + z) := by rw [eS, div_pow, sq_abs, hS]; ring
  have hSp : 0 < S := by rw [eS]; positivity
  rw [← eS] at hsq
  obtain ⟨r, er⟩ : ∃ r, r = S / (x + y + z) := ⟨_, rfl⟩
  have hr : 0 < r := by rw [er]; positivity
  have hSr : S = r * (x + y + z) := by rw [er]; field_simp
  have hrs : r ^ 2 * (x + y + z) = x * y * z := by
    rw [er, div_pow, hS']; field_simp
  obtain ⟨I, eI⟩ : ∃ I, I = ((y + z) • T.A + (z + x) • T.B + (x + y) • T.C) / (y + z + (z + x) + (x + y)) := ⟨_, rfl⟩
  have iA : sqDist T.A I = r ^ 2 + x ^ 2 := by rw [eI]; exact incenter_dist hx hy hz a2 b2 c2 hrs
  have iB : sqDist T.B I = r ^ 2 + y ^ 2 := by
    have := incenter_dist (A := T.B) (B := T.C) (C := T.A) (r := r) hy hz hx (by rw [sqDist_comm, b2]) (by rw [sqDist_comm, c2]) a2
      (by linarith)
    rw [← this, eI]
    congr 1
    rw [show z + x + (x + y) + (y + z) = y + z + (z + x) + (x + y) by ring]
    ext <;> simp <;> ring
  have iC : sqDist T.C I = r ^ 2 + z ^ 2 := by
    have := incenter_dist (A := T.C) (B := T.A) (C := T.B) (r := r) hz hx hy c2 (by rw [sqDist_comm, a2]) (by rw [sqDist_comm, b2])
      (by linarith)
    rw [← this, eI]
    congr 1
    rw [show x + y + (y + z) + (z + x) = y + z + (z + x) + (x + y) by ring]
    ext <;> simp <;> ring
  have hIin : InTriangle T.A T.B T.C I := by
    refine ⟨(y + z) / (y + z + (z + x) + (x + y)), (z + x) / (y + z + (z + x) + (x + y)),
      (x + y) / (y + z + (z + x) + (x + y)), by positivity, by positivity, by positivity, by field_simp, ?_⟩
    rw [eI]
    ext
    · simp only [Pt.add_x, Pt.smul_x, Pt.div_x]; field_simp
    · simp only [Pt.add_y, Pt.smul_y, Pt.div_y]; field_simp
  have hItan : TangentLine I r T.B T.C ∧ TangentLine I r T.C T.A ∧ TangentLine I r T.A T.B := by
    have hK : cross (T.B - T.A) (T.C - T.A) ^ 2 = 4 * S ^ 2 := by rw [hS, hS']
    apply tangent_sides h (by positivity) rfl eI
    · rw [ha, hK, hSr]; ring
    · rw [hb, hK, hSr]; ring
    · rw [hc, hK, hSr]; ring
  -- distances to the incenter
  obtain ⟨p, ep⟩ : ∃ p, p = Spec.dist T.A I := ⟨_, rfl⟩
  obtain ⟨q, eq⟩ : ∃ q, q = Spec.dist T.B I := ⟨_, rfl⟩
  obtain ⟨t, et⟩ : ∃ t, t = Spec.dist T.C I := ⟨_, rfl⟩
  have p2 : p ^ 2 = r ^ 2 + x ^ 2 := by rw [ep, dist_sq, iA]
  have q2 : q ^ 2 = r ^ 2 + y ^ 2 := by rw [eq, dist_sq, iB]
  have t2 : t ^ 2 = r ^ 2 + z ^ 2 := by rw [et, dist_sq, iC]
  have hp : 0 < p := lt_of_le_of_ne (by rw [ep]; exact dist_nonneg _ _) (by rintro rfl; nlinarith)
  have hq : 0 < q := lt_of_le_of_ne (by rw [eq]; exact dist_nonneg _ _) (by rintro rfl; nlinarith)
  have ht : 0 < t := lt_of_le_of_ne (by rw [et]; exact dist_nonneg _ _) (by rintro rfl; nlinarith)
  obtain ⟨E1, E2, L1, m3, s12⟩ := malfatti_radii hx hy hz hr hrs hp hq ht p2 q2 t2
  have hrs' : r ^ 2 * (y + z + x) = y * z * x := by linarith
  have hrs'' : r ^ 2 * (z + x + y) = z * x * y := by linarith
  obtain ⟨-, E3, L2, m1, s23⟩ := malfatti_radii hy hz hx hr hrs' hq ht hp q2 t2 p2
  obtain ⟨-, -, L3, m2, s31⟩ := malfatti_radii hz hx hy hr hrs'' ht hp hq t2 p2 q2
  rw [show y + z + x = x + y + z by ring] at E3 L2 s23
  rw [show z + x + y = x + y + z by ring] at L3 s31
  obtain ⟨r1, er1⟩ : ∃ r1, r1 = r / 2 * (x + y + z - r - (q + t - p)) / x := ⟨_, rfl⟩
  obtain ⟨r2, er2⟩ : ∃ r2, r2 = r / 2 * (x + y + z - r - (t + p - q)) / y := ⟨_, rfl⟩
  obtain ⟨r3, er3⟩ : ∃ r3, r3 = r / 2 * (x + y + z - r - (p + q - t)) / z := ⟨_, rfl⟩
  have pr1 : 0 < r1 := by rw [er1]; positivity
  have pr2 : 0 < r2 := by rw [er2]; positivity
  have pr3 : 0 < r3 := by rw [er3]; positivity
  rw [← er1, ← er2] at s12
  rw [← er2, ← er3] at s23
  rw [← er3, ← er1] at s31
  have ps12 : pySqrt (r1 * r2) = .ok ((r + t - z) / 2) := by
    unfold pySqrt; rw [if_neg (not_lt.2 (by positivity)), s12]
  have ps23 : pySqrt (r2 * r3) = .ok ((r + p - x) / 2) := by
    unfold pySqrt; rw [if_neg (not_lt.2 (by positivity)), s23]
  have ps31 : pySqrt (r3 * r1) = .ok ((r + q - y) / 2) := by
    unfold pySqrt; rw [if_neg (not_lt.2 (by positivity)), s31]
  -- angles
  obtain ⟨acA, tA⟩ := tan_half (k := (x ^ 2 + z * x + x * y - y * z) / (z + x) / (x + y)) hx hy hz hr hrs (by field_simp)
  obtain ⟨acB, tB⟩ := tan_half (k := (y ^ 2 + x * y + y * z - z * x) / (y + z) / (x + y)) hy hz hx hr hrs' (by field_simp)
  obtain ⟨acC, tC⟩ := tan_half (k := (z ^ 2 + y * z + z * x - x * y) / (z + x) / (y + z)) hz hx hy hr hrs'' (by field_simp)
  have hw : r1 / (r / x) + r2 / (r / y) + 2 * ((r + t - z) / 2) = x + y := by
    rw [er1, er2]; field_simp; ring
  have hu : r2 / (r / y) + r3 / (r / z) + 2 * ((r + p - x) / 2) = y + z := by
    rw [er2, er3]; field_simp; ring
  have hv : r3 / (r / z) + r1 / (r / x) + 2 * ((r + q - y) / 2) = z + x := by
    rw [er1, er3]; field_simp; ring
  have hdd : pySqrt ((-(y + z) + (z + x) + (x + y)) * (y + z + (z + x) - (x + y)) * (y + z - (z + x) + (x + y)) *
      (y + z + (z + x) + (x + y))) = .ok (4 * S) := by
    rw [show (-(y + z) + (z + x) + (x + y)) * (y + z + (z + x) - (x + y)) * (y + z - (z + x) + (x + y)) *
      (y + z + (z + x) + (x + y)) = (4 * S) ^ 2 by rw [mul_pow, hS']; ring]
    unfold pySqrt
    rw [if_neg (not_lt.2 (sq_nonneg _)), Real.sqrt_sq (by positivity)]
  -- ratios
  have hk1 : r1 / r < 1 := by rw [er1]; field_simp; linarith
  have hk2 : r2 / r < 1 := by rw [er2]; field_simp; linarith
  have hk3 : r3 / r < 1 := by rw [er3]; field_simp; linarith
  have pk1 : 0 < r1 / r := by positivity
  have pk2 : 0 < r2 / r := by positivity
  have pk3 : 0 < r3 / r := by positivity
  have kr1 : r1 / r * r = r1 := by field_simp
  have kr2 : r2 / r * r = r2 := by field_simp
  have kr3 : r3 / r * r = r3 := by field_simp
  have mul12 : r1 * r2 = ((r + t - z) / 2) ^ 2 := by rw [← s12, Real.sq_sqrt (by positivity)]
  have mul23 : r2 * r3 = ((r + p - x) / 2) ^ 2 := by rw [← s23, Real.sq_sqrt (by positivity)]
  have mul31 : r3 * r1 = ((r + q - y) / 2) ^ 2 := by rw [← s31, Real.sq_sqrt (by positivity)]
  have x12 : x + y - r1 / r * x - r2 / r * y = r + t - z := by rw [er1, er2]; field_simp; ring
  have x23 : y + z - r2 / r * y - r3 / r * z = r + p - x := by rw [er2, er3]; field_simp; ring
  have x13 : x + z - r1 / r * x - r3 / r * z = r + q - y := by rw [er1, er3]; field_simp; ring
  have T12 := malfatti_tangent (k₁ := r1 / r) (k₂ := r2 / r) iA iB c2 hr pk1 pk2
    (by rw [kr1, kr2, x12]; linear_combination -4 * mul12)
  have T23 := malfatti_tangent (k₁ := r2 / r) (k₂ := r3 / r) iB iC a2 hr pk2 pk3
    (by rw [kr2, kr3, x23]; linear_combination -4 * mul23)
  have T13 := malfatti_tangent (k₁ := r1 / r) (k₂ := r3 / r) iA iC (by rw [b2]; ring) hr pk1 pk3
    (by rw [kr1, kr3, x13]; linear_combination -4 * mul31)
  rw [kr1, kr2] at T12
  rw [kr2, kr3] at T23
  rw [kr1, kr3] at T13
  obtain ⟨n12, o12, o12'⟩ := contact_point pr1 pr2 T12
  obtain ⟨n23, o23, o23'⟩ := contact_point pr2 pr3 T23
  obtain ⟨n13, o13, o13'⟩ := contact_point pr1 pr3 T13
  have C1 := malfatti_center (A := T.A) (B := T.B) (C := T.C) hx hy hz hr pr1 hSr
  have C2 := malfatti_center2 (A := T.A) (B := T.B) (C := T.C) hx hy hz hr pr2 hSr
  have C3 := malfatti_center3 (A := T.A) (B := T.B) (C := T.C) hx hy hz hr pr3 hSr
  rw [← eI] at C1 C2 C3
  have hrun : T.malfatti_circles = .ok (some ⟨⟨T.A + (r1 / r) • (I - T.A), r1⟩, ⟨T.B + (r2 / r) • (I - T.B), r2⟩,
      ⟨T.C + (r3 / r) • (I - T.C), r3⟩,
      T.B + (r2 / r) • (I - T.B) + (r2 / vlength_ (T.C + (r3 / r) • (I - T.C) - (T.B + (r2 / r) • (I - T.B)))) •
        (T.C + (r3 / r) • (I - T.C) - (T.B + (r2 / r) • (I - T.B))),
      T.A + (r1 / r) • (I - T.A) + (r1 / vlength_ (T.C + (r3 / r) • (I - T.C) - (T.A + (r1 / r) • (I - T.A)))) •
        (T.C + (r3 / r) • (I - T.C) - (T.A + (r1 / r) • (I - T.A))),
      T.A + (r1 / r) • (I - T.A) + (r1 / vlength_ (T.B + (r2 / r) • (I - T.B) - (T.A + (r1 / r) • (I - T.A)))) •
        (T.B + (r2 / r) • (I - T.B) - (T.A + (r1 / r) • (I - T.A)))⟩) := by
    unfold Triangle.malfatti_circles
    rw [hf, Res.ok_bind]
    dsimp only
    rw [if_neg hf1]
    simp only [distance_eq, dA, dB, dC]
    rw [dist_comm T.B T.A, ha, hb, hc, show (y + z + (z + x) + (x + y)) / 2 = x + y + z by ring, show x + y + z - (y + z) = x by ring,
      show x + y + z - (z + x) = y by ring, show x + y + z - (x + y) = z by ring, hsq, Res.ok_bind, ← eI, vlength_sub, vlength_sub,
      vlength_sub, ← ep, ← eq, ← et, ← er, ← er1, ← er2, ← er3]
    rw [if_neg (by
      push Not
      refine ⟨?_, ?_, ?_, ?_, ?_, ?_, ?_⟩ <;> positivity)]
    rw [acA, Res.ok_bind, acB, Res.ok_bind, acC, Res.ok_bind, tA, tB, tC]
    rw [if_neg (by
      push Not
      refine ⟨?_, ?_, ?_⟩ <;> positivity)]
    rw [ps12, Res.ok_bind, ps23, Res.ok_bind, ps31, Res.ok_bind, hw, hu, hv, hdd, Res.ok_bind,
      show 4 * S / 2 = 2 * S by ring]
    rw [if_neg (by
      push Not
      refine ⟨?_, ?_, ?_⟩ <;> positivity)]
    rw [if_neg (by
      push Not
      refine ⟨?_, ?_, ?_⟩
      · rw [show (y + z) * (2 * S / r1 - (z + x + (x + y))) + (z + x) * (y + z) + (x + y) * (y + z) = (y + z) * (2 * S / r1) by ring]
        positivity
      · rw [show (y + z) * (z + x) + (z + x) * (2 * S / r2 - (y + z + (x + y))) + (x + y) * (z + x) = (z + x) * (2 * S / r2) by ring]
        positivity
      · rw [show (y + z) * (x + y) + (z + x) * (x + y) + (x + y) * (2 * S / r3 - (y + z + (z + x))) = (x + y) * (2 * S / r3) by ring]
        positivity)]
    rw [C1, C2, C3, mkCircle_pos pr1, Res.ok_bind, mkCircle_pos pr2, Res.ok_bind, mkCircle_pos pr3, Res.ok_bind]
    rw [if_neg (by push Not; exact ⟨n23, n13, n12⟩)]
    rfl
  refine ⟨_, hrun, ?_, x, y, z, r, p, q, t, I, hx, hy, hz, hr, hp, hq, ht, ha, hb, hc, hrs, p2, q2, t2, eI, er1, er2, er3, rfl, rfl, rfl, s12, s23, s31⟩
  have g1 := hom_tangent (k := r1 / r) h1 (onLine_left _ _) hItan.2.2
  have g2 := hom_tangent (k := r1 / r) h2.symm (onLine_right _ _) hItan.2.1
  have g3 := hom_tangent (k := r2 / r) h3 (onLine_left _ _) hItan.1
  have g4 := hom_tangent (k := r2 / r) h1 (onLine_right _ _) hItan.2.2
  have g5 := hom_tangent (k := r3 / r) h2.symm (onLine_left _ _) hItan.2.1
  have g6 := hom_tangent (k := r3 / r) h3 (onLine_right _ _) hItan.1
  rw [kr1] at g1 g2
  rw [kr2] at g3 g4
  rw [kr3] at g5 g6
  have d1 : ∀ P, sqDist P (T.A + (r1 / r) • (I - T.A)) < r1 ^ 2 → InTriangle T.A T.B T.C P := by
    intro P hP
    obtain ⟨q1, q2⟩ := hom_disc pk1 (by rw [kr1]; exact hP)
    rw [q2]
    exact (hom_inTriangle pk1 hk1 (disc_inTriangle h hIin hItan q1)).1
  have d2 : ∀ P, sqDist P (T.B + (r2 / r) • (I - T.B)) < r2 ^ 2 → InTriangle T.A T.B T.C P := by
    intro P hP
    obtain ⟨q1, q2⟩ := hom_disc pk2 (by rw [kr2]; exact hP)
    rw [q2]
    exact (hom_inTriangle pk2 hk2 (disc_inTriangle h hIin hItan q1)).2.1
  have d3 : ∀ P, sqDist P (T.C + (r3 / r) • (I - T.C)) < r3 ^ 2 → InTriangle T.A T.B T.C P := by
    intro P hP
    obtain ⟨q1, q2⟩ := hom_disc pk3 (by rw [kr3]; exact hP)
    rw [q2]
    exact (hom_inTriangle pk3 hk3 (disc_inTriangle h hIin hItan q1)).2.2
  exact ⟨pr1, pr2, pr3, (hom_inTriangle pk1 hk1 hIin).1, (hom_inTriangle pk2 hk2 hIin).2.1, (hom_inTriangle pk3 hk3 hIin).2.2, d1, d2, d3,
    ⟨g1, g2⟩, ⟨g3, g4⟩, ⟨g5, g6⟩, T23, T13, T12, ⟨o23, o23'⟩, ⟨o13, o13'⟩, ⟨o12, o12'⟩⟩

/-- C43: for every non-flat triangle the result is the Malfatti configuration. -/
theorem C43_malfatti (T : Triangle) (h : ¬ Collinear T.A T.B T.C) :
    ∃ m, T.malfatti_circles = .ok (some m) ∧
      MalfattiConfig T.A T.B T.C m.cA.center m.cA.radius m.cB.center m.cB.radius m.cC.center m.cC.radius m.TA m.TB m.TC := by
  obtain ⟨m, h1, h2, -⟩ := malfatti_full T h
  exact ⟨m, h1, h2⟩

/-- C43: a flat triangle with `B`, `C` distinct from `A` gives `None`. -/
theorem C43_malfatti_flat (T : Triangle) (h : Collinear T.A T.B T.C) (h1 : T.A ≠ T.B) (h2 : T.A ≠ T.C) :
    T.malfatti_circles = .ok none := by
  unfold Triangle.malfatti_circles
  rw [(flatness_one_iff T h1 h2).2 h, Res.ok_bind, if_pos rfl]
  rfl

example : ¬ Collinear (⟨0, 0⟩ : Pt) ⟨4, 0⟩ ⟨0, 3⟩ := by norm_num [Collinear, cross]
