import Verif.Spec.Drawing
import Verif.Props.Ellipse
import Verif.Props.EllipseAngle
import Verif.Props.ArcInside

/-!
# C128: the polygons drawn for `Ellipse.path` and `Arc.path`
-/

open Spec Real Classical

namespace Drawing

/-- Points of a chord of the unit circle, in polar coordinates around the middle `m` of the angles. -/
theorem chord_polar {m h t : ℝ} (h0 : 0 ≤ h) (h1 : h < π / 2) (t0 : 0 ≤ t) (t1 : t ≤ 1) :
    ∃ s ρ : ℝ, |s| ≤ h ∧ cos h ≤ ρ ∧ ρ ≤ 1 ∧ cos (m - h) + t * (cos (m + h) - cos (m - h)) = ρ * cos (m + s) ∧
      sin (m - h) + t * (sin (m + h) - sin (m - h)) = ρ * sin (m + s) := by
  have hc : 0 < cos h := cos_pos_of_mem_Ioo ⟨by linarith, h1⟩
  have hs : 0 ≤ sin h := sin_nonneg_of_nonneg_of_le_pi h0 (by linarith)
  obtain ⟨y, hy⟩ : ∃ y, y = (2 * t - 1) * sin h := ⟨_, rfl⟩
  have hy1 : y ≤ sin h := by rw [hy]; nlinarith
  have hy2 : -sin h ≤ y := by rw [hy]; nlinarith
  have at1 : arctan (y / cos h) ≤ h := by
    calc arctan (y / cos h) ≤ arctan (tan h) := arctan_mono (by rw [tan_eq_sin_div_cos]; gcongr)
      _ = h := arctan_tan (by linarith) h1
  have at2 : -h ≤ arctan (y / cos h) := by
    calc -h = arctan (tan (-h)) := (arctan_tan (by linarith) (by linarith)).symm
      _ ≤ arctan (y / cos h) := arctan_mono (by rw [tan_neg, tan_eq_sin_div_cos, ← neg_div]; gcongr)
  obtain ⟨s, hsd⟩ : ∃ s, s = arctan (y / cos h) := ⟨_, rfl⟩
  rw [← hsd] at at1 at2
  have hcs : 0 < cos s := by rw [hsd]; exact cos_arctan_pos _
  have hcs1 : cos h ≤ cos s := by
    rw [← cos_abs s]
    exact cos_le_cos_of_nonneg_of_le_pi (abs_nonneg _) (by linarith) (abs_le.2 ⟨at2, at1⟩)
  have htan : sin s / cos s * cos h = y := by
    rw [← tan_eq_sin_div_cos, hsd, tan_arctan]; field_simp
  refine ⟨s, cos h / cos s, abs_le.2 ⟨at2, at1⟩, ?_, ?_, ?_, ?_⟩
  · rw [le_div_iff₀ hcs]; nlinarith [cos_le_one s]
  · rw [div_le_one hcs]; exact hcs1
  · have e : cos h / cos s * cos (m + s) = cos h * cos m - sin m * (sin s / cos s * cos h) := by
      rw [cos_add]; field_simp
    rw [e, htan, hy, cos_sub, cos_add]; ring
  · have e : cos h / cos s * sin (m + s) = cos h * sin m + cos m * (sin s / cos s * cos h) := by
      rw [sin_add]; field_simp
    rw [e, htan, hy, sin_sub, sin_add]; ring

/-- Every direction between the ends of a chord meets the chord. -/
theorem polar_chord {m h s : ℝ} (h1 : h < π / 2) (hs : |s| ≤ h) :
    ∃ t ρ : ℝ, 0 ≤ t ∧ t ≤ 1 ∧ cos h ≤ ρ ∧ ρ ≤ 1 ∧ cos (m - h) + t * (cos (m + h) - cos (m - h)) = ρ * cos (m + s) ∧
      sin (m - h) + t * (sin (m + h) - sin (m - h)) = ρ * sin (m + s) := by
  have h0 : 0 ≤ h := (abs_nonneg s).trans hs
  obtain ⟨a1, a2⟩ := abs_le.1 hs
  rcases h0.eq_or_lt with e | hp
  · have : s = 0 := by rw [← e] at a1 a2; linarith
    refine ⟨0, 1, le_rfl, zero_le_one, ?_, le_rfl, ?_, ?_⟩
    · exact cos_le_one _
    · rw [← e, this]; simp
    · rw [← e, this]; simp
  have hc : 0 < cos h := cos_pos_of_mem_Ioo ⟨by linarith, h1⟩
  have hsn : 0 < sin h := sin_pos_of_pos_of_lt_pi hp (by linarith)
  have hcs : 0 < cos s := cos_pos_of_mem_Ioo ⟨by linarith, by linarith⟩
  have hcs1 : cos h ≤ cos s := by
    rw [← cos_abs s]
    exact cos_le_cos_of_nonneg_of_le_pi (abs_nonneg _) (by linarith) hs
  have i1 : 0 ≤ sin (h - s) := sin_nonneg_of_nonneg_of_le_pi (by linarith) (by linarith)
  have i2 : 0 ≤ sin (h + s) := sin_nonneg_of_nonneg_of_le_pi (by linarith) (by linarith)
  rw [sin_sub] at i1
  rw [sin_add] at i2
  have e1 : (1 + cos h * sin s / (cos s * sin h)) / 2 = (sin h * cos s + cos h * sin s) / (2 * (cos s * sin h)) := by field_simp
  refine ⟨(1 + cos h * sin s / (cos s * sin h)) / 2, cos h / cos s, ?_, ?_, ?_, ?_, ?_, ?_⟩
  · rw [e1]; positivity
  · rw [e1, div_le_one (by positivity)]; linarith
  · rw [le_div_iff₀ hcs]; nlinarith [cos_le_one s]
  · rw [div_le_one hcs]; exact hcs1
  · rw [cos_sub, cos_add m h, cos_add m s]; field_simp; ring
  · rw [sin_sub, sin_add m h, sin_add m s]; field_simp; ring

/-- A point of the ellipse seen from the center is at a distance of at most the larger radius. -/
theorem ell_far (O : Pt) {a b : ℝ} (ha : 0 ≤ a) (hb : 0 ≤ b) (α s : ℝ) : sqDist (ellipsePoint O a b α s) O ≤ max a b ^ 2 := by
  have h1 : a ^ 2 ≤ max a b ^ 2 := by gcongr; exact le_max_left _ _
  have h2 : b ^ 2 ≤ max a b ^ 2 := by gcongr; exact le_max_right _ _
  have e : sqDist (ellipsePoint O a b α s) O = a ^ 2 * cos s ^ 2 + b ^ 2 * sin s ^ 2 := by
    unfold sqDist ellipsePoint
    dsimp only
    have := sin_sq_add_cos_sq α
    linear_combination (a ^ 2 * cos s ^ 2 + b ^ 2 * sin s ^ 2) * this
  rw [e]
  nlinarith [sin_sq_add_cos_sq s, sq_nonneg (sin s), sq_nonneg (cos s)]

/-- A point which is pulled towards the center by the factor `ρ`. -/
theorem near {O : Pt} {a b α s ρ c : ℝ} (ha : 0 ≤ a) (hb : 0 ≤ b) (hc : c ≤ ρ) (hρ : ρ ≤ 1) {X : Pt}
    (hx : X = O + ρ • (ellipsePoint O a b α s - O)) : Spec.dist X (ellipsePoint O a b α s) ≤ max a b * (1 - c) := by
  have hm : 0 ≤ max a b := ha.trans (le_max_left _ _)
  unfold Spec.dist
  apply Real.sqrt_le_iff.2
  refine ⟨mul_nonneg hm (by linarith), ?_⟩
  have e : sqDist X (ellipsePoint O a b α s) = (1 - ρ) ^ 2 * sqDist (ellipsePoint O a b α s) O := by
    rw [hx]; unfold sqDist
    simp only [Pt.add_x, Pt.add_y, Pt.smul_x, Pt.smul_y, Pt.sub_x, Pt.sub_y]; ring
  rw [e, mul_pow, mul_comm]
  have h1 := ell_far O ha hb α s
  have h2 : (1 - ρ) ^ 2 ≤ (1 - c) ^ 2 := by apply pow_le_pow_left₀ <;> linarith
  exact mul_le_mul h1 h2 (by positivity) (by positivity)

/-- The chord of an ellipse, in polar form. -/
theorem ell_chord {O : Pt} {a b α m h t ρ s : ℝ} (e1 : cos (m - h) + t * (cos (m + h) - cos (m - h)) = ρ * cos (m + s))
    (e2 : sin (m - h) + t * (sin (m + h) - sin (m - h)) = ρ * sin (m + s)) :
    ellipsePoint O a b α (m - h) + t • (ellipsePoint O a b α (m + h) - ellipsePoint O a b α (m - h)) =
      O + ρ • (ellipsePoint O a b α (m + s) - O) := by
  ext
  · simp only [ellipsePoint, Pt.add_x, Pt.smul_x, Pt.sub_x]
    linear_combination a * cos α * e1 - b * sin α * e2
  · simp only [ellipsePoint, Pt.add_y, Pt.smul_y, Pt.sub_y]
    linear_combination a * sin α * e1 + b * cos α * e2

/-- Chords of an ellipse between angles less than `π` apart. -/
theorem chord_within {O : Pt} {a b : ℝ} (ha : 0 ≤ a) (hb : 0 ≤ b) (α : ℝ) {u v : ℝ} (huv : u ≤ v) (hv : v < u + π) :
    (∀ X, OnSegment (ellipsePoint O a b α u) (ellipsePoint O a b α v) X → ∃ s, u ≤ s ∧ s ≤ v ∧
      ∃ ρ, cos ((v - u) / 2) ≤ ρ ∧ ρ ≤ 1 ∧ X = O + ρ • (ellipsePoint O a b α s - O)) ∧
    ∀ s, u ≤ s → s ≤ v → ∃ X, OnSegment (ellipsePoint O a b α u) (ellipsePoint O a b α v) X ∧
      ∃ ρ, cos ((v - u) / 2) ≤ ρ ∧ ρ ≤ 1 ∧ X = O + ρ • (ellipsePoint O a b α s - O) := by
  have eu : u = (u + v) / 2 - (v - u) / 2 := by ring
  have ev : v = (u + v) / 2 + (v - u) / 2 := by ring
  obtain ⟨m, hm⟩ : ∃ m, m = (u + v) / 2 := ⟨_, rfl⟩
  obtain ⟨h, hh⟩ : ∃ h, h = (v - u) / 2 := ⟨_, rfl⟩
  rw [← hm, ← hh] at eu ev
  rw [← hh]
  have h0 : 0 ≤ h := by linarith
  have h1 : h < π / 2 := by linarith
  clear hm hh
  subst eu ev
  constructor
  · rintro X ⟨t, t0, t1, rfl⟩
    obtain ⟨s, ρ, hs, r1, r2, e1, e2⟩ := chord_polar (m := m) h0 h1 t0 t1
    obtain ⟨a1, a2⟩ := abs_le.1 hs
    exact ⟨m + s, by linarith, by linarith, ρ, r1, r2, ell_chord e1 e2⟩
  · intro s s1 s2
    obtain ⟨t, ρ, t0, t1, r1, r2, e1, e2⟩ := polar_chord (m := m) (s := s - m) h1 (abs_le.2 ⟨by linarith, by linarith⟩)
    rw [add_sub_cancel] at e1 e2
    refine ⟨_, ⟨t, t0, t1, rfl⟩, ρ, r1, r2, ?_⟩
    have := ell_chord (O := O) (a := a) (b := b) (α := α) (s := s - m) (m := m) (h := h) (t := t) (ρ := ρ)
      (by rw [add_sub_cancel]; exact e1) (by rw [add_sub_cancel]; exact e2)
    rwa [add_sub_cancel] at this

/-- Three points of an ellipse. -/
theorem ell_cross (O : Pt) (a b α u x y : ℝ) :
    cross (ellipsePoint O a b α (u + 2 * x) - ellipsePoint O a b α u) (ellipsePoint O a b α (u + 2 * y) - ellipsePoint O a b α u) =
      4 * (a * b) * (sin x * sin (y - x) * sin y) := by
  have e : cross (ellipsePoint O a b α (u + 2 * x) - ellipsePoint O a b α u) (ellipsePoint O a b α (u + 2 * y) - ellipsePoint O a b α u) =
      a * b * ((cos (u + 2 * x) - cos u) * (sin (u + 2 * y) - sin u) - (sin (u + 2 * x) - sin u) * (cos (u + 2 * y) - cos u)) := by
    unfold cross ellipsePoint
    simp only [Pt.sub_x, Pt.sub_y]
    linear_combination a * b * ((cos (u + 2 * x) - cos u) * (sin (u + 2 * y) - sin u) - (sin (u + 2 * x) - sin u) * (cos (u + 2 * y) - cos u)) *
      sin_sq_add_cos_sq α
  rw [e]
  have hx := sin_sq_add_cos_sq x
  have hy := sin_sq_add_cos_sq y
  have hu := sin_sq_add_cos_sq u
  have e2 : (cos (u + 2 * x) - cos u) * (sin (u + 2 * y) - sin u) - (sin (u + 2 * x) - sin u) * (cos (u + 2 * y) - cos u) =
      (cos (2 * x) - 1) * sin (2 * y) - sin (2 * x) * (cos (2 * y) - 1) := by
    rw [cos_add, cos_add, sin_add, sin_add]
    linear_combination ((cos (2 * x) - 1) * sin (2 * y) - sin (2 * x) * (cos (2 * y) - 1)) * hu
  rw [e2, cos_two_mul, cos_two_mul, sin_two_mul, sin_two_mul, sin_sub]
  linear_combination (4 * a * b * cos y * sin y) * hx - 4 * a * b * sin x * cos x * hy

theorem ell_period (O : Pt) (a b α t : ℝ) (k : ℕ) : ellipsePoint O a b α (t + k * (2 * π)) = ellipsePoint O a b α t := by
  unfold ellipsePoint
  rw [cos_add_nat_mul_two_pi, sin_add_nat_mul_two_pi]

/-- The vertex with an index taken modulo `N`. -/
theorem vertex_mod {N : ℕ} (hN : 0 < N) (O : Pt) (a b α : ℝ) (k : ℕ) :
    ellipsePoint O a b α (2 * π * ((k % N : ℕ) : ℝ) / N) = ellipsePoint O a b α (2 * π * k / N) := by
  have hN' : (N : ℝ) ≠ 0 := by exact_mod_cast hN.ne'
  have e : 2 * π * (k : ℝ) / N = 2 * π * ((k % N : ℕ) : ℝ) / N + ((k / N : ℕ) : ℝ) * (2 * π) := by
    have : (k : ℝ) = ((k % N : ℕ) : ℝ) + N * ((k / N : ℕ) : ℝ) := by exact_mod_cast (Nat.mod_add_div k N).symm
    rw [this]
    field_simp
  rw [e, ell_period]

/-- Every vertex which is not on a side is strictly to the left of it. -/
theorem vertex_left {N : ℕ} (hN : 3 ≤ N) (O : Pt) {a b : ℝ} (ha : 0 < a) (hb : 0 < b) (α : ℝ) {i j : ℕ} (hi : i < N) (hj : j < N) (h1 : j ≠ i)
    (h2 : j ≠ (i + 1) % N) :
    0 < cross (ellipsePoint O a b α (2 * π * ((i + 1 : ℕ) : ℝ) / N) - ellipsePoint O a b α (2 * π * i / N))
      (ellipsePoint O a b α (2 * π * j / N) - ellipsePoint O a b α (2 * π * i / N)) := by
  have hN0 : (0 : ℝ) < N := by exact_mod_cast (by omega : 0 < N)
  have hπ := pi_pos
  have e1 : 2 * π * ((i + 1 : ℕ) : ℝ) / N = 2 * π * i / N + 2 * (π / N) := by push_cast; field_simp
  have e2 : 2 * π * (j : ℝ) / N = 2 * π * i / N + 2 * (π * (j - i) / N) := by field_simp; ring
  rw [e1, e2, ell_cross]
  have key : ∀ k : ℝ, 0 < k → k < N → 0 < sin (π * k / N) := fun k k0 k1 => by
    apply sin_pos_of_pos_of_lt_pi
    · positivity
    · rw [div_lt_iff₀ hN0]; nlinarith
  have s1 : 0 < sin (π / N) := by simpa using key 1 one_pos (by exact_mod_cast (by omega : 1 < N))
  have s2 : 0 < sin (π * (j - i) / N - π / N) * sin (π * (j - i) / N) := by
    rcases Nat.lt_or_ge i j with h | h
    · have : (i + 1) % N = i + 1 := Nat.mod_eq_of_lt (by omega)
      have h3 : i + 2 ≤ j := by omega
      have h3' : (i : ℝ) + 2 ≤ j := by exact_mod_cast h3
      have hjN : (j : ℝ) < N := by exact_mod_cast hj
      have hi0 : (0 : ℝ) ≤ i := by positivity
      rw [show π * ((j : ℝ) - i) / N - π / N = π * (j - i - 1) / N by ring]
      exact mul_pos (key _ (by linarith) (by linarith)) (key _ (by linarith) (by linarith))
    · have h3 : j + 1 ≤ i := by omega
      have h3' : (j : ℝ) + 1 ≤ i := by exact_mod_cast h3
      have hiN : (i : ℝ) + 1 ≤ N := by exact_mod_cast hi
      have hj0 : (0 : ℝ) ≤ j := by positivity
      have hlt : (i : ℝ) - j + 1 < N := by
        rcases Nat.lt_or_ge (i + 1) N with h4 | h4
        · have : (i : ℝ) + 1 + 1 ≤ N := by exact_mod_cast h4
          linarith
        · have h5 : i + 1 = N := by omega
          rw [h5, Nat.mod_self] at h2
          have : (1 : ℝ) ≤ j := by exact_mod_cast Nat.one_le_iff_ne_zero.2 h2
          linarith
      rw [show π * ((j : ℝ) - i) / N - π / N = -(π * (i - j + 1) / N) by ring, show π * ((j : ℝ) - i) / N = -(π * (i - j) / N) by ring,
        sin_neg, sin_neg, neg_mul_neg]
      exact mul_pos (key _ (by linarith) (by linarith)) (key _ (by linarith) (by linarith))
  rw [mul_assoc (sin (π / N))]
  exact mul_pos (by positivity) (mul_pos s1 s2)

/-- A chord and an arc of at least a half turn. -/
theorem long_chord {O : Pt} {r : ℝ} (hr : 0 ≤ r) {u d : ℝ} (d0 : π ≤ d) (d1 : d ≤ 2 * π) :
    (∀ X, OnSegment (circlePoint O r u) (circlePoint O r (u + d)) X → ∃ Y, OnArc O r u (u + d) Y ∧ Spec.dist X Y ≤ r * (1 - cos (d / 2))) ∧
    ∀ Y, OnArc O r u (u + d) Y → ∃ X, OnSegment (circlePoint O r u) (circlePoint O r (u + d)) X ∧ Spec.dist X Y ≤ r * (1 - cos (d / 2)) := by
  have hπ := pi_pos
  have hc : cos (d / 2) ≤ 0 := cos_nonpos_of_pi_div_two_le_of_le (by linarith) (by linarith)
  have hb : 0 ≤ r * (1 - cos (d / 2)) := mul_nonneg hr (by linarith)
  have hrb : r ≤ r * (1 - cos (d / 2)) := by nlinarith
  constructor
  · rintro X ⟨t, t0, t1, rfl⟩
    have hq : (cos (u + d) - cos u) ^ 2 + (sin (u + d) - sin u) ^ 2 ≤ 4 := by
      have e : (cos (u + d) - cos u) ^ 2 + (sin (u + d) - sin u) ^ 2 = 2 - 2 * cos d := by
        rw [show cos d = cos ((u + d) - u) by rw [add_sub_cancel_left], cos_sub]
        linear_combination sin_sq_add_cos_sq (u + d) + sin_sq_add_cos_sq u
      linarith [neg_one_le_cos d]
    have key : ∀ w : ℝ, w ^ 2 ≤ 1 / 4 → w ^ 2 * (r ^ 2 * ((cos (u + d) - cos u) ^ 2 + (sin (u + d) - sin u) ^ 2)) ≤ r ^ 2 := by
      intro w hw
      have h1 : r ^ 2 * ((cos (u + d) - cos u) ^ 2 + (sin (u + d) - sin u) ^ 2) ≤ r ^ 2 * 4 := mul_le_mul_of_nonneg_left hq (sq_nonneg _)
      nlinarith [sq_nonneg r, sq_nonneg w]
    rcases le_total t (1 / 2) with h | h
    · refine ⟨circlePoint O r u, ⟨u, le_rfl, by linarith, rfl⟩, le_trans ?_ hrb⟩
      unfold Spec.dist
      refine Real.sqrt_le_iff.2 ⟨hr, le_trans (le_of_eq ?_) (key t (by nlinarith))⟩
      unfold sqDist circlePoint
      simp only [Pt.add_x, Pt.add_y, Pt.smul_x, Pt.smul_y, Pt.sub_x, Pt.sub_y]
      ring
    · refine ⟨circlePoint O r (u + d), ⟨u + d, by linarith, le_rfl, rfl⟩, le_trans ?_ hrb⟩
      unfold Spec.dist
      refine Real.sqrt_le_iff.2 ⟨hr, le_trans (le_of_eq ?_) (key (1 - t) (by nlinarith))⟩
      unfold sqDist circlePoint
      simp only [Pt.add_x, Pt.add_y, Pt.smul_x, Pt.smul_y, Pt.sub_x, Pt.sub_y]
      ring
  · rintro Y ⟨s, -, -, rfl⟩
    refine ⟨_, ⟨1 / 2, by norm_num, by norm_num, rfl⟩, ?_⟩
    have e : u = (u + d / 2) - d / 2 := by ring
    have e' : u + d = (u + d / 2) + d / 2 := by ring
    generalize u + d / 2 = m at *
    generalize d / 2 = h at *
    unfold Spec.dist
    refine Real.sqrt_le_iff.2 ⟨hb, ?_⟩
    have hm : cos m * cos s + sin m * sin s ≤ 1 := by rw [← cos_sub]; exact cos_le_one _
    have e2 : sqDist (circlePoint O r u + (1 / 2 : ℝ) • (circlePoint O r (u + d) - circlePoint O r u)) (circlePoint O r s) =
        r ^ 2 * (1 - 2 * cos h * (cos m * cos s + sin m * sin s) + cos h ^ 2) := by
      rw [e', e]
      unfold sqDist circlePoint
      simp only [Pt.add_x, Pt.add_y, Pt.smul_x, Pt.smul_y, Pt.sub_x, Pt.sub_y]
      rw [cos_add, cos_sub, sin_add, sin_sub]
      linear_combination r ^ 2 * cos h ^ 2 * sin_sq_add_cos_sq m + r ^ 2 * sin_sq_add_cos_sq s
    rw [e2, mul_pow]
    refine mul_le_mul_of_nonneg_left ?_ (sq_nonneg r)
    nlinarith

end Drawing

/-- **C128** For an ellipse and `n ≥ 3`, the closed polygon with the vertices `path(n)` is convex, described counterclockwise, with `n` distinct
vertices; it is inside the ellipse, the distance of the polygon and the ellipse is at most `max(rmajor, rminor) (1 - cos (π/n))`, and it
encloses the area `n/2 sin(2π/n) rmajor rminor`. -/
theorem C128_ellipse_polygon (e : Ellipse) (he : e.Valid) (n : ℤ) (hn : 3 ≤ n) :
    ∃ L, e.path n = .ok L ∧ L.Nodup ∧
      Within (max e.rmajor e.rminor * (1 - cos (π / n))) (polygon L) {P | OnE e P} ∧
      (∀ X ∈ polygon L, InEllipse e.center e.rmajor e.rminor e.rad X) ∧
      (∀ i j P Q R, L[i]? = some P → L[(i + 1) % L.length]? = some Q → L[j]? = some R → j ≠ i → j ≠ (i + 1) % L.length →
        0 < cross (Q - P) (R - P)) ∧
      ∃ p : ℕ → Pt, L = (List.range L.length).map p ∧ twiceArea L.length p / 2 = n / 2 * sin (2 * π / n) * (e.rmajor * e.rminor) := by
  obtain ⟨L, hL, hlen, -, hget⟩ := (C64_path e n).2 (by omega)
  obtain ⟨ha, hb⟩ := he
  refine ⟨L, hL, ?_⟩
  obtain ⟨N, rfl⟩ : ∃ N : ℕ, (N : ℤ) = n := ⟨n.toNat, Int.toNat_of_nonneg (by omega)⟩
  have hlen' : L.length = N := by exact_mod_cast hlen
  have hN : 3 ≤ N := by exact_mod_cast hn
  have hN0 : (0 : ℝ) < N := by exact_mod_cast (by omega : 0 < N)
  have hπ := pi_pos
  obtain ⟨p, hp⟩ : ∃ p : ℕ → Pt, p = fun k : ℕ => ellipsePoint e.center e.rmajor e.rminor e.rad (2 * π * k / N) := ⟨_, rfl⟩
  have hg : ∀ i < N, L[i]? = some (p i) := fun i hi => by
    rw [hget i (by exact_mod_cast hi), hp]; push_cast; rfl
  have hpm : ∀ k, p (k % N) = p k := fun k => by rw [hp]; exact Drawing.vertex_mod (by omega) _ _ _ _ k
  have hin : ∀ {i : ℕ} {P : Pt}, L[i]? = some P → i < N ∧ P = p i := by
    intro i P h
    have h1 : i < N := by
      rw [← hlen']
      exact (List.getElem?_eq_some_iff.1 h).1
    rw [hg i h1] at h
    exact ⟨h1, (Option.some.inj h).symm⟩
  have hleft : ∀ i j, i < N → j < N → j ≠ i → j ≠ (i + 1) % N → 0 < cross (p (i + 1) - p i) (p j - p i) := by
    intro i j hi hj h1 h2
    rw [hp]
    exact Drawing.vertex_left hN _ ha hb _ hi hj h1 h2
  have hside : ∀ i < N, (∀ X, OnSegment (p i) (p (i + 1)) X → ∃ s, 2 * π * i / N ≤ s ∧ s ≤ 2 * π * ((i + 1 : ℕ) : ℝ) / N ∧
      ∃ ρ, cos (π / N) ≤ ρ ∧ ρ ≤ 1 ∧ X = e.center + ρ • (ellipsePoint e.center e.rmajor e.rminor e.rad s - e.center)) ∧
      ∀ s, 2 * π * i / N ≤ s → s ≤ 2 * π * ((i + 1 : ℕ) : ℝ) / N → ∃ X, OnSegment (p i) (p (i + 1)) X ∧
      ∃ ρ, cos (π / N) ≤ ρ ∧ ρ ≤ 1 ∧ X = e.center + ρ • (ellipsePoint e.center e.rmajor e.rminor e.rad s - e.center) := by
    intro i hi
    have e1 : 2 * π * ((i + 1 : ℕ) : ℝ) / N = 2 * π * i / N + 2 * (π / N) := by push_cast; field_simp
    have h2 : 2 * (π / N) < π := by
      rw [← mul_div_assoc, div_lt_iff₀ hN0]
      have : (3 : ℝ) ≤ N := by exact_mod_cast hN
      nlinarith
    have := Drawing.chord_within (O := e.center) ha.le hb.le e.rad (u := 2 * π * i / N) (v := 2 * π * ((i + 1 : ℕ) : ℝ) / N)
      (by rw [e1]; linarith [show 0 < π / N by positivity]) (by rw [e1]; linarith)
    rw [show (2 * π * ((i + 1 : ℕ) : ℝ) / N - 2 * π * i / N) / 2 = π / N by rw [e1]; ring] at this
    rw [hp]
    exact this
  have hcos : 0 ≤ cos (π / N) := by
    apply cos_nonneg_of_neg_pi_div_two_le_of_le
    · linarith [show 0 < π / N by positivity]
    · rw [div_le_div_iff₀ hN0 two_pos]
      have : (3 : ℝ) ≤ N := by exact_mod_cast hN
      nlinarith
  refine ⟨?_, ⟨?_, ?_⟩, ?_, ?_, ?_⟩
  · rw [List.nodup_iff_getElem?_ne_getElem?]
    intro i j hij hj heq
    rw [hlen'] at hj
    rw [hg i (by omega), hg j hj] at heq
    have heq := Option.some.inj heq
    by_cases h : j = (i + 1) % N
    · have h3 := hleft j i hj (by omega) (by omega) (by
        have : (i + 1) % N = i + 1 := Nat.mod_eq_of_lt (by rw [h] at hij; by_contra hc; rw [show i + 1 = N by omega, Nat.mod_self] at hij; omega)
        rcases Nat.lt_or_ge (j + 1) N with h4 | h4
        · rw [Nat.mod_eq_of_lt h4]; omega
        · rw [show j + 1 = N by omega, Nat.mod_self]; omega)
      rw [heq] at h3
      simp [cross] at h3
    · have h3 := hleft i j (by omega) hj (by omega) h
      rw [heq] at h3
      simp [cross] at h3
  · rintro X ⟨i, P, Q, hP, hQ, hX⟩
    obtain ⟨hi, rfl⟩ := hin hP
    rw [hlen'] at hQ
    obtain ⟨-, rfl⟩ := hin hQ
    rw [hpm] at hX
    obtain ⟨s, -, -, ρ, r1, r2, hx⟩ := (hside i hi).1 X hX
    refine ⟨_, ⟨s, rfl⟩, ?_⟩
    push_cast
    exact Drawing.near ha.le hb.le r1 r2 hx
  · rintro Y ⟨t, rfl⟩
    obtain ⟨i, hi, s, s1, s2, hs⟩ : ∃ i < N, ∃ s, 2 * π * i / N ≤ s ∧ s ≤ 2 * π * ((i + 1 : ℕ) : ℝ) / N ∧
        ellipsePoint e.center e.rmajor e.rminor e.rad t = ellipsePoint e.center e.rmajor e.rminor e.rad s := by
      have m0 := pyMod_nonneg t (m := 2 * π) (by positivity)
      have m1 := pyMod_lt t (m := 2 * π) (by positivity)
      have hes : ellipsePoint e.center e.rmajor e.rminor e.rad t = ellipsePoint e.center e.rmajor e.rminor e.rad (pyMod t (2 * π)) := by
        unfold ellipsePoint; rw [cos_pyMod, sin_pyMod]
      generalize pyMod t (2 * π) = s at *
      have h0 : 0 ≤ s * N / (2 * π) := by positivity
      refine ⟨⌊s * N / (2 * π)⌋₊, ?_, s, ?_, ?_, hes⟩
      · rw [Nat.floor_lt h0, div_lt_iff₀ (by positivity)]; nlinarith
      · have := Nat.floor_le h0
        rw [le_div_iff₀ (by positivity)] at this
        rw [div_le_iff₀ hN0]; linarith
      · have := (Nat.lt_floor_add_one (s * N / (2 * π))).le
        rw [div_le_iff₀ (by positivity)] at this
        rw [le_div_iff₀ hN0]; push_cast; linarith
    obtain ⟨X, hX, ρ, r1, r2, hx⟩ := (hside i hi).2 s s1 s2
    refine ⟨X, ⟨i, p i, p (i + 1), hg i hi, ?_, hX⟩, ?_⟩
    · rw [hlen', hg _ (Nat.mod_lt _ (by omega)), hpm]
    · rw [hs]
      push_cast
      exact Drawing.near ha.le hb.le r1 r2 hx
  · rintro X ⟨i, P, Q, hP, hQ, hX⟩
    obtain ⟨hi, rfl⟩ := hin hP
    rw [hlen'] at hQ
    obtain ⟨-, rfl⟩ := hin hQ
    rw [hpm] at hX
    obtain ⟨s, -, -, ρ, r1, r2, hx⟩ := (hside i hi).1 X hX
    have hρ : 0 ≤ ρ := hcos.trans r1
    have c1 : (axisCoord e.center e.rad X).x / e.rmajor = ρ * cos s := by
      rw [div_eq_iff ha.ne', hx]
      simp only [axisCoord, ellipsePoint, Pt.add_x, Pt.add_y, Pt.smul_x, Pt.smul_y, Pt.sub_x, Pt.sub_y]
      linear_combination ρ * cos s * e.rmajor * sin_sq_add_cos_sq e.rad
    have c2 : (axisCoord e.center e.rad X).y / e.rminor = ρ * sin s := by
      rw [div_eq_iff hb.ne', hx]
      simp only [axisCoord, ellipsePoint, Pt.add_x, Pt.add_y, Pt.smul_x, Pt.smul_y, Pt.sub_x, Pt.sub_y]
      linear_combination ρ * sin s * e.rminor * sin_sq_add_cos_sq e.rad
    unfold InEllipse
    rw [c1, c2, show (ρ * cos s) ^ 2 + (ρ * sin s) ^ 2 = ρ ^ 2 * (sin s ^ 2 + cos s ^ 2) by ring, sin_sq_add_cos_sq, mul_one]
    exact pow_le_one₀ hρ r2
  · intro i j P Q R hP hQ hR h1 h2
    rw [hlen'] at hQ h2
    obtain ⟨hi, rfl⟩ := hin hP
    obtain ⟨-, rfl⟩ := hin hQ
    obtain ⟨hj, rfl⟩ := hin hR
    rw [hpm]
    exact hleft i j hi hj h1 h2
  · refine ⟨p, ?_, ?_⟩
    · apply List.ext_getElem?
      intro i
      rw [hlen']
      rcases Nat.lt_or_ge i N with h | h
      · rw [hg i h, List.getElem?_map, List.getElem?_range h]; rfl
      · rw [List.getElem?_eq_none (by omega), List.getElem?_eq_none (by simp; omega)]
    · rw [hlen']
      unfold twiceArea
      have ht : ∀ i ∈ Finset.range N, (p i).x * (p ((i + 1) % N)).y - (p i).y * (p ((i + 1) % N)).x =
          e.rmajor * e.rminor * sin (2 * π / N) +
            ((e.center.x * (p (i + 1)).y - e.center.y * (p (i + 1)).x) - (e.center.x * (p i).y - e.center.y * (p i).x)) := by
        intro i _
        rw [hpm]
        have e1 : 2 * π * ((i + 1 : ℕ) : ℝ) / N = 2 * π * i / N + 2 * π / N := by push_cast; field_simp
        have e2 : sin (2 * π / N) = cos (2 * π * i / N) * sin (2 * π * ((i + 1 : ℕ) : ℝ) / N) -
            sin (2 * π * i / N) * cos (2 * π * ((i + 1 : ℕ) : ℝ) / N) := by
          rw [e1, show 2 * π / (N : ℝ) = (2 * π * i / N + 2 * π / N) - 2 * π * i / N by ring, sin_sub]
          rw [show 2 * π * (i : ℝ) / N + ((2 * π * i / N + 2 * π / N) - 2 * π * i / N) = 2 * π * i / N + 2 * π / N by ring]; ring
        rw [e2, hp]
        simp only [ellipsePoint]
        linear_combination e.rmajor * e.rminor * (cos (2 * π * i / N) * sin (2 * π * ((i + 1 : ℕ) : ℝ) / N) -
            sin (2 * π * i / N) * cos (2 * π * ((i + 1 : ℕ) : ℝ) / N)) * sin_sq_add_cos_sq e.rad
      rw [Finset.sum_congr rfl ht, Finset.sum_add_distrib, Finset.sum_range_sub (fun i => e.center.x * (p i).y - e.center.y * (p i).x),
        Finset.sum_const, Finset.card_range, nsmul_eq_mul]
      have : p N = p 0 := by rw [← hpm N, Nat.mod_self]
      rw [this]
      push_cast
      ring

/-- The default of 100 points: the distance to the ellipse is less than a two-thousandth of the major radius. -/
example (e : Ellipse) (he : e.Valid) : ∃ L, e.path 100 = .ok L ∧ Within (max e.rmajor e.rminor / 2000) (polygon L) {P | OnE e P} := by
  obtain ⟨L, hL, -, hw, -⟩ := C128_ellipse_polygon e he 100 (by norm_num)
  have h1 := one_sub_sq_div_two_le_cos (x := π / 100)
  have h2 := pi_lt_d2
  have h3 := pi_pos
  have h4 : 1 - cos (π / ((100 : ℤ) : ℝ)) ≤ 1 / 2000 := by
    push_cast
    nlinarith
  have h5 : max e.rmajor e.rminor * (1 - cos (π / ((100 : ℤ) : ℝ))) ≤ max e.rmajor e.rminor / 2000 := by
    have : 0 ≤ max e.rmajor e.rminor := he.1.le.trans (le_max_left _ _)
    nlinarith
  refine ⟨L, hL, fun X hX => ?_, fun Y hY => ?_⟩
  · obtain ⟨Y, hY, h⟩ := hw.1 X hX
    exact ⟨Y, hY, h.trans h5⟩
  · obtain ⟨X, hX, h⟩ := hw.2 Y hY
    exact ⟨X, hX, h.trans h5⟩

/-- The rhombus inscribed in the ellipse with radii 3 and 2: area 12. -/
example : ∃ L, (⟨⟨1, 1⟩, 3, 2, 0, true⟩ : Ellipse).path 4 = .ok L ∧ ∃ p : ℕ → Pt, L = (List.range L.length).map p ∧ twiceArea L.length p / 2 = 12 := by
  obtain ⟨L, hL, -, -, -, -, p, hp, ha⟩ := C128_ellipse_polygon ⟨⟨1, 1⟩, 3, 2, 0, true⟩ ⟨by norm_num, by norm_num⟩ 4 (by norm_num)
  refine ⟨L, hL, p, hp, ?_⟩
  rw [ha, show 2 * π / ((4 : ℤ) : ℝ) = π / 2 by push_cast; ring, sin_pi_div_two]
  norm_num

/-- **C128** For an arc and `n ≥ 2`, the polygonal line through the points of `path(n)` goes from the starting point to the ending point, and
its distance to the arc described counterclockwise between these points is at most `radius (1 - cos (d / (2 (n - 1))))`, where `d` is the angle of the arc. -/
theorem C128_arc_polyline (a : Arc) (ha : 0 < a.radius) (n : ℤ) (hn : 2 ≤ n) :
    ∃ L θ d, a.path n = .ok L ∧ 0 ≤ d ∧ d < 2 * π ∧ L[0]? = some a.starting_point ∧ L.getLast? = some a.ending_point ∧
      a.starting_point = circlePoint a.center a.radius θ ∧ a.ending_point = circlePoint a.center a.radius (θ + d) ∧
      Within (a.radius * (1 - cos (d / (2 * (n - 1))))) (polyline L) {P | OnArc a.center a.radius θ (θ + d) P} := by
  obtain ⟨L, hL, hlen, -, h0, hlast, θ, d, d0, d1, hget⟩ := (C71_arc_path a n).2 (by omega)
  have hlast := hlast hn
  obtain ⟨N, hNn⟩ : ∃ N : ℕ, (N : ℤ) + 1 = n := ⟨(n - 1).toNat, by omega⟩
  have hN1 : 1 ≤ N := by omega
  have hlen' : L.length = N + 1 := by omega
  have hnR : ((n : ℝ) - 1) = N := by rw [← hNn]; push_cast; ring
  have hN0 : (0 : ℝ) < N := by exact_mod_cast hN1
  have hπ := pi_pos
  obtain ⟨p, hp⟩ : ∃ p : ℕ → Pt, p = fun k : ℕ => ellipsePoint a.center a.radius a.radius 0 (θ + k * d / N) := ⟨_, rfl⟩
  have hc : ∀ t, circlePoint a.center a.radius t = ellipsePoint a.center a.radius a.radius 0 t := by
    intro t; unfold circlePoint ellipsePoint; ext <;> simp
  have hg : ∀ i < N + 1, L[i]? = some (p i) := fun i hi => by
    rw [hget i (by omega) hn, hp, hnR]
    congr 1
    ext <;> simp [ellipsePoint]
  have hin : ∀ {i : ℕ} {P : Pt}, L[i]? = some P → i < N + 1 ∧ P = p i := by
    intro i P h
    have h1 : i < N + 1 := by
      rw [← hlen']
      exact (List.getElem?_eq_some_iff.1 h).1
    rw [hg i h1] at h
    exact ⟨h1, (Option.some.inj h).symm⟩
  refine ⟨L, θ, d, hL, d0, d1, h0, hlast, ?_, ?_, ?_⟩
  · have := (hin h0).2
    rw [this, hc, hp]; simp
  · rw [List.getLast?_eq_getElem?, hlen', Nat.add_sub_cancel] at hlast
    rw [(hin hlast).2, hc, hp]
    dsimp only
    congr 1
    field_simp
  · rw [hnR]
    rcases le_or_gt π (d / N) with hbig | hstep
    · rw [le_div_iff₀ hN0] at hbig
      have hN1' : N = 1 := by
        by_contra hc
        have : (2 : ℝ) ≤ N := by exact_mod_cast (by omega : 2 ≤ N)
        nlinarith
      rw [hN1'] at hbig hg hin hp ⊢
      rw [Nat.cast_one, mul_one] at hbig ⊢
      have p0 : p 0 = circlePoint a.center a.radius θ := by rw [hp, hc]; simp
      have p1 : p 1 = circlePoint a.center a.radius (θ + d) := by rw [hp, hc]; simp
      obtain ⟨l1, l2⟩ := Drawing.long_chord (O := a.center) ha.le (u := θ) hbig d1.le
      constructor
      · rintro X ⟨i, P, Q, hP, hQ, hX⟩
        obtain ⟨hi', rfl⟩ := hin hQ
        obtain ⟨hi, rfl⟩ := hin hP
        have : i = 0 := by omega
        subst this
        rw [p0, zero_add, p1] at hX
        exact l1 X hX
      · intro Y hY
        obtain ⟨X, hX, h⟩ := l2 Y hY
        exact ⟨X, ⟨0, p 0, p 1, hg 0 (by omega), hg 1 (by omega), by rw [p0, p1]; exact hX⟩, h⟩
    have hs0 : 0 ≤ d / N := by positivity
    have hside : ∀ i : ℕ, _ := fun i : ℕ => Drawing.chord_within (O := a.center) ha.le ha.le 0 (u := θ + i * d / N) (v := θ + ((i + 1 : ℕ) : ℝ) * d / N)
      (by push_cast; rw [add_mul, add_div, one_mul]; linarith) (by push_cast; rw [add_mul, add_div, one_mul]; linarith)
    have hcs : ∀ i : ℕ, (θ + ((i + 1 : ℕ) : ℝ) * d / N - (θ + i * d / N)) / 2 = d / (2 * N) := fun i => by push_cast; field_simp; ring
    have hmx : max a.radius a.radius = a.radius := max_self _
    constructor
    · rintro X ⟨i, P, Q, hP, hQ, hX⟩
      obtain ⟨hi, rfl⟩ := hin hP
      obtain ⟨hi', rfl⟩ := hin hQ
      rw [hp] at hX
      obtain ⟨s, s1, s2, ρ, r1, r2, hx⟩ := (hside i).1 X hX
      rw [hcs] at r1
      refine ⟨_, ⟨s, ?_, ?_, rfl⟩, ?_⟩
      · have : 0 ≤ (i : ℝ) * d / N := by positivity
        linarith
      · have h1 : ((i + 1 : ℕ) : ℝ) ≤ N := by exact_mod_cast (by omega : i + 1 ≤ N)
        have h2 : ((i + 1 : ℕ) : ℝ) * d / N ≤ d := by rw [div_le_iff₀ hN0]; nlinarith
        linarith
      · have := Drawing.near ha.le ha.le r1 r2 hx
        rwa [hmx, ← hc] at this
    · rintro Y ⟨t, t1, t2, rfl⟩
      obtain ⟨i, hi, i1, i2⟩ : ∃ i < N, θ + (i : ℝ) * d / N ≤ t ∧ t ≤ θ + ((i + 1 : ℕ) : ℝ) * d / N := by
        rcases d0.eq_or_lt with h | h
        · have hd0 : d = 0 := h.symm
          rw [hd0] at t2 ⊢
          refine ⟨0, by omega, ?_, ?_⟩
          · simp; exact t1
          · simpa using t2
        by_cases he : t = θ + d
        · refine ⟨N - 1, by omega, ?_, ?_⟩
          · rw [he, Nat.cast_sub hN1]
            have : ((N : ℝ) - (1 : ℕ)) * d / N ≤ d := by rw [div_le_iff₀ hN0]; push_cast; nlinarith
            linarith
          · rw [Nat.sub_add_cancel hN1, he]
            field_simp
            exact le_rfl
        · have hlt : t < θ + d := lt_of_le_of_ne t2 he
          have q0 : 0 ≤ (t - θ) * N / d := div_nonneg (mul_nonneg (by linarith) hN0.le) h.le
          refine ⟨⌊(t - θ) * N / d⌋₊, ?_, ?_, ?_⟩
          · rw [Nat.floor_lt q0, div_lt_iff₀ h]; nlinarith
          · have := Nat.floor_le q0
            rw [le_div_iff₀ h] at this
            have : (⌊(t - θ) * N / d⌋₊ : ℝ) * d / N ≤ t - θ := by rw [div_le_iff₀ hN0]; exact this
            linarith
          · have := (Nat.lt_floor_add_one ((t - θ) * N / d)).le
            rw [div_le_iff₀ h] at this
            have : t - θ ≤ ((⌊(t - θ) * N / d⌋₊ + 1 : ℕ) : ℝ) * d / N := by rw [le_div_iff₀ hN0]; push_cast; exact this
            linarith
      obtain ⟨X, hX, ρ, r1, r2, hx⟩ := (hside i).2 t i1 i2
      rw [hcs] at r1
      refine ⟨X, ⟨i, p i, p (i + 1), hg i (by omega), hg (i + 1) (by omega), by rw [hp]; exact hX⟩, ?_⟩
      have := Drawing.near ha.le ha.le r1 r2 hx
      rwa [hmx, ← hc] at this

/-- The half circle with three points. -/
example : ∃ (L : List Pt) (θ d : ℝ), (⟨⟨0, 0⟩, 1, 0, 180, true⟩ : Arc).path 3 = .ok L ∧
    Within (1 * (1 - cos (d / (2 * (((3 : ℤ) : ℝ) - 1))))) (polyline L) {P | OnArc ⟨0, 0⟩ 1 θ (θ + d) P} := by
  obtain ⟨L, θ, d, hL, -, -, -, -, -, -, h⟩ := C128_arc_polyline ⟨⟨0, 0⟩, 1, 0, 180, true⟩ (by norm_num) 3 (by norm_num)
  exact ⟨L, θ, d, hL, h⟩
