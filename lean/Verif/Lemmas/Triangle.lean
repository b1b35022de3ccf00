import Verif.Lemmas.Basic

/-!
# Spec-level facts on triangles
-/

open Spec

theorem dist_pos_of_ne {P Q : Pt} (h : P ≠ Q) : 0 < Spec.dist P Q := Real.sqrt_pos.2 (sqDist_pos h)

theorem collinear_symm1 {A B C : Pt} : Collinear A B C ↔ Collinear B C A := by
  unfold Collinear cross; simp only [Pt.sub_x, Pt.sub_y]; constructor <;> intro h <;> linarith

/-- A tangent line is at distance `r` of the center. -/
theorem tangentLine_iff {O A B : Pt} {r : ℝ} (h : A ≠ B) :
    TangentLine O r A B ↔ cross (B - A) (O - A) ^ 2 = r ^ 2 * sqDist A B := by
  have hp := sqDist_pos h
  obtain ⟨n, hn⟩ : ∃ n, n = sqDist A B := ⟨_, rfl⟩
  rw [← hn] at hp ⊢
  have hn' : n = (B.x - A.x) ^ 2 + (B.y - A.y) ^ 2 := by rw [hn]; unfold sqDist; ring
  obtain ⟨K, hK⟩ : ∃ K, K = cross (B - A) (O - A) := ⟨_, rfl⟩
  obtain ⟨D, hD⟩ : ∃ D, D = dot (B - A) (O - A) := ⟨_, rfl⟩
  rw [← hK]
  have hsum : n * sqDist A O = D ^ 2 + K ^ 2 := by
    rw [hn', hK, hD]; simp only [sqDist, cross, dot, Pt.sub_x, Pt.sub_y]; ring
  -- distance of the point of parameter `t`
  have hpt : ∀ t : ℝ, n * sqDist (A + t • (B - A)) O = (n * t - D) ^ 2 + K ^ 2 := by
    intro t
    rw [hn', hK, hD]; simp only [sqDist, cross, dot, Pt.sub_x, Pt.sub_y, Pt.add_x, Pt.add_y, Pt.smul_x, Pt.smul_y]; ring
  constructor
  · rintro ⟨T, ⟨t, rfl⟩, h2, h3⟩
    have e1 := hpt t
    have e2 := hpt (2 * D / n - t)
    have : n * (2 * D / n - t) - D = -(n * t - D) := by field_simp; ring
    rw [this, neg_sq, ← e1] at e2
    have e3 : OnCircle O r (A + (2 * D / n - t) • (B - A)) := by
      unfold OnCircle at *
      rw [← h2]
      exact mul_left_cancel₀ hp.ne' e2
    have e4 := h3 _ ⟨_, rfl⟩ e3
    have hx := congrArg Pt.x e4
    have hy := congrArg Pt.y e4
    simp only [Pt.add_x, Pt.add_y, Pt.smul_x, Pt.smul_y, Pt.sub_x, Pt.sub_y] at hx hy
    have e5 : (2 * D / n - t - t) * ((B.x - A.x) ^ 2 + (B.y - A.y) ^ 2) = 0 := by
      linear_combination (B.x - A.x) * hx + (B.y - A.y) * hy
    rw [← hn'] at e5
    have e6 : n * t - D = 0 := by
      have : (2 * D / n - t - t) * n = 2 * (D - n * t) := by field_simp; ring
      linarith
    unfold OnCircle at h2
    rw [h2, e6] at e1
    linarith
  · intro h1
    have e1 := hpt (D / n)
    have : n * (D / n) - D = 0 := by field_simp; ring
    rw [this, h1] at e1
    refine ⟨A + (D / n) • (B - A), ⟨_, rfl⟩, ?_, ?_⟩
    · unfold OnCircle
      have : n * (sqDist (A + (D / n) • (B - A)) O - r ^ 2) = 0 := by linear_combination e1
      linarith [(mul_eq_zero.1 this).resolve_left hp.ne']
    · rintro X ⟨t, rfl⟩ h2
      have e2 := hpt t
      unfold OnCircle at h2
      rw [h2, h1] at e2
      have : (n * t - D) ^ 2 = 0 := by linarith
      have : n * t - D = 0 := by simpa using this
      have : t = D / n := by field_simp; linarith
      rw [this]

/-- The data of a non-flat triangle: tangent lengths, Heron's formula, scalar product at `A`. -/
theorem ravi {A B C : Pt} (h : ¬ Collinear A B C) :
    ∃ x y z : ℝ, 0 < x ∧ 0 < y ∧ 0 < z ∧
      Spec.dist B C = y + z ∧ Spec.dist A C = z + x ∧ Spec.dist A B = x + y ∧
      cross (B - A) (C - A) ^ 2 = 4 * (x * y * z * (x + y + z)) := by
  have hAB : A ≠ B := by rintro rfl; apply h; simp [Collinear, cross]
  have hAC : A ≠ C := by rintro rfl; apply h; simp [Collinear, cross]
  have hBC : B ≠ C := by rintro rfl; apply h; simp [Collinear, cross]; ring
  have pa := dist_pos_of_ne hBC
  have pb := dist_pos_of_ne hAC
  have pc := dist_pos_of_ne hAB
  have a2 := dist_sq B C
  have b2 := dist_sq A C
  have c2 := dist_sq A B
  obtain ⟨a, ha⟩ : ∃ a, a = Spec.dist B C := ⟨_, rfl⟩
  obtain ⟨b, hb⟩ : ∃ b, b = Spec.dist A C := ⟨_, rfl⟩
  obtain ⟨c, hc⟩ : ∃ c, c = Spec.dist A B := ⟨_, rfl⟩
  rw [← ha] at pa a2; rw [← hb] at pb b2; rw [← hc] at pc c2
  rw [← ha, ← hb, ← hc]
  have hS : 0 < cross (B - A) (C - A) ^ 2 := by
    have : cross (B - A) (C - A) ≠ 0 := h
    positivity
  have heron : 4 * cross (B - A) (C - A) ^ 2 = (a + b + c) * (-a + b + c) * (a - b + c) * (a + b - c) := by
    have : (a + b + c) * (-a + b + c) * (a - b + c) * (a + b - c) =
      2 * a ^ 2 * b ^ 2 + 2 * b ^ 2 * c ^ 2 + 2 * c ^ 2 * a ^ 2 - (a ^ 2) ^ 2 - (b ^ 2) ^ 2 - (c ^ 2) ^ 2 := by ring
    rw [this, a2, b2, c2]
    simp only [sqDist, cross, Pt.sub_x, Pt.sub_y]; ring
  have hprod : 0 < (-a + b + c) * (a - b + c) * (a + b - c) := by
    have h1 : 0 < (a + b + c) * ((-a + b + c) * (a - b + c) * (a + b - c)) := by nlinarith
    exact pos_of_mul_pos_right h1 (by linarith) |> fun h => h
  have h3 : 0 < -a + b + c ∧ 0 < a - b + c ∧ 0 < a + b - c := by
    by_contra hc'
    have : -a + b + c ≤ 0 ∨ a - b + c ≤ 0 ∨ a + b - c ≤ 0 := by
      by_contra h'; push Not at h'; exact hc' h'
    rcases this with h' | h' | h'
    · have := mul_pos (show 0 < a - b + c by linarith) (show 0 < a + b - c by linarith)
      nlinarith
    · have := mul_pos (show 0 < -a + b + c by linarith) (show 0 < a + b - c by linarith)
      nlinarith
    · have := mul_pos (show 0 < -a + b + c by linarith) (show 0 < a - b + c by linarith)
      nlinarith
  refine ⟨(-a + b + c) / 2, (a - b + c) / 2, (a + b - c) / 2, by linarith [h3.1], by linarith [h3.2.1], by linarith [h3.2.2],
    by ring, by ring, by ring, ?_⟩
  linear_combination heron / 4

/-- Scalar product at the vertex `A` from the side lengths. -/
theorem dot_of_sides (A B C : Pt) :
    2 * dot (B - A) (C - A) = Spec.dist A C ^ 2 + Spec.dist A B ^ 2 - Spec.dist B C ^ 2 := by
  rw [dist_sq, dist_sq, dist_sq]; simp only [dot, sqDist, Pt.sub_x, Pt.sub_y]; ring

/-! ### Barycentric coordinates -/

theorem bary_cross_BC {A B C M : Pt} {u v w n : ℝ} (hn : n ≠ 0) (h : u + v + w = n)
    (hM : M = (u • A + v • B + w • C) / n) : cross (C - B) (M - B) = u / n * cross (B - A) (C - A) := by
  subst hM
  simp only [cross, Pt.sub_x, Pt.sub_y, Pt.div_x, Pt.div_y, Pt.add_x, Pt.add_y, Pt.smul_x, Pt.smul_y]
  field_simp; rw [← h]; ring

theorem bary_cross_CA {A B C M : Pt} {u v w n : ℝ} (hn : n ≠ 0) (h : u + v + w = n)
    (hM : M = (u • A + v • B + w • C) / n) : cross (A - C) (M - C) = v / n * cross (B - A) (C - A) := by
  subst hM
  simp only [cross, Pt.sub_x, Pt.sub_y, Pt.div_x, Pt.div_y, Pt.add_x, Pt.add_y, Pt.smul_x, Pt.smul_y]
  field_simp; rw [← h]; ring

theorem bary_cross_AB {A B C M : Pt} {u v w n : ℝ} (hn : n ≠ 0) (h : u + v + w = n)
    (hM : M = (u • A + v • B + w • C) / n) : cross (B - A) (M - A) = w / n * cross (B - A) (C - A) := by
  subst hM
  simp only [cross, Pt.sub_x, Pt.sub_y, Pt.div_x, Pt.div_y, Pt.add_x, Pt.add_y, Pt.smul_x, Pt.smul_y]
  field_simp; rw [← h]; ring

theorem ne_of_not_collinear {A B C : Pt} (h : ¬ Collinear A B C) : A ≠ B ∧ A ≠ C ∧ B ≠ C := by
  refine ⟨?_, ?_, ?_⟩
  · rintro rfl; apply h; simp [Collinear, cross]
  · rintro rfl; apply h; simp [Collinear, cross]
  · rintro rfl; apply h; simp [Collinear, cross]; ring

/-- A circle centered at a point with barycentric coordinates `(u, v, w)` is tangent to the three side lines when
`|u|/a = |v|/b = |w|/c`, with the right radius. -/
theorem tangent_sides {A B C M : Pt} {u v w n r : ℝ} (hnc : ¬ Collinear A B C) (hn : n ≠ 0) (h : u + v + w = n)
    (hM : M = (u • A + v • B + w • C) / n)
    (hu : u ^ 2 * cross (B - A) (C - A) ^ 2 = r ^ 2 * n ^ 2 * Spec.dist B C ^ 2)
    (hv : v ^ 2 * cross (B - A) (C - A) ^ 2 = r ^ 2 * n ^ 2 * Spec.dist A C ^ 2)
    (hw : w ^ 2 * cross (B - A) (C - A) ^ 2 = r ^ 2 * n ^ 2 * Spec.dist A B ^ 2) :
    TangentLine M r B C ∧ TangentLine M r C A ∧ TangentLine M r A B := by
  obtain ⟨h1, h2, h3⟩ := ne_of_not_collinear hnc
  rw [tangentLine_iff h3, tangentLine_iff h2.symm, tangentLine_iff h1, bary_cross_BC hn h hM, bary_cross_CA hn h hM,
    bary_cross_AB hn h hM, ← dist_sq, ← dist_sq, ← dist_sq, dist_comm C A]
  refine ⟨?_, ?_, ?_⟩ <;> field_simp <;> linarith
