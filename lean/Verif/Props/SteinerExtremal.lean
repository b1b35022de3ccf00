import Verif.Props.Minimal
import Verif.Props.SteinerEllipse
import Verif.Props.Random

/-!
# C81: the Steiner ellipse is the smallest ellipse around the triangle, the inellipse is the largest one inside
-/

open Spec Real Classical

namespace MinEll

theorem amgm3 {x y z : ℝ} (hx : 0 ≤ x) (hy : 0 ≤ y) (hz : 0 ≤ z) :
    27 * (x * y * z) ≤ (x + y + z) ^ 3 ∧ (27 * (x * y * z) = (x + y + z) ^ 3 → x = y ∧ y = z) := by
  have key : (x + y + z) ^ 3 - 27 * (x * y * z) = x * ((y - z) ^ 2 * 4) + y * ((z - x) ^ 2 * 4) + z * ((x - y) ^ 2 * 4)
      + (x + y + z) / 2 * ((x - y) ^ 2 + (y - z) ^ 2 + (z - x) ^ 2) - (x * (y - z) ^ 2 + y * (z - x) ^ 2 + z * (x - y) ^ 2) := by ring
  have e1 := mul_nonneg hx (sq_nonneg (y - z))
  have e2 := mul_nonneg hy (sq_nonneg (z - x))
  have e3 := mul_nonneg hz (sq_nonneg (x - y))
  have e4 : 0 ≤ (x + y + z) / 2 * ((x - y) ^ 2 + (y - z) ^ 2 + (z - x) ^ 2) := by positivity
  constructor
  · nlinarith
  · intro heq
    have h0 : (x + y + z) / 2 * ((x - y) ^ 2 + (y - z) ^ 2 + (z - x) ^ 2) = 0 := by nlinarith
    rcases mul_eq_zero.1 h0 with h | h
    · have : x = 0 := by linarith
      have : y = 0 := by linarith
      have : z = 0 := by linarith
      constructor <;> linarith
    · have h1 : (x - y) ^ 2 = 0 := by nlinarith [sq_nonneg (x - y), sq_nonneg (y - z), sq_nonneg (z - x)]
      have h2 : (y - z) ^ 2 = 0 := by nlinarith [sq_nonneg (x - y), sq_nonneg (y - z), sq_nonneg (z - x)]
      exact ⟨by have := pow_eq_zero_iff two_ne_zero |>.1 h1; linarith, by have := pow_eq_zero_iff two_ne_zero |>.1 h2; linarith⟩

/-- Side lengths: if a triangle contains the unit disk. -/
theorem side_bound (A B : Pt) (σ : ℝ) (h : ∀ X : Pt, X.x ^ 2 + X.y ^ 2 ≤ 1 → 0 ≤ σ * cross (B - A) (X - A)) (hσ : σ = 1 ∨ σ = -1) :
    Spec.dist A B ≤ σ * cross A B := by
  have hs2 : σ ^ 2 = 1 := by rcases hσ with rfl | rfl <;> norm_num
  obtain ⟨d, hd⟩ : ∃ d, d = Spec.dist A B := ⟨_, rfl⟩
  have hd0 : 0 ≤ d := by rw [hd]; exact Real.sqrt_nonneg _
  have hd2 : d ^ 2 = (B.x - A.x) ^ 2 + (B.y - A.y) ^ 2 := by rw [hd, dist_sq]; unfold sqDist; ring
  rw [← hd]
  rcases eq_or_lt_of_le hd0 with h0 | hpos
  · rw [← h0]
    have := h ⟨0, 0⟩ (by norm_num)
    unfold cross at this ⊢
    simp at this
    linarith
  · have := h ⟨σ * (B.y - A.y) / d, -σ * (B.x - A.x) / d⟩ (by
      dsimp only
      rw [div_pow, div_pow, ← add_div, div_le_one (by positivity), hd2]
      nlinarith)
    unfold cross at this ⊢
    simp at this
    have e : σ * ((B.x - A.x) * (-(σ * (B.x - A.x)) / d - A.y) - (B.y - A.y) * (σ * (B.y - A.y) / d - A.x)) =
        σ * (A.x * B.y - A.y * B.x) - d := by
      field_simp
      linear_combination (-d ^ 2) * hs2 + σ ^ 2 * hd2
    rw [e] at this
    linarith

/-- Triangle inequalities from Heron's formula. -/
theorem heron_tri {a b c K : ℝ} (a0 : 0 ≤ a) (b0 : 0 ≤ b) (c0 : 0 ≤ c) (hK : 0 < K)
    (heron : 4 * K ^ 2 = (a + b + c) * ((b + c - a) * (c + a - b) * (a + b - c))) :
    0 < a + b + c ∧ 0 ≤ b + c - a ∧ 0 ≤ c + a - b ∧ 0 ≤ a + b - c := by
  have hK2 : 0 < 4 * K ^ 2 := by positivity
  rw [heron] at hK2
  have hp0 : 0 ≤ a + b + c := by positivity
  have hpos : 0 < a + b + c := by
    rcases eq_or_lt_of_le hp0 with h | h
    · rw [← h, zero_mul] at hK2; exact absurd hK2 (lt_irrefl _)
    · exact h
  have hprod := (pos_iff_pos_of_mul_pos hK2).1 hpos
  refine ⟨hpos, ?_, ?_, ?_⟩
  · by_contra hn
    push Not at hn
    have h1 : 0 < a + b - c := by linarith
    have h2 : 0 < c + a - b := by linarith
    exact absurd (mul_neg_of_neg_of_pos (mul_neg_of_neg_of_pos hn h2) h1) (not_lt.2 hprod.le)
  · by_contra hn
    push Not at hn
    have h1 : 0 < a + b - c := by linarith
    have h2 : 0 < b + c - a := by linarith
    exact absurd (mul_neg_of_neg_of_pos (mul_neg_of_pos_of_neg h2 hn) h1) (not_lt.2 hprod.le)
  · by_contra hn
    push Not at hn
    have h1 : 0 < c + a - b := by linarith
    have h2 : 0 < b + c - a := by linarith
    exact absurd (mul_neg_of_pos_of_neg (mul_pos h2 h1) hn) (not_lt.2 hprod.le)

set_option maxHeartbeats 1000000 in
/-- A triangle that contains the unit disk is at least as large as the equilateral one. -/
theorem triangle_disk (A B C : Pt) (h0 : cross (B - A) (C - A) ≠ 0)
    (h : ∀ X : Pt, X.x ^ 2 + X.y ^ 2 ≤ 1 → InClosedTriangle A B C X) :
    108 ≤ cross (B - A) (C - A) ^ 2 ∧ (cross (B - A) (C - A) ^ 2 = 108 →
      A.x + B.x + C.x = 0 ∧ A.y + B.y + C.y = 0 ∧ A.x ^ 2 + A.y ^ 2 = 4 ∧ B.x ^ 2 + B.y ^ 2 = 4 ∧ C.x ^ 2 + C.y ^ 2 = 4) := by
  obtain ⟨σ, hσ, hK⟩ : ∃ σ : ℝ, (σ = 1 ∨ σ = -1) ∧ 0 < σ * cross (B - A) (C - A) := by
    rcases lt_or_gt_of_ne h0 with hn | hp
    · exact ⟨-1, Or.inr rfl, by linarith⟩
    · exact ⟨1, Or.inl rfl, by linarith⟩
  obtain ⟨K, hKe⟩ : ∃ K, K = σ * cross (B - A) (C - A) := ⟨_, rfl⟩
  have hK2 : cross (B - A) (C - A) ^ 2 = K ^ 2 := by
    rw [hKe, mul_pow]; rcases hσ with rfl | rfl <;> ring
  rw [← hKe] at hK
  have hsum : σ * cross A B + σ * cross B C + σ * cross C A = K := by rw [hKe]; unfold cross; simp; ring
  have bary : ∀ X : Pt, X.x ^ 2 + X.y ^ 2 ≤ 1 → 0 ≤ σ * cross (B - A) (X - A) ∧ 0 ≤ σ * cross (C - B) (X - B) ∧
      0 ≤ σ * cross (A - C) (X - C) := by
    intro X hX
    obtain ⟨u, v, w, hu, hv, hw, huvw, rfl⟩ := h X hX
    have e1 : σ * cross (B - A) (u • A + v • B + w • C - A) = w * K := by
      rw [hKe, show u = 1 - v - w by linarith]; unfold cross; simp; ring
    have e2 : σ * cross (C - B) (u • A + v • B + w • C - B) = u * K := by
      rw [hKe, show v = 1 - u - w by linarith]; unfold cross; simp; ring
    have e3 : σ * cross (A - C) (u • A + v • B + w • C - C) = v * K := by
      rw [hKe, show w = 1 - u - v by linarith]; unfold cross; simp; ring
    rw [e1, e2, e3]
    exact ⟨by positivity, by positivity, by positivity⟩
  have b1 := side_bound A B σ (fun X hX => (bary X hX).1) hσ
  have b2 := side_bound B C σ (fun X hX => (bary X hX).2.1) hσ
  have b3 := side_bound C A σ (fun X hX => (bary X hX).2.2) hσ
  obtain ⟨c, hc⟩ : ∃ c, c = Spec.dist A B := ⟨_, rfl⟩
  obtain ⟨a, ha⟩ : ∃ a, a = Spec.dist B C := ⟨_, rfl⟩
  obtain ⟨b, hb⟩ : ∃ b, b = Spec.dist C A := ⟨_, rfl⟩
  rw [← hc] at b1
  rw [← ha] at b2
  rw [← hb] at b3
  have c0 : 0 ≤ c := by rw [hc]; exact Real.sqrt_nonneg _
  have a0 : 0 ≤ a := by rw [ha]; exact Real.sqrt_nonneg _
  have b0 : 0 ≤ b := by rw [hb]; exact Real.sqrt_nonneg _
  have c2 : c ^ 2 = (B.x - A.x) ^ 2 + (B.y - A.y) ^ 2 := by rw [hc, dist_sq]; unfold sqDist; ring
  have a2 : a ^ 2 = (C.x - B.x) ^ 2 + (C.y - B.y) ^ 2 := by rw [ha, dist_sq]; unfold sqDist; ring
  have b2' : b ^ 2 = (A.x - C.x) ^ 2 + (A.y - C.y) ^ 2 := by rw [hb, dist_sq]; unfold sqDist; ring
  have hpK : a + b + c ≤ K := by linarith
  -- Heron
  have hK2' : K ^ 2 = ((B.x - A.x) * (C.y - A.y) - (B.y - A.y) * (C.x - A.x)) ^ 2 := by
    rw [← hK2]; unfold cross; simp
  have heron : 4 * K ^ 2 = (a + b + c) * ((b + c - a) * (c + a - b) * (a + b - c)) := by
    have e : (a + b + c) * ((b + c - a) * (c + a - b) * (a + b - c)) = 4 * b ^ 2 * c ^ 2 - (b ^ 2 + c ^ 2 - a ^ 2) ^ 2 := by ring
    rw [e, a2, b2', c2, hK2']; ring
  obtain ⟨hpos, tri⟩ := heron_tri a0 b0 c0 hK heron
  obtain ⟨amgm, ameq⟩ := amgm3 tri.1 tri.2.1 tri.2.2
  have hx : (b + c - a) + (c + a - b) + (a + b - c) = a + b + c := by ring
  rw [hx] at amgm ameq
  have h108 : 108 * K ^ 2 ≤ (a + b + c) ^ 4 := by
    have := mul_le_mul_of_nonneg_left amgm hpos.le
    nlinarith
  have hp2 : (a + b + c) ^ 2 ≤ K ^ 2 := by nlinarith
  have hp4 : (a + b + c) ^ 4 ≤ K ^ 2 * K ^ 2 := by
    have := mul_le_mul hp2 hp2 (by positivity) (by positivity)
    nlinarith
  have hKsq : 0 < K ^ 2 := by positivity
  constructor
  · rw [hK2]
    by_contra hn
    push Not at hn
    nlinarith
  · rw [hK2]
    intro heq
    have hp4' : (a + b + c) ^ 4 = 108 * 108 := by
      apply le_antisymm
      · rw [heq] at hp4; linarith
      · rw [heq] at h108; linarith
    have hp2' : (a + b + c) ^ 2 = 108 := by
      have : ((a + b + c) ^ 2 - 108) * ((a + b + c) ^ 2 + 108) = 0 := by linear_combination hp4'
      rcases mul_eq_zero.1 this with h | h
      · linarith
      · exfalso; nlinarith [sq_nonneg (a + b + c)]
    have hpe : a + b + c = K := by
      have : (a + b + c - K) * (a + b + c + K) = 0 := by linear_combination hp2' - heq
      rcases mul_eq_zero.1 this with h | h
      · linarith
      · exfalso; linarith
    have hcube : 27 * ((b + c - a) * (c + a - b) * (a + b - c)) = (a + b + c) ^ 3 := by
      have : (a + b + c) * (27 * ((b + c - a) * (c + a - b) * (a + b - c))) = (a + b + c) * (a + b + c) ^ 3 := by
        linear_combination (-27) * heron + 108 * heq - hp4'
      exact mul_left_cancel₀ hpos.ne' this
    obtain ⟨q1, q2⟩ := ameq hcube
    have hab : a = b := by linarith
    have hbc : b = c := by linarith
    have f1 : σ * cross A B = c := by linarith
    have f2 : σ * cross B C = a := by linarith
    have f3 : σ * cross C A = b := by linarith
    have hσ0 : σ ≠ 0 := by rcases hσ with rfl | rfl <;> norm_num
    have g1 : cross A B = cross B C := mul_left_cancel₀ hσ0 (by linarith)
    have g2 : cross B C = cross C A := mul_left_cancel₀ hσ0 (by linarith)
    have hcne : cross A B ≠ 0 := by
      intro h; rw [h, mul_zero] at f1
      have : a + b + c = 0 := by linarith
      linarith
    unfold cross at g1 g2 hcne
    have sx : A.x + B.x + C.x = 0 := by
      have : (A.x * B.y - A.y * B.x) * (A.x + B.x + C.x) = 0 := by
        linear_combination A.x * g1 + B.x * (g1 + g2)
      exact (mul_eq_zero.1 this).resolve_left hcne
    have sy : A.y + B.y + C.y = 0 := by
      have : (A.x * B.y - A.y * B.x) * (A.y + B.y + C.y) = 0 := by
        linear_combination A.y * g1 + B.y * (g1 + g2)
      exact (mul_eq_zero.1 this).resolve_left hcne
    have hc12 : c ^ 2 = 12 := by
      have : (3 * c) ^ 2 = 108 := by rw [← hp2']; congr 1; linarith
      linarith
    have ha12 : a ^ 2 = 12 := by rw [hab, hbc]; exact hc12
    have hb12 : b ^ 2 = 12 := by rw [hbc]; exact hc12
    rw [c2] at hc12
    rw [a2] at ha12
    rw [b2'] at hb12
    have hCx : C.x = -A.x - B.x := by linarith
    have hCy : C.y = -A.y - B.y := by linarith
    rw [hCx, hCy] at ha12 hb12
    refine ⟨sx, sy, ?_, ?_, ?_⟩
    · linear_combination 2 / 9 * hc12 - 1 / 9 * ha12 + 2 / 9 * hb12
    · linear_combination 2 / 9 * hc12 + 2 / 9 * ha12 - 1 / 9 * hb12
    · rw [hCx, hCy]; linear_combination -1 / 9 * hc12 + 2 / 9 * ha12 + 2 / 9 * hb12

/-- Inverse of `nrm`. -/
noncomputable def unn (O : Pt) (a b α : ℝ) (Y : Pt) : Pt :=
  ⟨O.x + a * Y.x * cos α - b * Y.y * sin α, O.y + a * Y.x * sin α + b * Y.y * cos α⟩

theorem nrm_unn (O : Pt) (a b α : ℝ) (ha : 0 < a) (hb : 0 < b) (Y : Pt) : nrm O a b α (unn O a b α Y) = Y := by
  have h : cos α ^ 2 + sin α ^ 2 = 1 := by rw [add_comm]; exact sin_sq_add_cos_sq α
  unfold nrm unn axisCoord
  ext
  · dsimp only; field_simp; linear_combination Y.x * a * h
  · dsimp only; field_simp; linear_combination Y.y * b * h

theorem unn_nrm (O : Pt) (a b α : ℝ) (ha : 0 < a) (hb : 0 < b) (X : Pt) : unn O a b α (nrm O a b α X) = X := by
  have h : cos α ^ 2 + sin α ^ 2 = 1 := by rw [add_comm]; exact sin_sq_add_cos_sq α
  unfold nrm unn axisCoord
  ext
  · dsimp only; field_simp; linear_combination (X.x - O.x) * h
  · dsimp only; field_simp; linear_combination (X.y - O.y) * h

theorem nrm_bary (O : Pt) (a b α : ℝ) (A B C : Pt) (u v w : ℝ) (h : u + v + w = 1) :
    nrm O a b α (u • A + v • B + w • C) = u • nrm O a b α A + v • nrm O a b α B + w • nrm O a b α C := by
  have hu : u = 1 - v - w := by linarith
  unfold nrm axisCoord
  ext
  · simp; rw [hu]; ring
  · simp; rw [hu]; ring

/-- Three unit vectors with zero sum are a tight frame. -/
theorem frame (p q s : Pt) (hp : p.x ^ 2 + p.y ^ 2 = 1) (hq : q.x ^ 2 + q.y ^ 2 = 1) (hs : s.x ^ 2 + s.y ^ 2 = 1)
    (hx : p.x + q.x + s.x = 0) (hy : p.y + q.y + s.y = 0) (Y : Pt) :
    (Y.x * p.x + Y.y * p.y) * p.x + (Y.x * q.x + Y.y * q.y) * q.x + (Y.x * s.x + Y.y * s.y) * s.x = 3 / 2 * Y.x ∧
    (Y.x * p.x + Y.y * p.y) * p.y + (Y.x * q.x + Y.y * q.y) * q.y + (Y.x * s.x + Y.y * s.y) * s.y = 3 / 2 * Y.y := by
  obtain ⟨hd, -⟩ := unit_triangle p q s hp hq hs hx hy
  obtain ⟨k, hk⟩ : ∃ k, k = p.x * q.y - p.y * q.x := ⟨_, rfl⟩
  have hk2 : k ^ 2 = 3 / 4 := by
    have : k ^ 2 = (p.x ^ 2 + p.y ^ 2) * (q.x ^ 2 + q.y ^ 2) - (p.x * q.x + p.y * q.y) ^ 2 := by rw [hk]; ring
    rw [this, hp, hq, hd]; norm_num
  have qx : q.x = -p.x / 2 - k * p.y := by rw [hk]; linear_combination (-q.x) * hp + p.x * hd
  have qy : q.y = -p.y / 2 + k * p.x := by rw [hk]; linear_combination (-q.y) * hp + p.y * hd
  have sx : s.x = -p.x / 2 + k * p.y := by linarith
  have sy : s.y = -p.y / 2 - k * p.x := by linarith
  rw [qx, qy, sx, sy]
  constructor
  · linear_combination (3 / 2 * Y.x) * hp + (2 * Y.x * p.y ^ 2 - 2 * Y.y * p.x * p.y) * hk2
  · linear_combination (3 / 2 * Y.y) * hp + (2 * Y.y * p.x ^ 2 - 2 * Y.x * p.x * p.y) * hk2

/-- An ellipse through the midpoints of the sides, centered at the centroid, is the largest one in the triangle. -/
theorem maximal_of_midpoints (e : Ellipse) (he : e.Valid) (A B C : Pt) (h0 : ¬ Collinear A B C)
    (hc : e.center = centroid A B C) (hP : OnE e (midPt B C)) (hQ : OnE e (midPt C A)) (hR : OnE e (midPt A B)) :
    (∀ X, InEllipse e.center e.rmajor e.rminor e.rad X → InClosedTriangle A B C X) ∧
    ∀ (O : Pt) (a b α : ℝ), 0 < a → 0 < b → (∀ X, InEllipse O a b α X → InClosedTriangle A B C X) →
      ellipseArea a b ≤ ellipseArea e.rmajor e.rminor ∧
      (ellipseArea e.rmajor e.rminor ≤ ellipseArea a b → SameRegion O a b α e.center e.rmajor e.rminor e.rad) := by
  have nP := onE_nrm e he _ hP
  have nQ := onE_nrm e he _ hQ
  have nR := onE_nrm e he _ hR
  have hcm : e.center = (midPt B C + midPt C A + midPt A B) / (3 : ℝ) := by
    rw [hc]; unfold centroid midPt; ext <;> simp <;> ring
  have hcr : cross (midPt C A - midPt B C) (midPt A B - midPt B C) = cross (B - A) (C - A) / 4 := by
    unfold cross midPt; simp; ring
  have hcol : ¬ Collinear (midPt B C) (midPt C A) (midPt A B) := by
    unfold Spec.Collinear at h0 ⊢
    rw [hcr]
    exact div_ne_zero h0 (by norm_num)
  obtain ⟨hx, hy⟩ := nrm_center e.center e.rmajor e.rminor e.rad _ _ _ hcm
  have h27 := (unit_triangle _ _ _ nP nQ nR hx hy).2
  have hcn := cross_nrm e.center e.rmajor e.rminor e.rad he.1 he.2 (midPt B C) (midPt C A) (midPt A B)
  have hA : cross (B - A) (C - A) ^ 2 = 108 * (e.rmajor * e.rminor) ^ 2 := by
    have : cross (B - A) (C - A) = 4 * cross (midPt C A - midPt B C) (midPt A B - midPt B C) := by rw [hcr]; ring
    rw [this, hcn, mul_pow, mul_pow]
    linear_combination 4 * (e.rmajor * e.rminor) ^ 2 * h27
  -- vertices and midpoints in the normalised coordinates
  have vA : ∀ (O : Pt) (a b α : ℝ), (nrm O a b α A).x = (nrm O a b α (midPt C A)).x + (nrm O a b α (midPt A B)).x - (nrm O a b α (midPt B C)).x ∧
      (nrm O a b α A).y = (nrm O a b α (midPt C A)).y + (nrm O a b α (midPt A B)).y - (nrm O a b α (midPt B C)).y := by
    intro O a b α; unfold nrm axisCoord midPt; simp; constructor <;> ring
  have vB : ∀ (O : Pt) (a b α : ℝ), (nrm O a b α B).x = (nrm O a b α (midPt A B)).x + (nrm O a b α (midPt B C)).x - (nrm O a b α (midPt C A)).x ∧
      (nrm O a b α B).y = (nrm O a b α (midPt A B)).y + (nrm O a b α (midPt B C)).y - (nrm O a b α (midPt C A)).y := by
    intro O a b α; unfold nrm axisCoord midPt; simp; constructor <;> ring
  have vC : ∀ (O : Pt) (a b α : ℝ), (nrm O a b α C).x = (nrm O a b α (midPt B C)).x + (nrm O a b α (midPt C A)).x - (nrm O a b α (midPt A B)).x ∧
      (nrm O a b α C).y = (nrm O a b α (midPt B C)).y + (nrm O a b α (midPt C A)).y - (nrm O a b α (midPt A B)).y := by
    intro O a b α; unfold nrm axisCoord midPt; simp; constructor <;> ring
  constructor
  · intro X hX
    obtain ⟨p, hp⟩ : ∃ p, p = nrm e.center e.rmajor e.rminor e.rad (midPt B C) := ⟨_, rfl⟩
    obtain ⟨q, hq⟩ : ∃ q, q = nrm e.center e.rmajor e.rminor e.rad (midPt C A) := ⟨_, rfl⟩
    obtain ⟨s, hs⟩ : ∃ s, s = nrm e.center e.rmajor e.rminor e.rad (midPt A B) := ⟨_, rfl⟩
    obtain ⟨Y, hY⟩ : ∃ Y, Y = nrm e.center e.rmajor e.rminor e.rad X := ⟨_, rfl⟩
    have hY1 : Y.x ^ 2 + Y.y ^ 2 ≤ 1 := by rw [hY]; exact hX
    obtain ⟨ax, ay⟩ := vA e.center e.rmajor e.rminor e.rad
    obtain ⟨bx, bby⟩ := vB e.center e.rmajor e.rminor e.rad
    obtain ⟨cx, cy⟩ := vC e.center e.rmajor e.rminor e.rad
    rw [← hp, ← hq, ← hs] at ax ay bx bby cx cy
    rw [← hp] at nP
    rw [← hq] at nQ
    rw [← hs] at nR
    rw [← hp, ← hq, ← hs] at hx hy
    obtain ⟨fx, fy⟩ := frame p q s nP nQ nR hx hy Y
    have bnd : ∀ v : Pt, v.x ^ 2 + v.y ^ 2 = 1 → Y.x * v.x + Y.y * v.y ≤ 1 := by
      intro v hv
      nlinarith [sq_nonneg (Y.x - v.x), sq_nonneg (Y.y - v.y)]
    have hsum : (1 - (Y.x * p.x + Y.y * p.y)) / 3 + (1 - (Y.x * q.x + Y.y * q.y)) / 3 + (1 - (Y.x * s.x + Y.y * s.y)) / 3 = 1 := by
      linear_combination (-Y.x / 3) * hx - (Y.y / 3) * hy
    refine ⟨(1 - (Y.x * p.x + Y.y * p.y)) / 3, (1 - (Y.x * q.x + Y.y * q.y)) / 3, (1 - (Y.x * s.x + Y.y * s.y)) / 3,
      by linarith [bnd p nP], by linarith [bnd q nQ], by linarith [bnd s nR], hsum, ?_⟩
    rw [← unn_nrm e.center e.rmajor e.rminor e.rad he.1 he.2 X,
      ← unn_nrm e.center e.rmajor e.rminor e.rad he.1 he.2 (_ • A + _ • B + _ • C), nrm_bary _ _ _ _ _ _ _ _ _ _ hsum, ← hY]
    congr 1
    ext
    · simp only [Pt.add_x, Pt.smul_x]
      rw [ax, bx, cx]
      have e1 : q.x + s.x - p.x = -2 * p.x := by linarith
      have e2 : s.x + p.x - q.x = -2 * q.x := by linarith
      have e3 : p.x + q.x - s.x = -2 * s.x := by linarith
      rw [e1, e2, e3]
      linear_combination (-2 / 3) * fx + 2 / 3 * hx
    · simp only [Pt.add_y, Pt.smul_y]
      rw [ay, bby, cy]
      have e1 : q.y + s.y - p.y = -2 * p.y := by linarith
      have e2 : s.y + p.y - q.y = -2 * q.y := by linarith
      have e3 : p.y + q.y - s.y = -2 * s.y := by linarith
      rw [e1, e2, e3]
      linear_combination (-2 / 3) * fy + 2 / 3 * hy
  · intro O a b α ha hb hin
    have hcn' := cross_nrm O a b α ha hb A B C
    have hne : cross (nrm O a b α B - nrm O a b α A) (nrm O a b α C - nrm O a b α A) ≠ 0 := by
      intro h; rw [h, mul_zero] at hcn'; exact h0 hcn'
    have htri : ∀ Y : Pt, Y.x ^ 2 + Y.y ^ 2 ≤ 1 → InClosedTriangle (nrm O a b α A) (nrm O a b α B) (nrm O a b α C) Y := by
      intro Y hY
      obtain ⟨u, v, w, hu, hv, hw, huvw, hX⟩ := hin (unn O a b α Y) (by
        rw [inEllipse_nrm, nrm_unn O a b α ha hb]; exact hY)
      refine ⟨u, v, w, hu, hv, hw, huvw, ?_⟩
      rw [← nrm_bary O a b α A B C u v w huvw, ← hX, nrm_unn O a b α ha hb]
    obtain ⟨t1, t2⟩ := triangle_disk _ _ _ hne htri
    have hpos : 0 < e.rmajor * e.rminor := mul_pos he.1 he.2
    have hpos' : 0 < a * b := mul_pos ha hb
    rw [hcn', mul_pow] at hA
    have hle : a * b ≤ e.rmajor * e.rminor := by
      have h1 : 108 * (a * b) ^ 2 ≤ 108 * (e.rmajor * e.rminor) ^ 2 := by
        rw [← hA]; nlinarith [sq_nonneg (a * b)]
      nlinarith
    constructor
    · unfold ellipseArea
      rw [mul_assoc, mul_assoc]
      exact mul_le_mul_of_nonneg_left hle Real.pi_pos.le
    · intro hge
      unfold ellipseArea at hge
      rw [mul_assoc, mul_assoc] at hge
      have heq : a * b = e.rmajor * e.rminor := le_antisymm hle (le_of_mul_le_mul_left hge Real.pi_pos)
      rw [← heq] at hA
      have h108 : cross (nrm O a b α B - nrm O a b α A) (nrm O a b α C - nrm O a b α A) ^ 2 = 108 := by
        have : (a * b) ^ 2 ≠ 0 := by positivity
        apply mul_left_cancel₀ this
        linear_combination hA
      obtain ⟨zx, zy, wA, wB, wC⟩ := t2 h108
      have mid : ∀ P Q : Pt, (nrm O a b α (midPt P Q)).x = ((nrm O a b α P).x + (nrm O a b α Q).x) / 2 ∧
          (nrm O a b α (midPt P Q)).y = ((nrm O a b α P).y + (nrm O a b α Q).y) / 2 := by
        intro P Q; unfold nrm axisCoord midPt; simp; constructor <;> ring
      obtain ⟨m1x, m1y⟩ := mid B C
      obtain ⟨m2x, m2y⟩ := mid C A
      obtain ⟨m3x, m3y⟩ := mid A B
      have hO := nrm_sum_zero O a b α ha hb (midPt B C) (midPt C A) (midPt A B)
        (by rw [m1x, m2x, m3x]; linear_combination zx) (by rw [m1y, m2y, m3y]; linear_combination zy)
      have u1 : (nrm O a b α (midPt B C)).x ^ 2 + (nrm O a b α (midPt B C)).y ^ 2 = 1 := by
        rw [m1x, m1y, show (nrm O a b α B).x + (nrm O a b α C).x = -(nrm O a b α A).x by linarith,
          show (nrm O a b α B).y + (nrm O a b α C).y = -(nrm O a b α A).y by linarith]
        linear_combination wA / 4
      have u2 : (nrm O a b α (midPt C A)).x ^ 2 + (nrm O a b α (midPt C A)).y ^ 2 = 1 := by
        rw [m2x, m2y, show (nrm O a b α C).x + (nrm O a b α A).x = -(nrm O a b α B).x by linarith,
          show (nrm O a b α C).y + (nrm O a b α A).y = -(nrm O a b α B).y by linarith]
        linear_combination wB / 4
      have u3 : (nrm O a b α (midPt A B)).x ^ 2 + (nrm O a b α (midPt A B)).y ^ 2 = 1 := by
        rw [m3x, m3y, show (nrm O a b α A).x + (nrm O a b α B).x = -(nrm O a b α C).x by linarith,
          show (nrm O a b α A).y + (nrm O a b α B).y = -(nrm O a b α C).y by linarith]
        linear_combination wC / 4
      intro X
      rw [region_of_centroid O a b α _ _ _ hcol hO u1 u2 u3, region_of_centroid e.center _ _ _ _ _ _ hcol hcm nP nQ nR]

end MinEll

/-- C81: `steiner_ellipse` is the ellipse of smallest area among those that contain the triangle, and the only one. -/
theorem C81_steiner_ellipse (T : Triangle) (h : GoodTriple T.A T.B T.C) :
    ∃ e : Ellipse, T.steiner_ellipse = .ok (some e) ∧ e.Valid ∧
      (∀ X, InClosedTriangle T.A T.B T.C X → InEllipse e.center e.rmajor e.rminor e.rad X) ∧
      ∀ (O : Pt) (a b α : ℝ), 0 < a → 0 < b → (∀ X, InClosedTriangle T.A T.B T.C X → InEllipse O a b α X) →
        ellipseArea e.rmajor e.rminor ≤ ellipseArea a b ∧
        (ellipseArea a b ≤ ellipseArea e.rmajor e.rminor → SameRegion O a b α e.center e.rmajor e.rminor e.rad) := by
  obtain ⟨e, he, hv, hc, h1, h2, h3⟩ := C44_steiner_ellipse_partial T h
  have hc' : e.center = (T.A + T.B + T.C) / (3 : ℝ) := by rw [hc]; unfold centroid; ext <;> simp
  refine ⟨e, he, hv, ?_, ?_⟩
  · rintro X ⟨u, v, w, hu, hv', hw, huvw, rfl⟩
    have n1 := MinEll.onE_nrm e hv _ h1
    have n2 := MinEll.onE_nrm e hv _ h2
    have n3 := MinEll.onE_nrm e hv _ h3
    rw [MinEll.inEllipse_nrm, MinEll.nrm_bary _ _ _ _ _ _ _ _ _ _ huvw]
    obtain ⟨p, hp⟩ : ∃ p, p = MinEll.nrm e.center e.rmajor e.rminor e.rad T.A := ⟨_, rfl⟩
    obtain ⟨q, hq⟩ : ∃ q, q = MinEll.nrm e.center e.rmajor e.rminor e.rad T.B := ⟨_, rfl⟩
    obtain ⟨s, hs⟩ : ∃ s, s = MinEll.nrm e.center e.rmajor e.rminor e.rad T.C := ⟨_, rfl⟩
    rw [← hp] at n1 ⊢
    rw [← hq] at n2 ⊢
    rw [← hs] at n3 ⊢
    have hsq : (1 : ℝ) = (u + v + w) ^ 2 := by rw [huvw]; norm_num
    have i1 : p.x * q.x + p.y * q.y ≤ 1 := by nlinarith [sq_nonneg (p.x - q.x), sq_nonneg (p.y - q.y)]
    have i2 : q.x * s.x + q.y * s.y ≤ 1 := by nlinarith [sq_nonneg (q.x - s.x), sq_nonneg (q.y - s.y)]
    have i3 : s.x * p.x + s.y * p.y ≤ 1 := by nlinarith [sq_nonneg (s.x - p.x), sq_nonneg (s.y - p.y)]
    have j1 := mul_le_mul_of_nonneg_left i1 (mul_nonneg hu hv')
    have j2 := mul_le_mul_of_nonneg_left i2 (mul_nonneg hv' hw)
    have j3 := mul_le_mul_of_nonneg_left i3 (mul_nonneg hw hu)
    have e1 : (u • p + v • q + w • s).x ^ 2 + (u • p + v • q + w • s).y ^ 2 =
        u ^ 2 * (p.x ^ 2 + p.y ^ 2) + v ^ 2 * (q.x ^ 2 + q.y ^ 2) + w ^ 2 * (s.x ^ 2 + s.y ^ 2) +
        2 * (u * v * (p.x * q.x + p.y * q.y) + v * w * (q.x * s.x + q.y * s.y) + w * u * (s.x * p.x + s.y * p.y)) := by
      simp; ring
    rw [e1, n1, n2, n3]
    nlinarith
  · intro O a b α ha hb hin
    exact MinEll.minimal_of_centroid e hv _ _ _ h.2.2.2 hc' h1 h2 h3 O a b α ha hb
      (hin _ ⟨1, 0, 0, by norm_num, by norm_num, by norm_num, by norm_num, by ext <;> simp⟩)
      (hin _ ⟨0, 1, 0, by norm_num, by norm_num, by norm_num, by norm_num, by ext <;> simp⟩)
      (hin _ ⟨0, 0, 1, by norm_num, by norm_num, by norm_num, by norm_num, by ext <;> simp⟩)

/-- The area of the Steiner ellipse of `(0, 0)`, `(4, 0)`, `(1, 3)` is at most that of the disc of center `(2, 1)` and radius `√5`. -/
example : ∃ e : Ellipse, (⟨⟨0, 0⟩, ⟨4, 0⟩, ⟨1, 3⟩⟩ : Triangle).steiner_ellipse = .ok (some e) ∧
    ellipseArea e.rmajor e.rminor ≤ ellipseArea (√5) (√5) := by
  obtain ⟨e, h, -, -, h2⟩ := C81_steiner_ellipse ⟨⟨0, 0⟩, ⟨4, 0⟩, ⟨1, 3⟩⟩ (by
    unfold GoodTriple allclose npClose Collinear
    norm_num [abs_of_pos, cross])
  refine ⟨e, h, (h2 ⟨2, 1⟩ (√5) (√5) 0 (by positivity) (by positivity) ?_).1⟩
  rintro X ⟨a, b, c, ha, hb, hc, hs, rfl⟩
  unfold InEllipse axisCoord
  have h5 : (√5 : ℝ) ^ 2 = 5 := Real.sq_sqrt (by norm_num)
  simp only [cos_zero, sin_zero, div_pow, h5, Pt.add_x, Pt.add_y, Pt.smul_x, Pt.smul_y]
  rw [show c = 1 - a - b by linarith] at hc ⊢
  rw [← add_div, div_le_one (by norm_num)]
  nlinarith [mul_nonneg ha hb, mul_nonneg ha hc, mul_nonneg hb hc]

/-- C81: `steiner_inellipse` is the ellipse of largest area among those contained in the triangle, and the only one. -/
theorem C81_steiner_inellipse (T : Triangle) (h : GoodTriple T.A T.B T.C) :
    ∃ e : Ellipse, T.steiner_inellipse = .ok (some e) ∧ e.Valid ∧
      (∀ X, InEllipse e.center e.rmajor e.rminor e.rad X → InClosedTriangle T.A T.B T.C X) ∧
      ∀ (O : Pt) (a b α : ℝ), 0 < a → 0 < b → (∀ X, InEllipse O a b α X → InClosedTriangle T.A T.B T.C X) →
        ellipseArea a b ≤ ellipseArea e.rmajor e.rminor ∧
        (ellipseArea e.rmajor e.rminor ≤ ellipseArea a b → SameRegion O a b α e.center e.rmajor e.rminor e.rad) := by
  obtain ⟨e, he, hv, hc, h1, h2, h3⟩ := C44_steiner_inellipse_partial T h
  have on : ∀ P Q : Pt, OnLine P Q (midPt P Q) := by
    intro P Q
    refine ⟨1 / 2, ?_⟩
    unfold midPt; ext <;> simp <;> ring
  obtain ⟨k1, k2⟩ := MinEll.maximal_of_midpoints e hv T.A T.B T.C h.2.2.2 hc ((h2 _ (on _ _)).2 rfl) ((h3 _ (on _ _)).2 rfl)
    ((h1 _ (on _ _)).2 rfl)
  exact ⟨e, he, hv, k1, k2⟩

/-- The hypothesis of C81 is satisfiable. -/
example : GoodTriple ⟨0, 0⟩ ⟨4, 0⟩ ⟨1, 3⟩ := by
  unfold GoodTriple allclose npClose Collinear cross; simp only [Pt.sub_x, Pt.sub_y]; norm_num [abs_le]
