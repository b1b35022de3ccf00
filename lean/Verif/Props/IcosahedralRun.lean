import Verif.Props.IcosahedralGasket
import Verif.Props.TriangularGasketRun

/-!
# C109: the faces for which the drawing finishes, and the icosahedron
-/

open Spec Real Classical TriGasket

namespace Icosahedral

variable {A B C u w : Pt} {σ γ β κ : ℝ}

/-- Two unit vectors perpendicular to a vector, on the same side. -/
theorem unit_perp {ex ey fx fy gx gy zx zy : ℝ} (ee : ex ^ 2 + ey ^ 2 = 1) (ff : fx ^ 2 + fy ^ 2 = 1) (gg : gx ^ 2 + gy ^ 2 = 1)
    (ef : ex * fx + ey * fy = 0) (eg : ex * gx + ey * gy = 0) (hf : 0 < zx * fx + zy * fy) (hg : 0 < zx * gx + zy * gy) : gx = fx ∧ gy = fy := by
  have r1 : fx = (fy * ex - fx * ey) * (-ey) := by linear_combination (-fx) * ee + ex * ef
  have r2 : fy = (fy * ex - fx * ey) * ex := by linear_combination (-fy) * ee + ey * ef
  have r3 : gx = (gy * ex - gx * ey) * (-ey) := by linear_combination (-gx) * ee + ex * eg
  have r4 : gy = (gy * ex - gx * ey) * ex := by linear_combination (-gy) * ee + ey * eg
  obtain ⟨s, hs⟩ : ∃ s, s = fy * ex - fx * ey := ⟨_, rfl⟩
  obtain ⟨t, ht⟩ : ∃ t, t = gy * ex - gx * ey := ⟨_, rfl⟩
  rw [← hs] at r1 r2
  rw [← ht] at r3 r4
  have s2 : s ^ 2 = 1 := by
    have : s ^ 2 * (ex ^ 2 + ey ^ 2) = 1 := by rw [← ff, r1, r2]; ring
    rwa [ee, mul_one] at this
  have t2 : t ^ 2 = 1 := by
    have : t ^ 2 * (ex ^ 2 + ey ^ 2) = 1 := by rw [← gg, r3, r4]; ring
    rwa [ee, mul_one] at this
  obtain ⟨Z, hZ⟩ : ∃ Z, Z = zy * ex - zx * ey := ⟨_, rfl⟩
  have m1 : 0 < s * Z := by rw [r1, r2] at hf; rw [hZ]; linarith
  have m2 : 0 < t * Z := by rw [r3, r4] at hg; rw [hZ]; linarith
  have st : s = t := by
    have : (s - t) * (s + t) = 0 := by linear_combination s2 - t2
    rcases mul_eq_zero.1 this with k | k
    · linarith
    · exfalso
      have : s = -t := by linarith
      rw [this] at m1
      linarith
  exact ⟨by rw [r1, r3, st], by rw [r2, r4, st]⟩

/-- Two circles in two corners of a triangle, in the coordinates of the side. -/
theorem side_eq {uA wA uB wB : Pt} {σA γA βA κA σB γB βB κB : ℝ} (hA : Corner A B C uA wA σA γA βA κA) (hB : Corner B A C uB wB σB γB βB κB) (lA lB : ℝ) :
    sqDist (A + lA • uA) (B + lB • uB) = (βA - lA * γA - lB * γB) ^ 2 + (σA * lA - σB * lB) ^ 2 := by
  have hβ : βB = βA := by
    apply (pow_left_inj₀ hB.hβ.le hA.hβ.le two_ne_zero).1
    rw [← hA.sqDist_B, ← hB.sqDist_B, sqDist_comm]
  subst hβ
  have b0 := hB.hβ
  have eB := hA.hB
  have eA := hB.hB
  have eC := hA.hC
  have eC' := hB.hC
  have a1 := hA.uu
  have a2 := hA.ww
  have a3 := hA.uw
  have a4 := hA.sq
  have b1 := hB.uu
  have b2 := hB.ww
  have b3 := hB.uw
  have b4 := hB.sq
  have sA := hA.hσ
  have gA := hA.hγ
  have sB := hB.hσ
  have gB := hB.hγ
  have kA := hA.hκ
  have kB := hB.hκ
  unfold dot at a1 a2 a3 b1 b2 b3
  rw [Pt.ext_iff] at eB eA eC eC'
  simp only [Pt.add_x, Pt.add_y, Pt.smul_x, Pt.smul_y, Pt.sub_x, Pt.sub_y] at eB eA eC eC'
  obtain ⟨eBx, eBy⟩ := eB
  obtain ⟨eAx, eAy⟩ := eA
  obtain ⟨eCx, eCy⟩ := eC
  obtain ⟨eCx', eCy'⟩ := eC'
  -- the direction of the side and the two perpendicular vectors
  obtain ⟨ex, hex⟩ : ∃ ex, ex = γA * uA.x - σA * wA.x := ⟨_, rfl⟩
  obtain ⟨ey, hey⟩ : ∃ ey, ey = γA * uA.y - σA * wA.y := ⟨_, rfl⟩
  obtain ⟨fx, hfx⟩ : ∃ fx, fx = σA * uA.x + γA * wA.x := ⟨_, rfl⟩
  obtain ⟨fy, hfy⟩ : ∃ fy, fy = σA * uA.y + γA * wA.y := ⟨_, rfl⟩
  obtain ⟨gx, hgx⟩ : ∃ gx, gx = σB * uB.x + γB * wB.x := ⟨_, rfl⟩
  obtain ⟨gy, hgy⟩ : ∃ gy, gy = σB * uB.y + γB * wB.y := ⟨_, rfl⟩
  have ex' : γB * uB.x - σB * wB.x = -ex := by
    have : βB * (γB * uB.x - σB * wB.x + ex) = 0 := by rw [hex]; linarith
    linarith [(mul_eq_zero.1 this).resolve_left b0.ne']
  have ey' : γB * uB.y - σB * wB.y = -ey := by
    have : βB * (γB * uB.y - σB * wB.y + ey) = 0 := by rw [hey]; linarith
    linarith [(mul_eq_zero.1 this).resolve_left b0.ne']
  have ee : ex ^ 2 + ey ^ 2 = 1 := by rw [hex, hey]; linear_combination γA ^ 2 * a1 + σA ^ 2 * a2 - 2 * γA * σA * a3 + a4
  have ff : fx ^ 2 + fy ^ 2 = 1 := by rw [hfx, hfy]; linear_combination σA ^ 2 * a1 + γA ^ 2 * a2 + 2 * γA * σA * a3 + a4
  have gg : gx ^ 2 + gy ^ 2 = 1 := by rw [hgx, hgy]; linear_combination σB ^ 2 * b1 + γB ^ 2 * b2 + 2 * γB * σB * b3 + b4
  have ef : ex * fx + ey * fy = 0 := by rw [hex, hey, hfx, hfy]; linear_combination γA * σA * a1 - γA * σA * a2 + (γA ^ 2 - σA ^ 2) * a3
  have eg : ex * gx + ey * gy = 0 := by
    have : -ex * gx + -ey * gy = 0 := by
      rw [← ex', ← ey', hgx, hgy]; linear_combination γB * σB * b1 - γB * σB * b2 + (γB ^ 2 - σB ^ 2) * b3
    linarith
  have uAx : uA.x = γA * ex + σA * fx := by rw [hex, hfx]; linear_combination (-uA.x) * a4
  have uAy : uA.y = γA * ey + σA * fy := by rw [hey, hfy]; linear_combination (-uA.y) * a4
  have uBx : uB.x = -(γB * ex) + σB * gx := by rw [hgx]; linear_combination (-uB.x) * b4 + γB * ex'
  have uBy : uB.y = -(γB * ey) + σB * gy := by rw [hgy]; linear_combination (-uB.y) * b4 + γB * ey'
  -- the vertex `C` is on the same side of `AB` for both corners
  have cf : (C.x - A.x) * fx + (C.y - A.y) * fy = κA * (2 * σA * γA) := by
    rw [hfx, hfy]
    linear_combination (σA * uA.x + γA * wA.x) * eCx + (σA * uA.y + γA * wA.y) * eCy + κA * γA * σA * (a1 + a2) + κA * (γA ^ 2 + σA ^ 2) * a3
  have cg : (C.x - B.x) * gx + (C.y - B.y) * gy = κB * (2 * σB * γB) := by
    rw [hgx, hgy]
    linear_combination (σB * uB.x + γB * wB.x) * eCx' + (σB * uB.y + γB * wB.y) * eCy' + κB * γB * σB * (b1 + b2) + κB * (γB ^ 2 + σB ^ 2) * b3
  have cg' : (C.x - A.x) * gx + (C.y - A.y) * gy = κB * (2 * σB * γB) := by
    rw [← hex] at eBx
    rw [← hey] at eBy
    linear_combination cg + gx * eBx + gy * eBy + βB * eg
  have hfg : gx = fx ∧ gy = fy :=
    unit_perp ee ff gg ef eg (by rw [cf]; positivity) (by rw [cg']; positivity)
  obtain ⟨hgx', hgy'⟩ := hfg
  unfold sqDist
  simp only [Pt.add_x, Pt.add_y, Pt.smul_x, Pt.smul_y]
  rw [← hex] at eBx
  rw [← hey] at eBy
  rw [eBx, eBy, uAx, uAy, uBx, uBy, hgx', hgy']
  linear_combination (βB - lA * γA - lB * γB) ^ 2 * ee + (σA * lA - σB * lB) ^ 2 * ff -
    2 * (βB - lA * γA - lB * γB) * (σA * lA - σB * lB) * ef

/-- A circle in a corner of a triangle is not larger than the triangle. -/
theorem corner_upper_cos (h : Corner A B C u w σ γ β κ) {l m : ℝ} (hl : 0 < l) (h1 : β ≤ m) (h2 : κ ≤ m)
    (hd : ∀ X, sqDist X (A + l • u) < (σ * l) ^ 2 → ∃ s t : ℝ, 0 ≤ s ∧ 0 ≤ t ∧ s + t ≤ 1 ∧ X = A + s • (B - A) + t • (C - A)) : l * (1 + 9 / 10 * σ) ≤ m * γ := by
  have uu := h.uu
  have uw := h.uw
  have hσ := h.hσ
  have hγ := h.hγ
  have sq := h.sq
  have hβ := h.hβ
  have hκ := h.hκ
  unfold dot at uu uw
  obtain ⟨s, t, hs, ht, hst, e⟩ := hd (A + (l * (1 + 9 / 10 * σ)) • u) (by
    unfold sqDist
    simp only [Pt.add_x, Pt.add_y, Pt.smul_x, Pt.smul_y]
    have : (A.x + l * (1 + 9 / 10 * σ) * u.x - (A.x + l * u.x)) ^ 2 + (A.y + l * (1 + 9 / 10 * σ) * u.y - (A.y + l * u.y)) ^ 2 = 81 / 100 * (σ * l) ^ 2 := by
      linear_combination 81 / 100 * (σ * l) ^ 2 * uu
    rw [this]
    nlinarith [show 0 < (σ * l) ^ 2 by positivity])
  rw [h.hB, h.hC, Pt.ext_iff] at e
  simp only [Pt.add_x, Pt.add_y, Pt.smul_x, Pt.smul_y, Pt.sub_x, Pt.sub_y] at e
  obtain ⟨ex, ey⟩ := e
  have key : l * (1 + 9 / 10 * σ) = (s * β + t * κ) * γ := by
    linear_combination u.x * ex + u.y * ey + ((s * β + t * κ) * γ - l * (1 + 9 / 10 * σ)) * uu + (t * κ - s * β) * σ * uw
  have k1 : s * β ≤ s * m := mul_le_mul_of_nonneg_left h1 hs
  have k2 : t * κ ≤ t * m := mul_le_mul_of_nonneg_left h2 ht
  have k3 : (s + t) * m ≤ 1 * m := mul_le_mul_of_nonneg_right hst (by linarith)
  rw [key]
  exact mul_le_mul_of_nonneg_right (by linarith) hγ.le

theorem corner_upper (h : Corner A B C u w σ γ β κ) {l m : ℝ} (hl : 0 < l) (h1 : β ≤ m) (h2 : κ ≤ m)
    (hd : ∀ X, sqDist X (A + l • u) < (σ * l) ^ 2 → ∃ s t : ℝ, 0 ≤ s ∧ 0 ≤ t ∧ s + t ≤ 1 ∧ X = A + s • (B - A) + t • (C - A)) : l * (1 + 9 / 10 * σ) ≤ m := by
  have g1 : γ ≤ 1 := by nlinarith [h.sq, h.hσ, h.hγ]
  have hm : 0 < m := h.hβ.trans_le h1
  exact (corner_upper_cos h hl h1 h2 hd).trans (mul_le_of_le_one_right hm.le g1)

/-- Enough for the lines of the corner to be accepted: the circle is not small. -/
theorem fine_of_size (h : Corner A B C u w σ γ β κ) {l M : ℝ} (hl : 0 < l) (hγ : 1 / 2 ≤ γ) (hβ : 1 / 10 ≤ β) (hκ : 1 / 10 ≤ κ)
    (hx : |A.x| ≤ M) (hy : |A.y| ≤ M) (h1 : ¬ allclose A B) (h2 : ¬ allclose A C) (hs : 1 / 10 ^ 6 + (M + l) / 50000 ≤ σ * l) :
    CornerFine A B C ⟨A + l • u, σ * l⟩ := by
  have uu := h.uu
  unfold dot at uu
  have s0 : 0 < σ * l := mul_pos h.hσ hl
  have s1 : 1 / 10 ^ 6 ≤ σ * l := by
    have : 0 ≤ (M + l) / 50000 := by have := abs_nonneg A.x; have : 0 ≤ M + l := by linarith
                                     positivity
    linarith
  have big : ∀ {δ : ℝ}, 1 / 10 ≤ δ → 1 / 2 ^ 26 ≤ σ * l * (γ * δ) := by
    intro δ hδ
    have k1 : 1 / 2 * (1 / 10) ≤ γ * δ := mul_le_mul hγ hδ (by norm_num) (by linarith)
    have k2 : 1 / 10 ^ 6 * (1 / 2 * (1 / 10)) ≤ σ * l * (γ * δ) := mul_le_mul s1 k1 (by norm_num) s0.le
    exact le_trans (by norm_num) k2
  refine h.fine_of hl (by linarith) h1 h2 (big hβ) (big hκ) ?_
  rintro ⟨cx, cy⟩
  unfold npClose at cx cy
  simp only [Pt.add_x, Pt.add_y, Pt.smul_x, Pt.smul_y] at cx cy
  have hσ1 := h.σ_lt
  have ls : 0 ≤ l - σ * l := by nlinarith
  have ux : |u.x| ≤ 1 := by rw [← sq_le_one_iff_abs_le_one]; nlinarith [sq_nonneg u.y]
  have uy : |u.y| ≤ 1 := by rw [← sq_le_one_iff_abs_le_one]; nlinarith [sq_nonneg u.x]
  have bound : ∀ {a x y : ℝ}, |a| ≤ M → |x| ≤ 1 → |y| ≤ 1 → |a + (l - σ * l) * x + σ * l * y| ≤ M + l := by
    intro a x y ha hx hy
    have k1 := abs_add_le (a + (l - σ * l) * x) (σ * l * y)
    have k2 := abs_add_le a ((l - σ * l) * x)
    rw [abs_mul, abs_of_nonneg ls] at k2
    rw [abs_mul, abs_of_pos s0] at k1
    have k3 : (l - σ * l) * |x| ≤ (l - σ * l) * 1 := mul_le_mul_of_nonneg_left hx ls
    have k4 : σ * l * |y| ≤ σ * l * 1 := mul_le_mul_of_nonneg_left hy s0.le
    linarith
  have no : ∀ {a x y : ℝ}, |a| ≤ M → |x| ≤ 1 → |y| ≤ 1 → 7 / 10 ≤ |y| →
      |a + (l - σ * l) * x - (a + (l - σ * l) * x + σ * l * y)| ≤ 1 / 10 ^ 8 + 1 / 10 ^ 5 * |a + (l - σ * l) * x + σ * l * y| → False := by
    intro a x y ha hx hy hy7 hc
    rw [show a + (l - σ * l) * x - (a + (l - σ * l) * x + σ * l * y) = -(σ * l * y) by ring, abs_neg, abs_mul, abs_of_pos s0] at hc
    have k1 := bound ha hx hy
    have k2 : σ * l * (7 / 10) ≤ σ * l * |y| := mul_le_mul_of_nonneg_left hy7 s0.le
    nlinarith
  by_cases hu : 7 / 10 ≤ |u.y|
  · exact no hx ux uy hu cx
  · push Not at hu
    have h7 : 7 / 10 ≤ |u.x| := by
      by_contra hn
      push Not at hn
      have k1 : u.x * u.x ≤ 49 / 100 := by
        rw [← abs_mul_abs_self u.x]; nlinarith [abs_nonneg u.x]
      have k2 : u.y * u.y ≤ 49 / 100 := by
        rw [← abs_mul_abs_self u.y]; nlinarith [abs_nonneg u.y]
      linarith
    refine no (y := -u.x) hy uy (by rwa [abs_neg]) (by rwa [abs_neg]) cy

/-- A corner of a triangle that is almost equilateral. -/
theorem near_corner {m : ℝ} (hm : 0 < m) (h : Corner A B C u w σ γ β κ) (b1 : m ≤ β) (b2 : β ≤ 1.01 * m) (k1 : m ≤ κ) (k2 : κ ≤ 1.01 * m)
    (d1 : m ^ 2 ≤ sqDist B C) (d2 : sqDist B C ≤ (1.01 * m) ^ 2) : 0.49 ≤ σ ∧ σ ≤ 0.51 ∧ 0.86 ≤ γ ∧ γ ≤ 0.875 := by
  have e := h.dot_BC
  have eB := h.sqDist_B
  have eC := h.mirror.sqDist_B
  have hσ := h.hσ
  have hγ := h.hγ
  have sq := h.sq
  have key : 4 * (β * κ) * σ ^ 2 = sqDist B C - (β - κ) ^ 2 := by
    unfold dot at e
    unfold sqDist at eB eC ⊢
    simp only [Pt.sub_x, Pt.sub_y] at e
    linear_combination (2 : ℝ) * e - eB - eC
  have p1 : m * m ≤ β * κ := mul_le_mul b1 k1 hm.le (by linarith)
  have p2 : β * κ ≤ 1.01 * m * (1.01 * m) := mul_le_mul b2 k2 (by linarith) (by linarith)
  have p3 : (β - κ) ^ 2 ≤ (0.01 * m) ^ 2 := by
    rw [← sq_abs]
    exact pow_le_pow_left₀ (abs_nonneg _) (abs_le.2 ⟨by linarith, by linarith⟩) 2
  have s1 : 0.245 ≤ σ ^ 2 := by
    by_contra hn
    push Not at hn
    nlinarith
  have s2 : σ ^ 2 ≤ 0.2551 := by
    by_contra hn
    push Not at hn
    nlinarith [sq_nonneg (β - κ)]
  refine ⟨?_, ?_, ?_, ?_⟩ <;> nlinarith

theorem near_size {m σA γA lA σB γB lB c : ℝ} (hm : 0 < m) (a1 : 0.49 ≤ σA) (a2 : σA ≤ 0.51) (a3 : 0.86 ≤ γA) (a4 : γA ≤ 0.875)
    (b1 : 0.49 ≤ σB) (b2 : σB ≤ 0.51) (b3 : 0.86 ≤ γB) (b4 : γB ≤ 0.875) (hA : 0 < lA) (hB : 0 < lB) (hBm : lB * (1 + 9 / 10 * σB) ≤ 1.01 * m)
    (hc : m ≤ c) (ht : (c - lA * γA - lB * γB) ^ 2 = 4 * (σA * lA) * (σB * lB)) : m / 10 ≤ lA := by
  by_contra hn
  push Not at hn
  have lB1 : lB ≤ 0.7011 * m := by nlinarith
  have t1 : lA * γA ≤ 0.0875 * m := by nlinarith
  have t2 : lB * γB ≤ 0.6135 * m := by nlinarith
  have d1 : 0.298 * m ≤ c - lA * γA - lB * γB := by linarith
  have d2 : (0.298 * m) ^ 2 ≤ (c - lA * γA - lB * γB) ^ 2 := pow_le_pow_left₀ (by positivity) d1 2
  have r1 : σA * lA ≤ 0.051 * m := by nlinarith
  have r2 : σB * lB ≤ 0.35757 * m := by nlinarith
  have r3 : σA * lA * (σB * lB) ≤ 0.051 * m * (0.35757 * m) := mul_le_mul r1 r2 (by positivity) (by positivity)
  rw [ht] at d2
  nlinarith

/-- The radii of the circles in a corner, up to the fifth one. -/
theorem near_depth {m σ l : ℝ} (hm : 1 / 10 ≤ m) (s1 : 0.49 ≤ σ) (s2 : σ ≤ 0.51) (hl : m / 10 ≤ l) (hu : l * (1 + 9 / 10 * σ) ≤ 1.01 * m) {k : ℕ} (hk : k ≤ 5) :
    1 / 10 ^ 6 + (2 * m + ((1 - σ) / (1 + σ)) ^ k * l) / 50000 ≤ σ * (((1 - σ) / (1 + σ)) ^ k * l) := by
  obtain ⟨ρ, hρ⟩ : ∃ ρ, ρ = (1 - σ) / (1 + σ) := ⟨_, rfl⟩
  rw [← hρ]
  have ρ1 : 0.32 ≤ ρ := by rw [hρ, le_div_iff₀ (by linarith)]; linarith
  have k1 : (0.32 : ℝ) ^ 5 ≤ 0.32 ^ k := pow_le_pow_of_le_one (by norm_num) (by norm_num) hk
  have k2 : (0.32 : ℝ) ^ k ≤ ρ ^ k := pow_le_pow_left₀ (by norm_num) ρ1 k
  have k3 : 0.00335 ≤ ρ ^ k := le_trans (by norm_num) (k1.trans k2)
  have k4 : 0.00335 * (m / 10) ≤ ρ ^ k * l := mul_le_mul k3 hl (by linarith) (by linarith)
  obtain ⟨x, hx⟩ : ∃ x, x = ρ ^ k * l := ⟨_, rfl⟩
  rw [← hx] at k4 ⊢
  nlinarith

theorem inTriangle_first {P Q R X : Pt} (h : InTriangle P Q R X) : (∃ s t : ℝ, 0 ≤ s ∧ 0 ≤ t ∧ s + t ≤ 1 ∧ X = P + s • (Q - P) + t • (R - P)) ∧
    (∃ s t : ℝ, 0 ≤ s ∧ 0 ≤ t ∧ s + t ≤ 1 ∧ X = Q + s • (P - Q) + t • (R - Q)) ∧
    ∃ s t : ℝ, 0 ≤ s ∧ 0 ≤ t ∧ s + t ≤ 1 ∧ X = R + s • (P - R) + t • (Q - R) := by
  obtain ⟨u, v, w, hu, hv, hw, hs, rfl⟩ := h
  have e : u = 1 - v - w := by linarith
  refine ⟨⟨v, w, hv.le, hw.le, by linarith, ?_⟩, ⟨u, w, hu.le, hw.le, by linarith, ?_⟩, ⟨u, v, hu.le, hv.le, by linarith, ?_⟩⟩ <;>
  · subst e
    ext
    · simp only [Pt.add_x, Pt.smul_x, Pt.sub_x]; ring
    · simp only [Pt.add_y, Pt.smul_y, Pt.sub_y]; ring

theorem not_allclose_far {P Q : Pt} {m : ℝ} (hm : 1 / 10 ≤ m) (hd : m ^ 2 ≤ sqDist P Q) (hx : |Q.x| ≤ 2 * m) (hy : |Q.y| ≤ 2 * m) : ¬ allclose P Q := by
  rintro ⟨h1, h2⟩
  unfold npClose at h1 h2
  have k1 : |P.x - Q.x| ≤ m / 2 := by linarith
  have k2 : |P.y - Q.y| ≤ m / 2 := by linarith
  have k3 := pow_le_pow_left₀ (abs_nonneg _) k1 2
  have k4 := pow_le_pow_left₀ (abs_nonneg _) k2 2
  rw [sq_abs] at k3 k4
  unfold sqDist at hd
  nlinarith

end Icosahedral

open Icosahedral

/-- C101, triangles for which the script finishes: the sides are between `m` and `1.01 m`, not too small and not too far from the origin; at most five
passes. -/
theorem C101_near_equilateral (A B C : Pt) (m : ℝ) (hm : 1 / 10 ≤ m) (c1 : m ≤ Spec.dist A B) (c2 : Spec.dist A B ≤ 1.01 * m)
    (a1 : m ≤ Spec.dist B C) (a2 : Spec.dist B C ≤ 1.01 * m) (b1 : m ≤ Spec.dist A C) (b2 : Spec.dist A C ≤ 1.01 * m)
    (hx : ∀ X, X = A ∨ X = B ∨ X = C → |X.x| ≤ 2 * m ∧ |X.y| ≤ 2 * m) (depth : ℕ) (hd : depth ≤ 5) :
    ∃ L, drawTriangularGasket A B C depth = .ok L := by
  have m0 : 0 < m := by linarith
  have sq1 : ∀ {P Q : Pt}, m ≤ Spec.dist P Q → Spec.dist P Q ≤ 1.01 * m → m ^ 2 ≤ sqDist P Q ∧ sqDist P Q ≤ (1.01 * m) ^ 2 := by
    intro P Q h1 h2
    rw [← dist_sq]
    exact ⟨pow_le_pow_left₀ m0.le h1 2, pow_le_pow_left₀ (by linarith) h2 2⟩
  obtain ⟨cs1, cs2⟩ := sq1 c1 c2
  obtain ⟨as1, as2⟩ := sq1 a1 a2
  obtain ⟨bs1, bs2⟩ := sq1 b1 b2
  have hn : ¬ Collinear A B C := by
    intro hcol
    have lag : cross (B - A) (C - A) ^ 2 + dot (B - A) (C - A) ^ 2 = sqDist A B * sqDist A C := by unfold cross dot sqDist; simp only [Pt.sub_x, Pt.sub_y]; ring
    have pol : 2 * dot (B - A) (C - A) = sqDist A B + sqDist A C - sqDist B C := by unfold dot sqDist; simp only [Pt.sub_x, Pt.sub_y]; ring
    unfold Collinear at hcol
    rw [hcol] at lag
    have d0 : dot (B - A) (C - A) ≤ 0.6 * m ^ 2 := by nlinarith
    have d1 : 0 ≤ dot (B - A) (C - A) := by nlinarith
    have : m ^ 2 * m ^ 2 ≤ sqDist A B * sqDist A C := mul_le_mul cs1 bs1 (by positivity) (le_trans (by positivity) cs1)
    nlinarith [show 0 < m ^ 2 by positivity]
  obtain ⟨mm, -, M, ⟨uA, wA, σA, γA, βA, κA, lA, hA, pA, eA⟩, ⟨uB, wB, σB, γB, βB, κB, lB, hB, pB, eB⟩, ⟨uC, wC, σC, γC, βC, κC, lC, hC, pC, eC⟩, hi, -⟩ :=
    setup hn
  dsimp only at hA eA hB eB hC eC
  have side : ∀ {P Q R u w : Pt} {σ γ β κ : ℝ}, Corner P Q R u w σ γ β κ → β = Spec.dist P Q ∧ κ = Spec.dist P R := by
    intro P Q R u w σ γ β κ h
    exact ⟨((dist_eq_iff h.hβ.le).2 h.sqDist_B).symm, ((dist_eq_iff h.hκ.le).2 h.mirror.sqDist_B).symm⟩
  obtain ⟨βAe, κAe⟩ := side hA
  obtain ⟨βBe, κBe⟩ := side hB
  obtain ⟨βCe, κCe⟩ := side hC
  rw [specDist_comm B A] at βBe
  rw [specDist_comm C A] at βCe
  rw [specDist_comm C B] at κCe
  obtain ⟨sA1, sA2, gA1, gA2⟩ := near_corner m0 hA (by rw [βAe]; exact c1) (by rw [βAe]; exact c2) (by rw [κAe]; exact b1) (by rw [κAe]; exact b2) as1 as2
  obtain ⟨sB1, sB2, gB1, gB2⟩ := near_corner m0 hB (by rw [βBe]; exact c1) (by rw [βBe]; exact c2) (by rw [κBe]; exact a1) (by rw [κBe]; exact a2) bs1 bs2
  obtain ⟨sC1, sC2, gC1, gC2⟩ := near_corner m0 hC (by rw [βCe]; exact b1) (by rw [βCe]; exact b2) (by rw [κCe]; exact a1) (by rw [κCe]; exact a2) cs1 cs2
  have upA := corner_upper hA (m := 1.01 * m) pA (by rw [βAe]; exact c2) (by rw [κAe]; exact b2) fun X hX =>
    (inTriangle_first (M.discA X (by rw [eA]; exact hX))).1
  have upB := corner_upper hB (m := 1.01 * m) pB (by rw [βBe]; exact c2) (by rw [κBe]; exact a2) fun X hX =>
    (inTriangle_first (M.discB X (by rw [eB]; exact hX))).2.1
  have upC := corner_upper hC (m := 1.01 * m) pC (by rw [βCe]; exact b2) (by rw [κCe]; exact a2) fun X hX =>
    (inTriangle_first (M.discC X (by rw [eC]; exact hX))).2.2
  have ext : ∀ {O₁ O₂ : Pt} {r s : ℝ}, ExtTangent O₁ r O₂ s → sqDist O₁ O₂ = (r + s) ^ 2 := by
    intro O₁ O₂ r s h
    rw [← dist_sq, h]
  have t1 := ext M.tAB
  have t2 := ext M.tAC
  rw [eA, eB] at t1
  rw [eA, eC] at t2
  dsimp only at t1 t2
  rw [side_eq hA hB] at t1
  rw [side_eq hA.mirror hC] at t2
  have tAB : (βA - lA * γA - lB * γB) ^ 2 = 4 * (σA * lA) * (σB * lB) := by linear_combination t1
  have tAC : (κA - lA * γA - lC * γC) ^ 2 = 4 * (σA * lA) * (σC * lC) := by linear_combination t2
  have lwA := near_size m0 sA1 sA2 gA1 gA2 sB1 sB2 gB1 gB2 pA pB upB (by rw [βAe]; exact c1) tAB
  have lwB := near_size m0 sB1 sB2 gB1 gB2 sA1 sA2 gA1 gA2 pB pA upA (c := βA) (by rw [βAe]; exact c1) (by linear_combination tAB)
  have lwC := near_size m0 sC1 sC2 gC1 gC2 sA1 sA2 gA1 gA2 pC pA upA (c := κA) (by rw [κAe]; exact b1) (by linear_combination tAC)
  have oA := hx A (.inl rfl)
  have oB := hx B (.inr (.inl rfl))
  have oC := hx C (.inr (.inr rfl))
  rw [hi depth]
  intro k hk
  simp only [List.mem_cons, List.not_mem_nil, or_false, forall_eq_or_imp, forall_eq]
  refine ⟨?_, ?_, ?_⟩
  · rw [eA, hA.cornerCircle pA]
    have := hA.ratio_pos
    exact fine_of_size hA (by positivity) (by linarith) (by rw [βAe]; linarith) (by rw [κAe]; linarith) oA.1 oA.2 (not_allclose_far hm cs1 oB.1 oB.2)
      (not_allclose_far hm bs1 oC.1 oC.2) (near_depth hm sA1 sA2 lwA upA (hk.trans hd))
  · rw [eB, hB.cornerCircle pB]
    have := hB.ratio_pos
    exact fine_of_size hB (by positivity) (by linarith) (by rw [βBe]; linarith) (by rw [κBe]; linarith) oB.1 oB.2
      (not_allclose_far hm (by rw [sqDist_comm]; exact cs1) oA.1 oA.2) (not_allclose_far hm as1 oC.1 oC.2) (near_depth hm sB1 sB2 lwB upB (hk.trans hd))
  · rw [eC, hC.cornerCircle pC]
    have := hC.ratio_pos
    exact fine_of_size hC (by positivity) (by linarith) (by rw [βCe]; linarith) (by rw [κCe]; linarith) oC.1 oC.2
      (not_allclose_far hm (by rw [sqDist_comm]; exact bs1) oA.1 oA.2) (not_allclose_far hm (by rw [sqDist_comm]; exact as1) oB.1 oB.2)
      (near_depth hm sC1 sC2 lwC upC (hk.trans hd))

/-- A triangle which is equilateral up to `1/10000`. -/
example : ∃ L, drawTriangularGasket ⟨0, 0⟩ ⟨1, 0⟩ ⟨1 / 2, 0.866⟩ 5 = .ok L := by
  have e1 : Spec.dist ⟨0, 0⟩ ⟨1, 0⟩ = 1 := by
    unfold Spec.dist sqDist
    norm_num
  have e2 : Spec.dist ⟨1, 0⟩ ⟨1 / 2, 0.866⟩ = √0.999956 := by
    unfold Spec.dist sqDist
    norm_num
  have e3 : Spec.dist ⟨0, 0⟩ ⟨1 / 2, 0.866⟩ = √0.999956 := by
    unfold Spec.dist sqDist
    norm_num
  have l : 0.999 ≤ √0.999956 := Real.le_sqrt_of_sq_le (by norm_num)
  have u : √0.999956 ≤ 1 := by rw [Real.sqrt_le_left (by norm_num)]; norm_num
  refine C101_near_equilateral _ _ _ 0.999 (by norm_num) (by rw [e1]; norm_num) (by rw [e1]; norm_num) (by rw [e2]; exact l)
    (by rw [e2]; refine u.trans (by norm_num)) (by rw [e3]; exact l) (by rw [e3]; refine u.trans (by norm_num)) ?_ 5 (le_refl _)
  rintro X (rfl | rfl | rfl) <;> norm_num [abs_of_pos]
