import Verif.Lemmas.Boundary4Frame
import Verif.Props.Ellipse

/-!
# The conics through four points of a frame, and the one of `from_boundary4`
-/

open Spec Real Classical

namespace Boundary4

/-- The equation of the ellipse of parameter `s`. -/
noncomputable def conic (p M M' s : ℝ) (z : Pt) : ℝ := z.x ^ 2 + 2 * s * z.x * z.y + z.y ^ 2 - M * z.x - M' * z.y - p

theorem radius_eq {g zy p M M' r : ℝ} (hg : g ≠ 0) (hz : 2 * g ^ 4 * zy = M' - r * M) (hg4 : g ^ 4 = 1 - r ^ 2) :
    (M / (2 * g)) ^ 2 + (g * zy) ^ 2 - -p / g ^ 2 = num p M M' r / (4 * g ^ 6) := by
  have h4 : 4 * g ^ 6 ≠ 0 := mul_ne_zero (by norm_num) (pow_ne_zero 6 hg)
  have e : ((M / (2 * g)) ^ 2 + (g * zy) ^ 2 - -p / g ^ 2) * (4 * g ^ 6) = M ^ 2 * g ^ 4 + (2 * g ^ 4 * zy) ^ 2 + 4 * p * g ^ 4 := by
    field_simp
    ring
  rw [eq_div_iff h4, e, hz, hg4]
  unfold num
  ring

theorem row_eq {g zy p M M' r a1 : ℝ} (hg : g ≠ 0) (hz : 2 * g ^ 4 * zy = M' - r * M) (hg4 : g ^ 4 = 1 - r ^ 2)
    (h : p = a1 ^ 2 - a1 * M') :
    -(2 * (r * g⁻¹ * a1) * (M / (2 * g))) + -(2 * (g * a1) * (g * zy)) + -p / g ^ 2 =
      -(g * a1) ^ 2 + -(r * g⁻¹ * a1) ^ 2 := by
  have h2 : g ^ 2 ≠ 0 := pow_ne_zero 2 hg
  rw [← sub_eq_zero]
  have e : (-(2 * (r * g⁻¹ * a1) * (M / (2 * g))) + -(2 * (g * a1) * (g * zy)) + -p / g ^ 2 -
      (-(g * a1) ^ 2 + -(r * g⁻¹ * a1) ^ 2)) = (-(r * a1 * M) - a1 * (2 * g ^ 4 * zy) - p + a1 ^ 2 * g ^ 4 + r ^ 2 * a1 ^ 2) / g ^ 2 := by
    field_simp
    ring
  rw [e, hz, hg4, h, div_eq_zero_iff]
  left
  ring

theorem center_value {g zy zx p M M' r k : ℝ} (hg : g ≠ 0) (hz : 2 * g ^ 4 * zy = M' - r * M) (hg4 : g ^ 4 = 1 - r ^ 2)
    (hzx : zx = M / 2 - r * zy) (hk : k = num p M M' r / (4 * g ^ 4)) :
    zx ^ 2 + 2 * r * zx * zy + zy ^ 2 = k - p := by
  have h4 : g ^ 4 ≠ 0 := pow_ne_zero 4 hg
  have e : k * (4 * g ^ 4) = num p M M' r := by rw [hk, div_mul_cancel₀]; exact mul_ne_zero (by norm_num) h4
  apply mul_left_cancel₀ h4
  have e2 : g ^ 4 * (k - p) = (M ^ 2 + M' ^ 2 - 2 * r * (M * M')) / 4 := by
    unfold num at e
    linear_combination e / 4 - p * hg4
  rw [e2, hzx]
  have e3 : zy * g ^ 4 = (M' - r * M) / 2 := by linarith
  have e4 : g ^ 4 * ((M / 2 - r * zy) ^ 2 + 2 * r * (M / 2 - r * zy) * zy + zy ^ 2) = g ^ 4 * M ^ 2 / 4 + (zy * g ^ 4) * (zy * (1 - r ^ 2)) := by ring
  rw [e4, ← hg4, e3, hg4]
  ring

theorem form_pos {r : ℝ} (h1 : -1 < r) (h2 : r < 1) {z : Pt} (hz : z ≠ ⟨0, 0⟩) : 0 < z.x ^ 2 + 2 * r * z.x * z.y + z.y ^ 2 := by
  have h3 : 0 < 1 - r ^ 2 := by nlinarith
  have e : z.x ^ 2 + 2 * r * z.x * z.y + z.y ^ 2 = (z.x + r * z.y) ^ 2 + (1 - r ^ 2) * z.y ^ 2 := by ring
  rw [e]
  by_cases hy : z.y = 0
  · have hx : z.x ≠ 0 := fun hx => hz (by ext <;> assumption)
    rw [hy]
    simp
    positivity
  · positivity

/-- geometry.py 1383-1404: the end of the computation. -/
theorem centerForm_ok {env : Env} (he : env.Ok) {P : Fin 4 → Pt} (h : CW (P 0) (P 1) (P 2) (P 3)) :
    ∃ (X : Pt) (B : Matrix (Fin 2) (Fin 2) ℝ) (a0 a1 a2 a3 r : ℝ) (C : Pt) (F : Matrix (Fin 2) (Fin 2) ℝ) (k : ℝ),
      Frame P X B a0 a1 a2 a3 ∧ -1 < r ∧ r < 1 ∧ cubic (a0 * a2) (a2 - a0) (a1 - a3) r = 0 ∧
      centerForm env P = .ok (C, F) ∧ F 0 1 = F 1 0 ∧ 0 < k ∧
      (∀ v, v ≠ ⟨0, 0⟩ → 0 < quadForm F v) ∧
      (∀ Z, quadForm F (Z - C) - 1 = conic (a0 * a2) (a2 - a0) (a1 - a3) r (mdot B (Z - X)) / k) ∧
      F.det * areaSq (a0 * a2) (a2 - a0) (a1 - a3) r = 16 := by
  obtain ⟨X, R, S, T, a0, a1, a2, a3, hX, hR, hS, hT, hF⟩ := frame_ok h
  obtain ⟨B, hB⟩ : ∃ B, B = T * S * R := ⟨_, rfl⟩
  rw [← hB] at hF
  have hmm : ∀ i, mdot T (mdot S (mdot R (P i - X))) = mdot B (P i - X) := by
    intro i; rw [hB, mdot_mul, mdot_mul]
  have m0 := hF.m0; have m1 := hF.m1; have m2 := hF.m2
  have p0 := hF.pos0; have p1 := hF.pos1; have p2 := hF.pos2; have p3 := hF.pos3; have heq := hF.eq; have hdet := hF.det
  obtain ⟨r, hr1, hr2, hr, hsw⟩ := swing_ok he (P := fun i => mdot T (mdot S (mdot R (P i - X)))) p0 p1 p2 heq
    (by rw [hmm]; exact m0) (by rw [hmm]; exact m1) (by rw [hmm]; exact m2)
  obtain ⟨p, hp⟩ : ∃ p, p = a0 * a2 := ⟨_, rfl⟩
  obtain ⟨M, hM⟩ : ∃ M, M = a2 - a0 := ⟨_, rfl⟩
  obtain ⟨M', hM'⟩ : ∃ M', M' = a1 - a3 := ⟨_, rfl⟩
  have hpp : 0 < p := by rw [hp]; positivity
  have hnum := num_pos (M := M) (M' := M') hpp hr1 hr2
  -- the cosine
  have h1r : 0 < 1 - r ^ 2 := by nlinarith
  obtain ⟨c, hc⟩ : ∃ c, c = cos (arcsin r) := ⟨_, rfl⟩
  have hc' : c = sqrt (1 - r ^ 2) := by rw [hc, cos_arcsin]
  have hcp : 0 < c := by rw [hc']; exact Real.sqrt_pos.2 h1r
  have hsin : sin (arcsin r) = r := sin_arcsin hr1.le hr2.le
  obtain ⟨g, hg⟩ : ∃ g, g = c ^ (1 / 2 : ℝ) := ⟨_, rfl⟩
  have hgp : 0 < g := by rw [hg]; exact Real.rpow_pos_of_pos hcp _
  have hgi : c ^ (-(1 / 2) : ℝ) = 1 / g := by rw [Real.rpow_neg hcp.le, ← hg]; exact (one_div _).symm
  have hg2 : g ^ 2 = c := by rw [hg, ← Real.rpow_natCast, ← Real.rpow_mul hcp.le]; norm_num
  have hg4 : g ^ 4 = 1 - r ^ 2 := by
    rw [show g ^ 4 = (g ^ 2) ^ 2 by ring, hg2, hc', Real.sq_sqrt h1r.le]
  have hg0 : g ≠ 0 := hgp.ne'
  obtain ⟨D, hD⟩ : ∃ D : Matrix (Fin 2) (Fin 2) ℝ, D = !![1 / g, r * (1 / g); 0, g] := ⟨_, rfl⟩
  have hdm : dMat (arcsin r) = D := by unfold dMat; rw [hsin, ← hc, hgi, ← hg, hD]
  have hDd : D.det = 1 := by rw [hD, Matrix.det_fin_two]; simp [hg0]
  -- center and radius of the circle
  obtain ⟨zy, hzy⟩ : ∃ zy, zy = (M' - r * M) / (2 * g ^ 4) := ⟨_, rfl⟩
  have hzy' : 2 * g ^ 4 * zy = M' - r * M := by rw [hzy]; field_simp
  obtain ⟨zx, hzx⟩ : ∃ zx, zx = M / 2 - r * zy := ⟨_, rfl⟩
  obtain ⟨rc, hrc⟩ : ∃ rc, rc = sqrt (num p M M' r / (4 * g ^ 6)) := ⟨_, rfl⟩
  have hrc2 : rc ^ 2 = num p M M' r / (4 * g ^ 6) := by rw [hrc, Real.sq_sqrt (by positivity)]
  have hrcp : 0 < rc ^ 2 := by rw [hrc2]; positivity
  have hcirc : circle (fun i => mdot D (mdot T (mdot S (mdot R (P i - X))))) = .ok (⟨M / (2 * g), g * zy⟩, rc) := by
    unfold circle
    dsimp only
    rw [hmm, hmm, hmm, m0, m1, m2, hD]
    rw [solve_ok (x := ![M / (2 * g), g * zy, -p / g ^ 2])]
    · rw [Res.ok_bind]
      have : (![M / (2 * g), g * zy, -p / g ^ 2] 0) ^ 2 + (![M / (2 * g), g * zy, -p / g ^ 2] 1) ^ 2 -
          ![M / (2 * g), g * zy, -p / g ^ 2] 2 = num p M M' r / (4 * g ^ 6) := by
        simp only [Matrix.cons_val_zero, Matrix.cons_val_one, Matrix.cons_val]
        exact radius_eq hg0 hzy' hg4
      rw [this]
      unfold pySqrt
      rw [if_neg (not_lt.2 (by positivity)), ← hrc]
      rfl
    · have : Matrix.det !![-2 * (mdot !![1 / g, r * (1 / g); 0, g] ⟨-a0, 0⟩).x, -2 * (mdot !![1 / g, r * (1 / g); 0, g] ⟨-a0, 0⟩).y, 1;
          -2 * (mdot !![1 / g, r * (1 / g); 0, g] ⟨0, a1⟩).x, -2 * (mdot !![1 / g, r * (1 / g); 0, g] ⟨0, a1⟩).y, 1;
          -2 * (mdot !![1 / g, r * (1 / g); 0, g] ⟨a2, 0⟩).x, -2 * (mdot !![1 / g, r * (1 / g); 0, g] ⟨a2, 0⟩).y, 1] =
          -4 * (a1 * (a0 + a2)) := by
        rw [Matrix.det_fin_three]
        simp
        field_simp
        ring
      rw [this]
      have : 0 < a1 * (a0 + a2) := by positivity
      linarith
    · ext i
      fin_cases i
      · simp [Matrix.mulVec, dotProduct, Fin.sum_univ_three]
        field_simp
        rw [hM, hp]; ring
      · simp [Matrix.mulVec, dotProduct, Fin.sum_univ_three]
        exact row_eq hg0 hzy' hg4 (by rw [hM', hp]; linarith)
      · simp [Matrix.mulVec, dotProduct, Fin.sum_univ_three]
        field_simp
        rw [hM, hp]; ring
  -- the matrix T
  obtain ⟨Tm, hTm⟩ : ∃ Tm, Tm = D * B := ⟨_, rfl⟩
  have hTm' : D * T * S * R = Tm := by rw [hTm, hB, Matrix.mul_assoc, Matrix.mul_assoc, Matrix.mul_assoc]
  have hTd : Tm.det = 1 := by rw [hTm, Matrix.det_mul, hDd, hdet, one_mul]
  have hBd : B 0 0 * B 1 1 - B 0 1 * B 1 0 = 1 := by rw [← Matrix.det_fin_two]; exact hdet
  obtain ⟨w, hw⟩ : ∃ w : Pt, w = ⟨B 1 1 * zx - B 0 1 * zy, -B 1 0 * zx + B 0 0 * zy⟩ := ⟨_, rfl⟩
  have hBw : mdot B w = ⟨zx, zy⟩ := by
    rw [hw]; ext
    · simp; linear_combination zx * hBd
    · simp; linear_combination zy * hBd
  have hTw : Tm.mulVec ![w.x, w.y] = ![M / (2 * g), g * zy] := by
    have k : mdot Tm w = ⟨M / (2 * g), g * zy⟩ := by
      rw [hTm, mdot_mul, hBw, hD]; ext
      · simp; rw [hzx]; field_simp; ring
      · simp
    have kx := congrArg Pt.x k
    have ky := congrArg Pt.y k
    simp only [mdot_x, mdot_y] at kx ky
    ext i
    fin_cases i
    · simp [Matrix.mulVec, dotProduct, Fin.sum_univ_two]; exact kx
    · simp [Matrix.mulVec, dotProduct, Fin.sum_univ_two]; exact ky
  have hsolve : solve Tm ![M / (2 * g), g * zy] = .ok ![w.x, w.y] := solve_ok (by rw [hTd]; exact one_ne_zero) hTw
  obtain ⟨F, hFe⟩ : ∃ F : Matrix (Fin 2) (Fin 2) ℝ, F = (1 / rc ^ 2) • (Tm.transpose * Tm) := ⟨_, rfl⟩
  have hcf : centerForm env P = .ok (w + X, F) := by
    unfold centerForm
    rw [hX, Res.ok_bind]
    dsimp only
    rw [hR, hS, Res.ok_bind, hT, Res.ok_bind, hsw, Res.ok_bind, hdm, hcirc, Res.ok_bind]
    dsimp only
    rw [hTm', hsolve, Res.ok_bind, if_neg hrcp.ne', ← hFe]
    rfl
  have hq : ∀ v, quadForm F v = ((mdot Tm v).x ^ 2 + (mdot Tm v).y ^ 2) / rc ^ 2 := by
    intro v
    unfold quadForm
    rw [hFe]
    simp [Matrix.mul_apply, Fin.sum_univ_two]
    ring
  have hDq : ∀ z : Pt, (mdot D z).x ^ 2 + (mdot D z).y ^ 2 = (z.x ^ 2 + 2 * r * z.x * z.y + z.y ^ 2) / g ^ 2 := by
    intro z
    rw [eq_div_iff (by positivity), hD]
    simp
    field_simp
    linear_combination (z.y ^ 2) * hg4
  obtain ⟨k, hk⟩ : ∃ k, k = num p M M' r / (4 * g ^ 4) := ⟨_, rfl⟩
  have hkp : 0 < k := by rw [hk]; positivity
  have hkr : k = g ^ 2 * rc ^ 2 := by rw [hk, hrc2]; field_simp
  refine ⟨X, B, a0, a1, a2, a3, r, w + X, F, k, hF, hr1, hr2, hr, hcf, ?_, hkp, ?_, ?_, ?_⟩
  · rw [hFe]
    simp [Matrix.mul_apply, Fin.sum_univ_two]
    left
    ring
  · intro v hv
    rw [hq, hTm, mdot_mul, hDq]
    have hz : mdot B v ≠ ⟨0, 0⟩ := by
      intro h0
      have kx := congrArg Pt.x h0
      have ky := congrArg Pt.y h0
      simp only [mdot_x, mdot_y] at kx ky
      apply hv
      ext
      · show v.x = 0
        linear_combination B 1 1 * kx - B 0 1 * ky - v.x * hBd
      · show v.y = 0
        linear_combination B 0 0 * ky - B 1 0 * kx - v.y * hBd
    apply div_pos _ hrcp
    apply div_pos _ (by positivity)
    exact form_pos hr1 hr2 hz
  · intro Z
    rw [hq, hTm, mdot_mul, hDq, ← hp, ← hM, ← hM']
    have hz : mdot B (Z - (w + X)) = mdot B (Z - X) - ⟨zx, zy⟩ := by
      rw [← hBw]; ext <;> simp <;> ring
    rw [hz]
    obtain ⟨z, hze⟩ : ∃ z, z = mdot B (Z - X) := ⟨_, rfl⟩
    rw [← hze, div_div, ← hkr]
    have hkz : (zx ^ 2 + 2 * r * zx * zy + zy ^ 2) = k - p := center_value hg0 hzy' hg4 hzx hk
    have e1 : zx + r * zy = M / 2 := by rw [hzx]; ring
    have e2 : r * zx + zy = M' / 2 := by rw [hzx]; linear_combination hzy' / 2 - zy * hg4
    unfold conic
    rw [eq_div_iff hkp.ne', sub_mul, div_mul_cancel₀ _ hkp.ne']
    simp only [Pt.sub_x, Pt.sub_y]
    linear_combination hkz + (-2 * z.x) * e1 + (-2 * z.y) * e2
  · rw [← hp, ← hM, ← hM', hFe, Matrix.det_smul, Matrix.det_mul, Matrix.det_transpose, hTd]
    unfold areaSq
    rw [hrc2, ← hg4]
    simp only [Fintype.card_fin]
    field_simp
    norm_num

end Boundary4
