import Verif.Lemmas.Boundary4Conic
import Verif.Props.Minimal
import Verif.Props.Random
import Verif.Props.LownerJohn
import Mathlib.Data.Fin.Tuple.Sort

/-!
# C111: the algorithm of `from_boundary4`

`Boundary4.from_boundary4` is the method with `np.float` read as `float`.
-/

open Spec Real Classical

namespace Boundary4

/-- Every ellipse through the four points of a frame is one of the conics of the frame, and its area is given by its
parameter. -/
theorem through_frame {P : Fin 4 → Pt} {X : Pt} {B : Matrix (Fin 2) (Fin 2) ℝ} {a0 a1 a2 a3 : ℝ} (hF : Frame P X B a0 a1 a2 a3)
    {O : Pt} {a b α : ℝ} (ha : 0 < a) (hb : 0 < b) (hon : ∀ i, OnEllipse O a b α (P i)) :
    ∃ s, -1 < s ∧ s < 1 ∧ 16 * (a * b) ^ 2 = areaSq (a0 * a2) (a2 - a0) (a1 - a3) s ∧
      (∀ Z, InEllipse O a b α Z ↔ conic (a0 * a2) (a2 - a0) (a1 - a3) s (mdot B (Z - X)) ≤ 0) ∧
      ∀ Z, OnEllipse O a b α Z ↔ conic (a0 * a2) (a2 - a0) (a1 - a3) s (mdot B (Z - X)) = 0 := by
  have p0 := hF.pos0; have p1 := hF.pos1; have p2 := hF.pos2; have p3 := hF.pos3; have heq := hF.eq
  have hBd : B 0 0 * B 1 1 - B 0 1 * B 1 0 = 1 := by rw [← Matrix.det_fin_two]; exact hF.det
  obtain ⟨p, hp⟩ : ∃ p, p = a0 * a2 := ⟨_, rfl⟩
  obtain ⟨M, hM⟩ : ∃ M, M = a2 - a0 := ⟨_, rfl⟩
  obtain ⟨M', hM'⟩ : ∃ M', M' = a1 - a3 := ⟨_, rfl⟩
  have hpp : 0 < p := by rw [hp]; positivity
  have hsc := sin_sq_add_cos_sq α
  obtain ⟨C, hC⟩ : ∃ C, C = cos α := ⟨_, rfl⟩
  obtain ⟨S, hS⟩ : ∃ S, S = sin α := ⟨_, rfl⟩
  rw [← hC, ← hS] at hsc
  -- the affine form of the equation in the frame
  obtain ⟨l, hl⟩ : ∃ l, l = (C * B 1 1 - S * B 1 0) / a := ⟨_, rfl⟩
  obtain ⟨m, hm⟩ : ∃ m, m = (-C * B 0 1 + S * B 0 0) / a := ⟨_, rfl⟩
  obtain ⟨n, hn⟩ : ∃ n, n = (-S * B 1 1 - C * B 1 0) / b := ⟨_, rfl⟩
  obtain ⟨q, hq⟩ : ∃ q, q = (S * B 0 1 + C * B 0 0) / b := ⟨_, rfl⟩
  obtain ⟨u, hu⟩ : ∃ u, u = ((X.x - O.x) * C + (X.y - O.y) * S) / a := ⟨_, rfl⟩
  obtain ⟨v, hv⟩ : ∃ v, v = (-(X.x - O.x) * S + (X.y - O.y) * C) / b := ⟨_, rfl⟩
  have hdl : l * q - m * n = 1 / (a * b) := by
    rw [hl, hm, hn, hq]
    field_simp
    linear_combination (B 0 0 * B 1 1 - B 0 1 * B 1 0) * hsc + hBd
  have hval : ∀ Z, ellVal O a b α Z =
      (l * (mdot B (Z - X)).x + m * (mdot B (Z - X)).y + u) ^ 2 + (n * (mdot B (Z - X)).x + q * (mdot B (Z - X)).y + v) ^ 2 - 1 := by
    intro Z
    have e1 : (axisCoord O α Z).x / a = l * (mdot B (Z - X)).x + m * (mdot B (Z - X)).y + u := by
      unfold axisCoord
      dsimp only
      rw [← hC, ← hS, hl, hm, hu]
      simp
      field_simp
      linear_combination (-(C * (Z.x - X.x) + S * (Z.y - X.y))) * hBd
    have e2 : (axisCoord O α Z).y / b = n * (mdot B (Z - X)).x + q * (mdot B (Z - X)).y + v := by
      unfold axisCoord
      dsimp only
      rw [← hC, ← hS, hn, hq, hv]
      simp
      field_simp
      linear_combination (-(-S * (Z.x - X.x) + C * (Z.y - X.y))) * hBd
    unfold ellVal
    rw [e1, e2]
  have k0 := (onEllipse_iff ha hb).1 (hon 0)
  have k1 := (onEllipse_iff ha hb).1 (hon 1)
  have k2 := (onEllipse_iff ha hb).1 (hon 2)
  have k3 := (onEllipse_iff ha hb).1 (hon 3)
  rw [hval, hF.m0] at k0
  rw [hval, hF.m1] at k1
  rw [hval, hF.m2] at k2
  rw [hval, hF.m3] at k3
  dsimp only at k0 k1 k2 k3
  obtain ⟨A, hA⟩ : ∃ A, A = l ^ 2 + n ^ 2 := ⟨_, rfl⟩
  obtain ⟨G, hG⟩ : ∃ G, G = m ^ 2 + q ^ 2 := ⟨_, rfl⟩
  obtain ⟨be, hbe⟩ : ∃ be, be = l * m + n * q := ⟨_, rfl⟩
  obtain ⟨de, hde⟩ : ∃ de, de = 2 * (l * u + n * v) := ⟨_, rfl⟩
  obtain ⟨ep, hep⟩ : ∃ ep, ep = 2 * (m * u + q * v) := ⟨_, rfl⟩
  obtain ⟨ph, hph⟩ : ∃ ph, ph = u ^ 2 + v ^ 2 - 1 := ⟨_, rfl⟩
  have j0 : A * a0 ^ 2 - de * a0 + ph = 0 := by rw [hA, hde, hph]; linear_combination k0
  have j2 : A * a2 ^ 2 + de * a2 + ph = 0 := by rw [hA, hde, hph]; linear_combination k2
  have j1 : G * a1 ^ 2 + ep * a1 + ph = 0 := by rw [hG, hep, hph]; linear_combination k1
  have j3 : G * a3 ^ 2 - ep * a3 + ph = 0 := by rw [hG, hep, hph]; linear_combination k3
  have hde' : de = -A * M := by
    apply mul_left_cancel₀ (show a0 + a2 ≠ 0 by positivity)
    rw [hM]; linear_combination j2 - j0
  have hph' : ph = -A * p := by rw [hp]; rw [hde', hM] at j0; linear_combination j0
  have hep' : ep = -G * M' := by
    apply mul_left_cancel₀ (show a1 + a3 ≠ 0 by positivity)
    rw [hM']; linear_combination j1 - j3
  have hph2 : ph = -G * p := by
    rw [hp, heq]; rw [hep', hM'] at j1; linear_combination j1
  have hGA : G = A := by
    apply mul_right_cancel₀ hpp.ne'
    linarith
  have hAG : A * G - be ^ 2 = (1 / (a * b)) ^ 2 := by rw [hA, hG, hbe, ← hdl]; ring
  have hAGp : 0 < A * G - be ^ 2 := by rw [hAG]; positivity
  have hA0 : A ≠ 0 := by
    rintro h0
    rw [h0, zero_mul] at hAGp
    have := sq_nonneg be
    linarith
  have hAp : 0 < A := lt_of_le_of_ne (by rw [hA]; positivity) (Ne.symm hA0)
  obtain ⟨s, hs⟩ : ∃ s, s = be / A := ⟨_, rfl⟩
  have hbs : be = A * s := by rw [hs]; field_simp
  have h1s : A ^ 2 * (1 - s ^ 2) = (1 / (a * b)) ^ 2 := by rw [← hAG, hGA, hbs]; ring
  have h1sp : 0 < 1 - s ^ 2 := by
    have : 0 < A ^ 2 * (1 - s ^ 2) := by rw [h1s]; positivity
    exact (mul_pos_iff_of_pos_left (by positivity)).1 this
  have hsl := abs_lt.1 ((sq_lt_one_iff_abs_lt_one s).1 (by linarith))
  have hs1 : -1 < s := hsl.1
  have hs2 : s < 1 := hsl.2
  have hnum := num_pos (M := M) (M' := M') hpp hs1 hs2
  -- the determinant of the conic
  have hdisc : A * num p M M' s = 4 * (1 - s ^ 2) := by
    have e : A * G * ph + be * (ep / 2) * (de / 2) + (de / 2) * be * (ep / 2) - (de / 2) ^ 2 * G - (ep / 2) ^ 2 * A - be ^ 2 * ph =
        -(l * q - m * n) ^ 2 := by
      rw [hA, hG, hbe, hde, hep, hph]; ring
    rw [hdl, ← h1s, hph', hep', hde', hGA, hbs] at e
    apply mul_left_cancel₀ (pow_ne_zero 2 hA0)
    unfold num
    linear_combination (-4) * e
  have hfac : ∀ Z, ellVal O a b α Z = A * conic p M M' s (mdot B (Z - X)) := by
    intro Z
    rw [hval]
    obtain ⟨z, hz⟩ : ∃ z, z = mdot B (Z - X) := ⟨_, rfl⟩
    rw [← hz]
    have e1 : (l * z.x + m * z.y + u) ^ 2 + (n * z.x + q * z.y + v) ^ 2 - 1 =
        A * z.x ^ 2 + 2 * be * z.x * z.y + G * z.y ^ 2 + de * z.x + ep * z.y + ph := by
      rw [hA, hG, hbe, hde, hep, hph]; ring
    rw [e1, hph', hep', hde', hGA, hbs]
    unfold conic
    ring
  refine ⟨s, hs1, hs2, ?_, ?_, ?_⟩
  · rw [← hp, ← hM, ← hM']
    unfold areaSq
    rw [eq_div_iff (by positivity)]
    have hab : (a * b) ^ 2 * (A ^ 2 * (1 - s ^ 2)) = 1 := by
      rw [h1s]; field_simp
    apply mul_left_cancel₀ (pow_ne_zero 2 hA0)
    have e2 : A ^ 2 * num p M M' s ^ 2 = 16 * (1 - s ^ 2) ^ 2 := by
      rw [← mul_pow, hdisc]; ring
    linear_combination 16 * (1 - s ^ 2) ^ 2 * hab - e2
  · intro Z
    rw [← hp, ← hM, ← hM', inEllipse_iff, hfac]
    constructor
    · intro h
      by_contra hcon
      push Not at hcon
      exact absurd (mul_pos hAp hcon) (not_lt.2 h)
    · intro h
      exact mul_nonpos_of_nonneg_of_nonpos hAp.le h
  · intro Z
    rw [← hp, ← hM, ← hM', onEllipse_iff ha hb, hfac]
    exact ⟨fun h => (mul_eq_zero.1 h).resolve_left hA0, fun h => by rw [h, mul_zero]⟩

/-- The area of the ellipse of a matrix. -/
theorem eigen_area {O : Pt} {S : Matrix (Fin 2) (Fin 2) ℝ} (hS : PosDef2 S) {g : Ellipse.Eigh} (hg : Ellipse.IsEigh S g)
    {e : Ellipse} (h : Ellipse.from_center_and_eigen O g = .ok e) : S.det * (e.rmajor * e.rminor) ^ 2 = 1 := by
  obtain ⟨s00, s10, s11⟩ := eigh_spectral hg
  have u0 := hg.unit0
  have hdet : S.det = g.val0 * g.val1 := by
    rw [Matrix.det_fin_two, hS.1, s00, s10, s11]
    linear_combination (g.val0 * g.val1 * (g.vec0.x ^ 2 + g.vec0.y ^ 2 + 1)) * u0
  unfold Ellipse.from_center_and_eigen at h
  split_ifs at h with h0
  push Not at h0
  dsimp only at h
  unfold mkEllipse at h
  split_ifs at h with h1 h2
  have he : e = _ := (Except.ok.inj h).symm
  rw [he, hdet]
  dsimp only
  have v0 := h0.1
  have v1 := h0.2
  rw [mul_pow, div_pow, div_pow, Real.sq_sqrt v0.le, Real.sq_sqrt v1.le]
  field_simp

theorem cp_of_ellipse {P : Fin 4 → Pt} (hd : ∀ i j, i ≠ j → P i ≠ P j) {O : Pt} {a b α : ℝ} (ha : 0 < a) (hb : 0 < b)
    (hon : ∀ i, OnEllipse O a b α (P i)) : ConvexPosition P := by
  rintro i ⟨w, hw0, hwi, hw1, hP⟩
  have hv : ∀ j, ((axisCoord O α (P j)).x / a) ^ 2 + ((axisCoord O α (P j)).y / b) ^ 2 = 1 := by
    intro j
    have := (onEllipse_iff ha hb).1 (hon j)
    unfold ellVal at this
    linarith
  obtain ⟨f, hf⟩ : ∃ f : Fin 4 → ℝ, f = fun j => (axisCoord O α (P j)).x / a := ⟨_, rfl⟩
  obtain ⟨g, hg⟩ : ∃ g : Fin 4 → ℝ, g = fun j => (axisCoord O α (P j)).y / b := ⟨_, rfl⟩
  have hfg : ∀ j, f j ^ 2 + g j ^ 2 = 1 := fun j => by rw [hf, hg]; exact hv j
  have hPx := congrArg Pt.x hP
  have hPy := congrArg Pt.y hP
  rw [Fin.sum_univ_four] at hw1
  simp only [Fin.sum_univ_four] at hPx hPy
  have hfi : f i = w 0 * f 0 + w 1 * f 1 + w 2 * f 2 + w 3 * f 3 := by
    rw [hf]; unfold axisCoord; dsimp only
    rw [hPx, hPy]
    field_simp
    linear_combination (-(O.x * cos α + O.y * sin α)) * (1 - hw1)
  have hgi : g i = w 0 * g 0 + w 1 * g 1 + w 2 * g 2 + w 3 * g 3 := by
    rw [hg]; unfold axisCoord; dsimp only
    rw [hPx, hPy]
    field_simp
    linear_combination (-(-O.x * sin α + O.y * cos α)) * (1 - hw1)
  have hsum : w 0 * ((f 0 - f i) ^ 2 + (g 0 - g i) ^ 2) + w 1 * ((f 1 - f i) ^ 2 + (g 1 - g i) ^ 2) +
      w 2 * ((f 2 - f i) ^ 2 + (g 2 - g i) ^ 2) + w 3 * ((f 3 - f i) ^ 2 + (g 3 - g i) ^ 2) = 0 := by
    have e0 := hfg 0; have e1 := hfg 1; have e2 := hfg 2; have e3 := hfg 3; have ei := hfg i
    linear_combination w 0 * e0 + w 1 * e1 + w 2 * e2 + w 3 * e3 - (2 - w 0 - w 1 - w 2 - w 3) * ei + 2 * f i * hfi + 2 * g i * hgi + 2 * hw1
  have hz : ∀ j, 0 ≤ w j * ((f j - f i) ^ 2 + (g j - g i) ^ 2) := fun j => mul_nonneg (hw0 j) (by positivity)
  have hzero : ∀ j, w j * ((f j - f i) ^ 2 + (g j - g i) ^ 2) = 0 := by
    intro j
    have z0 := hz 0; have z1 := hz 1; have z2 := hz 2; have z3 := hz 3
    fin_cases j
    · show w 0 * ((f 0 - f i) ^ 2 + (g 0 - g i) ^ 2) = 0; linarith
    · show w 1 * ((f 1 - f i) ^ 2 + (g 1 - g i) ^ 2) = 0; linarith
    · show w 2 * ((f 2 - f i) ^ 2 + (g 2 - g i) ^ 2) = 0; linarith
    · show w 3 * ((f 3 - f i) ^ 2 + (g 3 - g i) ^ 2) = 0; linarith
  have hwz : ∀ j, w j = 0 := by
    intro j
    by_cases hji : j = i
    · rw [hji]; exact hwi
    · rcases mul_eq_zero.1 (hzero j) with h | h
      · exact h
      · exfalso
        have q1 := sq_nonneg (f j - f i)
        have q2 := sq_nonneg (g j - g i)
        have h1 : f j = f i := sub_eq_zero.1 (pow_eq_zero_iff two_ne_zero |>.1 (by linarith))
        have h2 : g j = g i := sub_eq_zero.1 (pow_eq_zero_iff two_ne_zero |>.1 (by linarith))
        rw [hf] at h1
        rw [hg] at h2
        unfold axisCoord at h1 h2
        dsimp only at h1 h2
        have h1' := (div_left_inj' ha.ne').1 h1
        have h2' := (div_left_inj' hb.ne').1 h2
        have hsc := sin_sq_add_cos_sq α
        apply hd j i hji
        ext
        · linear_combination cos α * h1' - sin α * h2' - ((P j).x - (P i).x) * hsc
        · linear_combination sin α * h1' + cos α * h2' - ((P j).y - (P i).y) * hsc
  rw [hwz 0, hwz 1, hwz 2, hwz 3] at hw1
  norm_num at hw1

/-- A real cubic polynomial has a real root. -/
theorem exists_real_root (b c d : ℝ) : ∃ x : ℝ, x ^ 3 + b * x ^ 2 + c * x + d = 0 := by
  obtain ⟨R, hR⟩ : ∃ R, R = 1 + |b| + |c| + |d| := ⟨_, rfl⟩
  have hb := abs_nonneg b
  have hc := abs_nonneg c
  have hd := abs_nonneg d
  have hR1 : 1 ≤ R := by linarith
  have hbound : ∀ x : ℝ, |x| = R → |b * x ^ 2 + c * x + d| < R ^ 3 := by
    intro x hx
    have h1 : |b * x ^ 2 + c * x + d| ≤ |b| * R ^ 2 + |c| * R + |d| := by
      refine (abs_add_le _ _).trans ?_
      refine add_le_add ((abs_add_le _ _).trans ?_) le_rfl
      rw [abs_mul, abs_mul, abs_pow, hx]
    have h2 : |c| * R ≤ |c| * R ^ 2 := mul_le_mul_of_nonneg_left (by nlinarith) hc
    have h3 : |d| ≤ |d| * R ^ 2 := le_mul_of_one_le_right hd (by nlinarith)
    have h4 : |b| * R ^ 2 + |c| * R ^ 2 + |d| * R ^ 2 = (R - 1) * R ^ 2 := by rw [hR]; ring
    nlinarith
  have hcont : ContinuousOn (fun x : ℝ => x ^ 3 + b * x ^ 2 + c * x + d) (Set.Icc (-R) R) := by fun_prop
  have h1 := (abs_lt.1 (hbound R (abs_of_nonneg (by linarith)))).1
  have h2 := (abs_lt.1 (hbound (-R) (by rw [abs_neg, abs_of_nonneg (by linarith)]))).2
  obtain ⟨x, -, hx⟩ := intermediate_value_Icc (by linarith : -R ≤ R) hcont
    (show (0 : ℝ) ∈ Set.Icc _ _ from ⟨by nlinarith, by nlinarith⟩)
  exact ⟨x, hx⟩

theorem exists_roots (c0 c1 c2 c3 : ℝ) : ∃ l : List ℂ, c0 ≠ 0 → ∀ z : ℂ,
    (c0 : ℂ) * z ^ 3 + c1 * z ^ 2 + c2 * z + c3 = c0 * (l.map fun r => z - r).prod := by
  by_cases h0 : c0 = 0
  · exact ⟨[], fun h => absurd h0 h⟩
  obtain ⟨x, hx⟩ := exists_real_root (c1 / c0) (c2 / c0) (c3 / c0)
  obtain ⟨b, hb⟩ : ∃ b : ℂ, b = (c1 / c0 : ℝ) := ⟨_, rfl⟩
  obtain ⟨c, hc⟩ : ∃ c : ℂ, c = (c2 / c0 : ℝ) := ⟨_, rfl⟩
  obtain ⟨d, hd⟩ : ∃ d : ℂ, d = (c3 / c0 : ℝ) := ⟨_, rfl⟩
  have hx' : (x : ℂ) ^ 3 + b * x ^ 2 + c * x + d = 0 := by
    rw [hb, hc, hd]
    exact_mod_cast hx
  obtain ⟨p, hp⟩ : ∃ p : ℂ, p = x + b := ⟨_, rfl⟩
  obtain ⟨q, hq⟩ : ∃ q : ℂ, q = x ^ 2 + b * x + c := ⟨_, rfl⟩
  obtain ⟨w, hw⟩ : ∃ w : ℂ, w ^ 2 = p ^ 2 - 4 * q :=
    ⟨(p ^ 2 - 4 * q) ^ ((2 : ℕ) : ℂ)⁻¹, Complex.cpow_nat_inv_pow _ two_ne_zero⟩
  refine ⟨[(x : ℂ), (-p + w) / 2, (-p - w) / 2], fun _ z => ?_⟩
  have h0' : (c0 : ℂ) ≠ 0 := by exact_mod_cast h0
  have e1 : (c1 : ℂ) = c0 * b := by rw [hb]; push_cast; field_simp
  have e2 : (c2 : ℂ) = c0 * c := by rw [hc]; push_cast; field_simp
  have e3 : (c3 : ℂ) = c0 * d := by rw [hd]; push_cast; field_simp
  rw [e1, e2, e3]
  simp only [List.map_cons, List.map_nil, List.prod_cons, List.prod_nil, mul_one]
  have e : (z - (-p + w) / 2) * (z - (-p - w) / 2) = z ^ 2 + p * z + q := by linear_combination (-1 / 4) * hw
  rw [e, hp, hq]
  linear_combination (c0 : ℂ) * hx'

/-- The contracts of the numpy functions can be met. -/
theorem exists_env : ∃ env : Env, env.Ok := by
  refine ⟨⟨fun v => Tuple.sort v, fun c0 c1 c2 c3 => (exists_roots c0 c1 c2 c3).choose,
    fun S => (_root_.exists_eigh S).choose⟩, ⟨fun v i j h => Tuple.monotone_sort v h, ?_, ?_⟩⟩
  · intro c0 c1 c2 c3
    exact (exists_roots c0 c1 c2 c3).choose_spec
  · intro S
    exact (_root_.exists_eigh S).choose_spec

end Boundary4

/-- C111: with `np.float` read as `float`, for four points in convex position `from_boundary4` returns an ellipse through
the four points.  It has the smallest area among all the ellipses through the four points, and it is the only one with that
area. -/
theorem C111_from_boundary4 (env : Boundary4.Env) (henv : env.Ok) (P : Fin 4 → Pt) (h : ConvexPosition P) :
    ∃ e, Boundary4.from_boundary4 env P = .ok e ∧ e.Valid ∧ e.rminor ≤ e.rmajor ∧ (∀ i, OnE e (P i)) ∧
      ∀ (O : Pt) (a b α : ℝ), 0 < a → 0 < b → (∀ i, OnEllipse O a b α (P i)) →
        ellipseArea e.rmajor e.rminor ≤ ellipseArea a b ∧
        (ellipseArea a b ≤ ellipseArea e.rmajor e.rminor → SameRegion O a b α e.center e.rmajor e.rminor e.rad) := by
  obtain ⟨τ, hsort, hcw⟩ := Boundary4.sorted_cw henv h
  obtain ⟨X, B, a0, a1, a2, a3, r, C, F, k, hF, hr1, hr2, hr, hcf, hsym, hk, hpos, hval, hdet⟩ :=
    Boundary4.centerForm_ok henv (P := fun i => P (τ i)) hcw
  have hPD : PosDef2 F := ⟨hsym, hpos⟩
  obtain ⟨e, he, hv, hm, hc, hon⟩ := C65_from_center_and_matrix C F hPD (env.eigh F) (henv.eigh F)
  have harea := Boundary4.eigen_area hPD (henv.eigh F) he
  have hpp : 0 < a0 * a2 := mul_pos hF.pos0 hF.pos2
  have hconic : ∀ i, Boundary4.conic (a0 * a2) (a2 - a0) (a1 - a3) r (Boundary4.mdot B (P (τ i) - X)) = 0 := by
    have heq := hF.eq
    intro i
    fin_cases i
    · show Boundary4.conic _ _ _ _ (Boundary4.mdot B (P (τ 0) - X)) = 0
      rw [hF.m0]; unfold Boundary4.conic; dsimp only; ring
    · show Boundary4.conic _ _ _ _ (Boundary4.mdot B (P (τ 1) - X)) = 0
      rw [hF.m1]; unfold Boundary4.conic; dsimp only; linear_combination -heq
    · show Boundary4.conic _ _ _ _ (Boundary4.mdot B (P (τ 2) - X)) = 0
      rw [hF.m2]; unfold Boundary4.conic; dsimp only; ring
    · show Boundary4.conic _ _ _ _ (Boundary4.mdot B (P (τ 3) - X)) = 0
      rw [hF.m3]; unfold Boundary4.conic; dsimp only; linear_combination -heq
  have hres : Boundary4.from_boundary4 env P = .ok e := by
    unfold Boundary4.from_boundary4
    rw [hsort, hcf, Res.ok_bind]
    exact he
  refine ⟨e, hres, hv, hm, ?_, ?_⟩
  · intro i
    have : P i = P (τ (τ.symm i)) := by simp
    rw [this, hon]
    have k1 := hval (P (τ (τ.symm i)))
    rw [hconic, zero_div] at k1
    linarith
  · intro O a b α ha hb hthr
    obtain ⟨s, hs1, hs2, hsa, hsr, -⟩ := Boundary4.through_frame hF ha hb (fun i => hthr (τ i))
    have hdp : 0 < F.det := by
      by_contra hcon
      push Not at hcon
      nlinarith [sq_nonneg (e.rmajor * e.rminor)]
    have hea : 16 * (e.rmajor * e.rminor) ^ 2 = Boundary4.areaSq (a0 * a2) (a2 - a0) (a1 - a3) r := by
      apply mul_left_cancel₀ hdp.ne'
      linarith
    have hep : 0 < e.rmajor * e.rminor := mul_pos hv.1 hv.2
    have hab : 0 < a * b := mul_pos ha hb
    have hregion : s = r → SameRegion O a b α e.center e.rmajor e.rminor e.rad := by
      intro hsr' Z
      rw [hsr Z, hsr', inEllipse_quadForm hv hPD (by rw [hc]; exact hon), hc]
      have k1 := hval Z
      constructor
      · intro h0
        have : Boundary4.conic (a0 * a2) (a2 - a0) (a1 - a3) r (Boundary4.mdot B (Z - X)) / k ≤ 0 :=
          div_nonpos_of_nonpos_of_nonneg h0 hk.le
        linarith
      · intro h0
        by_contra hcon
        push Not at hcon
        have := div_pos hcon hk
        linarith
    unfold ellipseArea
    by_cases hsr' : s = r
    · refine ⟨?_, fun _ => hregion hsr'⟩
      rw [hsr', ← hea] at hsa
      have : a * b = e.rmajor * e.rminor := by nlinarith
      nlinarith [pi_pos]
    · have hlt := Boundary4.areaSq_min (M := a2 - a0) (M' := a1 - a3) hpp hr hr1 hr2 hs1 hs2 hsr'
      rw [← hea, ← hsa] at hlt
      have hlt2 : e.rmajor * e.rminor < a * b := by
        by_contra hcon
        push Not at hcon
        nlinarith
      have hlt3 : π * (e.rmajor * e.rminor) < π * (a * b) := mul_lt_mul_of_pos_left hlt2 pi_pos
      exact ⟨by linarith, fun h0 => by linarith⟩

/-- C111: four different points are in convex position exactly when there is an ellipse through them. -/
theorem C111_convex_position (P : Fin 4 → Pt) (hd : ∀ i j, i ≠ j → P i ≠ P j) :
    ConvexPosition P ↔ ∃ (O : Pt) (a b α : ℝ), 0 < a ∧ 0 < b ∧ ∀ i, OnEllipse O a b α (P i) := by
  constructor
  · intro h
    obtain ⟨env, henv⟩ := Boundary4.exists_env
    obtain ⟨e, -, hv, -, hon, -⟩ := C111_from_boundary4 env henv P h
    exact ⟨e.center, e.rmajor, e.rminor, e.rad, hv.1, hv.2, hon⟩
  · rintro ⟨O, a, b, α, ha, hb, hon⟩
    exact Boundary4.cp_of_ellipse hd ha hb hon

/-- C111: for four different points, `from_boundary4` returns an ellipse through the four points exactly when they are in
convex position. -/
theorem C111_exact (env : Boundary4.Env) (henv : env.Ok) (P : Fin 4 → Pt) (hd : ∀ i j, i ≠ j → P i ≠ P j) :
    (∃ e, Boundary4.from_boundary4 env P = .ok e ∧ e.Valid ∧ ∀ i, OnE e (P i)) ↔ ConvexPosition P := by
  constructor
  · rintro ⟨e, -, hv, hon⟩
    exact Boundary4.cp_of_ellipse hd hv.1 hv.2 hon
  · intro h
    obtain ⟨e, he, hv, -, hon, -⟩ := C111_from_boundary4 env henv P h
    exact ⟨e, he, hv, hon⟩

/-- C111: for four different points of an ellipse, for instance the points drawn by `random_points`, the result is an
ellipse through the four points whose area is at most the area of the ellipse the points come from. -/
theorem C111_points_of_ellipse (env : Boundary4.Env) (henv : env.Ok) (E : Ellipse) (hE : E.Valid) (P : Fin 4 → Pt)
    (hd : ∀ i j, i ≠ j → P i ≠ P j) (hon : ∀ i, OnE E (P i)) :
    ∃ e, Boundary4.from_boundary4 env P = .ok e ∧ (∀ i, OnE e (P i)) ∧
      ellipseArea e.rmajor e.rminor ≤ ellipseArea E.rmajor E.rminor := by
  obtain ⟨e, he, -, -, hone, hmin⟩ := C111_from_boundary4 env henv P (Boundary4.cp_of_ellipse hd hE.1 hE.2 hon)
  exact ⟨e, he, hone, (hmin _ _ _ _ hE.1 hE.2 hon).1⟩

/-- C111: the region of the result does not depend on the order of the points, nor on how numpy breaks ties, orders the roots
or chooses the eigenvectors. -/
theorem C111_order (env env' : Boundary4.Env) (henv : env.Ok) (henv' : env'.Ok) (P : Fin 4 → Pt) (h : ConvexPosition P)
    (σ : Equiv.Perm (Fin 4)) (e e' : Ellipse) (he : Boundary4.from_boundary4 env P = .ok e)
    (he' : Boundary4.from_boundary4 env' (fun i => P (σ i)) = .ok e') :
    SameRegion e'.center e'.rmajor e'.rminor e'.rad e.center e.rmajor e.rminor e.rad := by
  obtain ⟨e1, h1, hv1, -, hon1, hmin1⟩ := C111_from_boundary4 env henv P h
  have hd : ∀ i j, i ≠ j → P i ≠ P j := fun i j hij => Boundary4.cp_distinct h hij
  have hσ : ConvexPosition fun i => P (σ i) :=
    Boundary4.cp_of_ellipse (fun i j hij => hd _ _ (fun hc => hij (σ.injective hc))) hv1.1 hv1.2 (fun i => hon1 (σ i))
  obtain ⟨e2, h2, hv2, -, hon2, hmin2⟩ := C111_from_boundary4 env' henv' _ hσ
  rw [h1] at he
  rw [h2] at he'
  rw [← Except.ok.inj he, ← Except.ok.inj he']
  refine (hmin1 _ _ _ _ hv2.1 hv2.2 fun i => ?_).2 ?_
  · have := hon2 (σ.symm i)
    simp only [Equiv.apply_symm_apply] at this
    exact this
  · exact (hmin2 _ _ _ _ hv1.1 hv1.2 fun i => hon1 (σ i)).1

/-- The four corners of a square, given in an order which does not go round it: the result is the circumscribed circle. -/
example (env : Boundary4.Env) (henv : env.Ok) :
    ∃ e, Boundary4.from_boundary4 env ![⟨1, 0⟩, ⟨-1, 0⟩, ⟨0, 1⟩, ⟨0, -1⟩] = .ok e ∧
      ∀ Z : Pt, InEllipse e.center e.rmajor e.rminor e.rad Z ↔ Z.x ^ 2 + Z.y ^ 2 ≤ 1 := by
  have hcirc : ∀ i, OnEllipse ⟨0, 0⟩ 1 1 0 ((![⟨1, 0⟩, ⟨-1, 0⟩, ⟨0, 1⟩, ⟨0, -1⟩] : Fin 4 → Pt) i) := by
    intro i
    rw [onEllipse_iff one_pos one_pos]
    fin_cases i <;> simp [ellVal, axisCoord]
  have hd : ∀ i j, i ≠ j → (![⟨1, 0⟩, ⟨-1, 0⟩, ⟨0, 1⟩, ⟨0, -1⟩] : Fin 4 → Pt) i ≠ (![⟨1, 0⟩, ⟨-1, 0⟩, ⟨0, 1⟩, ⟨0, -1⟩] : Fin 4 → Pt) j := by
    intro i j
    fin_cases i <;> fin_cases j <;> simp [Pt.ext_iff] <;> norm_num
  obtain ⟨e, he, hv, -, hon, hmin⟩ := C111_from_boundary4 env henv _ (Boundary4.cp_of_ellipse hd one_pos one_pos hcirc)
  refine ⟨e, he, fun Z => ?_⟩
  have hF : Boundary4.Frame (![⟨-1, 0⟩, ⟨0, 1⟩, ⟨1, 0⟩, ⟨0, -1⟩] : Fin 4 → Pt) ⟨0, 0⟩ 1 1 1 1 1 :=
    ⟨one_pos, one_pos, one_pos, one_pos, rfl, by simp, by ext <;> simp [Boundary4.mdot], by ext <;> simp [Boundary4.mdot],
      by ext <;> simp [Boundary4.mdot], by ext <;> simp [Boundary4.mdot]⟩
  obtain ⟨s, hs1, hs2, hsa, -⟩ := Boundary4.through_frame hF hv.1 hv.2 (by
    intro i
    fin_cases i
    · exact hon 1
    · exact hon 2
    · exact hon 0
    · exact hon 3)
  have harea : 1 ≤ e.rmajor * e.rminor := by
    have h1 : 0 < 1 - s ^ 2 := by nlinarith
    have h2 : Boundary4.areaSq (1 * 1) (1 - 1) (1 - 1) s = 16 / (1 - s ^ 2) := by
      unfold Boundary4.areaSq Boundary4.num
      rw [div_eq_div_iff (by positivity) h1.ne']
      ring
    rw [h2] at hsa
    have h3 : 16 ≤ 16 / (1 - s ^ 2) := by
      rw [le_div_iff₀ h1]; nlinarith [sq_nonneg s]
    have h4 := mul_pos hv.1 hv.2
    nlinarith
  have hreg := (hmin ⟨0, 0⟩ 1 1 0 one_pos one_pos hcirc).2 (by
    unfold ellipseArea
    nlinarith [pi_pos]) Z
  rw [← hreg]
  simp [InEllipse, axisCoord]

/-- The corners of a triangle and a point inside it are not in convex position. -/
example : ¬ ConvexPosition ![⟨0, 0⟩, ⟨3, 0⟩, ⟨0, 3⟩, ⟨1, 1⟩] := by
  intro h
  apply h 3
  refine ⟨![1 / 3, 1 / 3, 1 / 3, 0], ?_, rfl, ?_, ?_⟩
  · intro j; fin_cases j <;> norm_num
  · simp [Fin.sum_univ_four]; norm_num
  · ext <;> simp [Fin.sum_univ_four]

/-- The four points where the ellipse of semi-axes 2 and 1 meets its axes are in convex position, so that the code gives an ellipse
through them, with an area of at most that of the first one. -/
example (env : Boundary4.Env) (henv : env.Ok) :
    (∃ e, Boundary4.from_boundary4 env ![⟨2, 0⟩, ⟨0, 1⟩, ⟨-2, 0⟩, ⟨0, -1⟩] = .ok e ∧
      OnE e ⟨0, 1⟩ ∧ ellipseArea e.rmajor e.rminor ≤ ellipseArea 2 1) ∧
    ConvexPosition ![⟨2, 0⟩, ⟨0, 1⟩, ⟨-2, 0⟩, ⟨0, -1⟩] ∧
    ((∃ e, Boundary4.from_boundary4 env ![⟨2, 0⟩, ⟨0, 1⟩, ⟨-2, 0⟩, ⟨0, -1⟩] = .ok e ∧ e.Valid ∧
      ∀ i, OnE e ((![⟨2, 0⟩, ⟨0, 1⟩, ⟨-2, 0⟩, ⟨0, -1⟩] : Fin 4 → Pt) i))) := by
  have hE : (⟨⟨0, 0⟩, 2, 1, 0, true⟩ : Ellipse).Valid := ⟨by norm_num, by norm_num⟩
  have hd : ∀ i j, i ≠ j → (![⟨2, 0⟩, ⟨0, 1⟩, ⟨-2, 0⟩, ⟨0, -1⟩] : Fin 4 → Pt) i ≠ (![⟨2, 0⟩, ⟨0, 1⟩, ⟨-2, 0⟩, ⟨0, -1⟩] : Fin 4 → Pt) j := by
    intro i j h
    fin_cases i <;> fin_cases j <;> simp [Pt.ext_iff] at h ⊢ <;> norm_num
  have hon : ∀ i, OnE ⟨⟨0, 0⟩, 2, 1, 0, true⟩ ((![⟨2, 0⟩, ⟨0, 1⟩, ⟨-2, 0⟩, ⟨0, -1⟩] : Fin 4 → Pt) i) := by
    intro i
    unfold OnE
    rw [onEllipse_iff (by norm_num) (by norm_num)]
    unfold ellVal axisCoord Ellipse.rad
    fin_cases i <;> simp
  have hc : ConvexPosition ![⟨2, 0⟩, ⟨0, 1⟩, ⟨-2, 0⟩, ⟨0, -1⟩] :=
    (C111_convex_position _ hd).2 ⟨_, _, _, _, hE.1, hE.2, hon⟩
  obtain ⟨e, h, h1, h2⟩ := C111_points_of_ellipse env henv _ hE _ hd hon
  exact ⟨⟨e, h, h1 1, h2⟩, hc, (C111_exact env henv _ hd).2 hc⟩
