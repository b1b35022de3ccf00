import Verif.Lemmas.TriGasketPack
import Verif.Props.Malfatti

/-! The first holes of the triangular gasket. -/

open Spec Real Classical GV

namespace TriGasket
noncomputable section

/-- The unit normal of the line `UV`, on the left side when `s = 1`. -/
def nrm (s : ℝ) (U V : Pt) : Pt := (s / Spec.dist U V) • (⟨-(V - U).y, (V - U).x⟩ : Pt)

theorem nrm_dot {s : ℝ} {U V : Pt} (h : U ≠ V) (P : Pt) : dot (nrm s U V) (P - U) * Spec.dist U V = s * cross (V - U) (P - U) := by
  have := dist_pos_of_ne h
  simp only [nrm, dot, cross, Pt.smul_x, Pt.smul_y, Pt.sub_x, Pt.sub_y]
  field_simp
  ring

theorem nrm_unit {s : ℝ} (hs : s ^ 2 = 1) {U V : Pt} (h : U ≠ V) : dot (nrm s U V) (nrm s U V) = 1 := by
  have h0 := dist_pos_of_ne h
  have h2 := dist_sq U V
  have : dot (nrm s U V) (nrm s U V) * Spec.dist U V ^ 2 = 1 * Spec.dist U V ^ 2 := by
    conv_rhs => rw [h2]
    simp only [nrm, dot, sqDist, Pt.smul_x, Pt.smul_y, Pt.sub_x, Pt.sub_y]
    field_simp
    linear_combination ((V.x - U.x) ^ 2 + (V.y - U.y) ^ 2) * hs
  exact mul_right_cancel₀ (by positivity) this

theorem nrm_perp (s : ℝ) (U V : Pt) : dot (nrm s U V) (V - U) = 0 := by
  simp only [nrm, dot, Pt.smul_x, Pt.smul_y, Pt.sub_x, Pt.sub_y]; ring

theorem nrm_perp' (s : ℝ) (U V : Pt) : dot (nrm s U V) (U - V) = 0 := by
  simp only [nrm, dot, Pt.smul_x, Pt.smul_y, Pt.sub_x, Pt.sub_y]; ring

theorem nrm_shift (s : ℝ) (U V : Pt) : half (nrm s U V) V = half (nrm s U V) U := half_shift (nrm_perp s U V)

/-- The normals of the three sides. -/
theorem nrm_sum {s : ℝ} {A B C : Pt} (h1 : A ≠ B) (h2 : B ≠ C) (h3 : C ≠ A) (X : Pt) :
    Spec.dist B C * dot (nrm s B C) X + Spec.dist C A * dot (nrm s C A) X + Spec.dist A B * dot (nrm s A B) X = 0 := by
  have := dist_pos_of_ne h1
  have := dist_pos_of_ne h2
  have := dist_pos_of_ne h3
  simp only [nrm, dot, Pt.smul_x, Pt.smul_y, Pt.sub_x, Pt.sub_y]
  field_simp
  ring

theorem nrm_cross {s : ℝ} (hs : s ^ 2 = 1) {U V W : Pt} (h1 : U ≠ V) (h2 : V ≠ W) :
    cross (nrm s U V) (nrm s V W) * (Spec.dist U V * Spec.dist V W) = cross (V - U) (W - V) := by
  have := dist_pos_of_ne h1
  have := dist_pos_of_ne h2
  simp only [nrm, cross, Pt.smul_x, Pt.smul_y, Pt.sub_x, Pt.sub_y]
  field_simp
  linear_combination ((V.x - U.x) * (W.y - V.y) - (V.y - U.y) * (W.x - V.x)) * hs

/-- Two sides of a non-flat triangle are not parallel. -/
theorem nrm_angle {s : ℝ} (hs : s ^ 2 = 1) {U V W : Pt} (h1 : U ≠ V) (h2 : V ≠ W) (h : cross (V - U) (W - V) ≠ 0) :
    dot (nrm s U V) (nrm s V W) < 1 ∧ -1 < dot (nrm s U V) (nrm s V W) := by
  have n1 := nrm_unit hs h1
  have n2 := nrm_unit hs h2
  have n3 := nrm_cross hs h1 h2
  have hc : cross (nrm s U V) (nrm s V W) ≠ 0 := by
    intro e; rw [e, zero_mul] at n3; exact h n3.symm
  have l : dot (nrm s U V) (nrm s V W) ^ 2 + cross (nrm s U V) (nrm s V W) ^ 2 = 1 := by
    have : dot (nrm s U V) (nrm s V W) ^ 2 + cross (nrm s U V) (nrm s V W) ^ 2 =
        dot (nrm s U V) (nrm s U V) * dot (nrm s V W) (nrm s V W) := by unfold dot cross; ring
    rw [this, n1, n2, one_mul]
  have : 0 < cross (nrm s U V) (nrm s V W) ^ 2 := by positivity
  constructor <;> nlinarith

/-- The sum of two products of normals. -/
theorem angle_sum {a b c gA gB gC : ℝ} (ha : 0 < a) (hb : 0 < b) (hc : 0 < c) (hA : -1 < gA) (e1 : a * gC + b + c * gA = 0) (e2 : a * gB + b * gA + c = 0) :
    gB + gC < 0 := by
  have : a * (gB + gC) = -((b + c) * (1 + gA)) := by linear_combination e1 + e2
  have : 0 < (b + c) * (1 + gA) := mul_pos (by linarith) (by linarith)
  by_contra h
  push Not at h
  nlinarith [mul_nonneg ha.le h]

theorem tangent_normal {s : ℝ} (hs : s ^ 2 = 1) {U V O : Pt} {r : ℝ} (h : U ≠ V) (hr : 0 < r) (ht : TangentLine O r U V)
    (hp : 0 < dot (nrm s U V) (O - U)) : dot (nrm s U V) (O - U) = r := by
  rw [tangentLine_iff h] at ht
  have e := nrm_dot (s := s) h O
  have d := dist_sq U V
  have h0 := dist_pos_of_ne h
  have : (dot (nrm s U V) (O - U)) ^ 2 * Spec.dist U V ^ 2 = r ^ 2 * Spec.dist U V ^ 2 := by
    rw [← mul_pow, e, mul_pow, hs, ht, d]; ring
  have := mul_right_cancel₀ (by positivity) this
  exact (pow_left_inj₀ hp.le hr.le two_ne_zero).1 this

/-- A disc inside a half-plane. -/
theorem disc_far {n U O : Pt} {r : ℝ} (hn : dot n n = 1) (hr : 0 < r) (h : ∀ P, sqDist P O < r ^ 2 → 0 < dot n (P - U)) : r ≤ dot n (O - U) := by
  by_contra hc
  push Not at hc
  have h0 : 0 < dot n (O - U) := h O (by rw [show sqDist O O = 0 by unfold sqDist; ring]; positivity)
  have h1 := h (O - (dot n (O - U)) • n) (by
    have : sqDist (O - (dot n (O - U)) • n) O = dot n (O - U) ^ 2 * dot n n := by
      simp only [sqDist, dot, Pt.sub_x, Pt.sub_y, Pt.smul_x, Pt.smul_y]; ring
    rw [this, hn, mul_one]
    exact pow_lt_pow_left₀ hc h0.le two_ne_zero)
  have : dot n (O - (dot n (O - U)) • n - U) = dot n (O - U) * (1 - dot n n) := by
    simp only [dot, Pt.sub_x, Pt.sub_y, Pt.smul_x, Pt.smul_y]; ring
  rw [this, hn] at h1
  linarith

/-- The hole in a corner, from the normals of the sides. -/
theorem corner_hole {A B C n m : Pt} {c : Circle} (hn : dot n n = 1) (hm : dot m m = 1) (g1 : dot n m < 1) (g2 : -1 < dot n m) (pB : dot n (B - A) = 0)
    (pC : dot m (C - A) = 0) (qB : 0 < dot m (B - A)) (qC : 0 < dot n (C - A)) (hc : c.Valid) (c1 : dot n (c.center - A) = c.radius)
    (c2 : dot m (c.center - A) = c.radius) :
    ∃ E, Wedge (circ c) (half n A) (half m A) E (dot n m) ∧
      HoleIs (.cll A B C c) [circ c, half n A, half m A] (hole (circ c) (half n A) (half m A) E) := by
  have hr : 0 < c.radius := hc
  obtain ⟨σ, hσe⟩ : ∃ σ, σ = √((1 + dot n m) / 2) := ⟨_, rfl⟩
  obtain ⟨γ, hγe⟩ : ∃ γ, γ = √((1 - dot n m) / 2) := ⟨_, rfl⟩
  have hσ : 0 < σ := by rw [hσe]; exact Real.sqrt_pos.2 (by linarith)
  have hγ : 0 < γ := by rw [hγe]; exact Real.sqrt_pos.2 (by linarith)
  have σ2 : σ ^ 2 = (1 + dot n m) / 2 := by rw [hσe]; exact Real.sq_sqrt (by linarith)
  have γ2 : γ ^ 2 = (1 - dot n m) / 2 := by rw [hγe]; exact Real.sq_sqrt (by linarith)
  clear hσe hγe
  obtain ⟨u, hu⟩ : ∃ u : Pt, u = (1 / (2 * σ)) • (n + m) := ⟨_, rfl⟩
  obtain ⟨w, hw⟩ : ∃ w : Pt, w = (1 / (2 * γ)) • (n - m) := ⟨_, rfl⟩
  have en : n = σ • u + γ • w := by
    rw [hu, hw]; ext <;> simp only [Pt.add_x, Pt.add_y, Pt.smul_x, Pt.smul_y, Pt.sub_x, Pt.sub_y] <;> field_simp <;> ring
  have em : m = σ • u + γ • -w := by
    rw [hu, hw]; ext <;> simp only [Pt.add_x, Pt.add_y, Pt.smul_x, Pt.smul_y, Pt.sub_x, Pt.sub_y, Pt.neg_x, Pt.neg_y] <;> field_simp <;> ring
  have uu : dot u u = 1 := by
    have : dot u u * (4 * σ ^ 2) = dot n n + 2 * dot n m + dot m m := by
      rw [hu]; simp only [dot, Pt.add_x, Pt.add_y, Pt.smul_x, Pt.smul_y]; field_simp; ring
    rw [hn, hm] at this
    apply mul_right_cancel₀ (show 4 * σ ^ 2 ≠ 0 by positivity)
    rw [this, σ2]; ring
  have ww : dot w w = 1 := by
    have : dot w w * (4 * γ ^ 2) = dot n n - 2 * dot n m + dot m m := by
      rw [hw]; simp only [dot, Pt.sub_x, Pt.sub_y, Pt.smul_x, Pt.smul_y]; field_simp; ring
    rw [hn, hm] at this
    apply mul_right_cancel₀ (show 4 * γ ^ 2 ≠ 0 by positivity)
    rw [this, γ2]; ring
  have uw : dot u w = 0 := by
    have : dot u w * (4 * σ * γ) = dot n n - dot m m := by
      rw [hu, hw]; simp only [dot, Pt.add_x, Pt.add_y, Pt.sub_x, Pt.sub_y, Pt.smul_x, Pt.smul_y]; field_simp; ring
    rw [hn, hm, sub_self] at this
    exact (mul_eq_zero.1 this).resolve_right (by positivity)
  have sq : σ ^ 2 + γ ^ 2 = 1 := by rw [σ2, γ2]; ring
  -- a vector in the frame
  have fr : ∀ X : Pt, X = (dot u X) • u + (dot w X) • w := by
    intro X
    have e : (u.x * w.y - u.y * w.x) ^ 2 = 1 := by
      unfold dot at uu ww uw
      linear_combination (w.x * w.x + w.y * w.y) * uu + ww - (u.x * w.x + u.y * w.y) * uw
    obtain ⟨s, hs⟩ : ∃ s, s = u.x * w.y - u.y * w.x := ⟨_, rfl⟩
    rw [← hs] at e
    have wx : w.x = -s * u.y := by rw [hs]; unfold dot at uu uw; linear_combination (-w.x) * uu + u.x * uw
    have wy : w.y = s * u.x := by rw [hs]; unfold dot at uu uw; linear_combination (-w.y) * uu + u.y * uw
    unfold dot at uu
    ext
    · simp only [dot, Pt.add_x, Pt.smul_x, wx, wy]; linear_combination (-X.x) * uu + (-(u.y * u.y * X.x) + u.x * u.y * X.y) * e
    · simp only [dot, Pt.add_y, Pt.smul_y, wx, wy]; linear_combination (-X.y) * uu + (-(u.x * u.x * X.y) + u.x * u.y * X.x) * e
  have dn : ∀ X, dot n X = σ * dot u X + γ * dot w X := by
    intro X; rw [en]; simp only [dot, Pt.add_x, Pt.add_y, Pt.smul_x, Pt.smul_y]; ring
  have dm : ∀ X, dot m X = σ * dot u X - γ * dot w X := by
    intro X; rw [em]; simp only [dot, Pt.add_x, Pt.add_y, Pt.smul_x, Pt.smul_y, Pt.neg_x, Pt.neg_y]; ring
  have kB : ∃ β : ℝ, 0 < β ∧ B = A + β • (γ • u - σ • w) := by
    rw [dn] at pB
    rw [dm] at qB
    have hd : 0 < dot u (B - A) := by nlinarith
    refine ⟨dot u (B - A) / γ, by positivity, ?_⟩
    have e1 : dot w (B - A) = -(dot u (B - A) / γ) * σ := by field_simp; linarith
    have e2 := fr (B - A)
    rw [e1] at e2
    generalize dot u (B - A) = t at *
    have tg : t / γ * γ = t := by field_simp
    have ex := congrArg Pt.x e2
    have ey := congrArg Pt.y e2
    ext
    · simp only [Pt.add_x, Pt.smul_x, Pt.sub_x] at ex ⊢; linear_combination ex - u.x * tg
    · simp only [Pt.add_y, Pt.smul_y, Pt.sub_y] at ey ⊢; linear_combination ey - u.y * tg
  have kC : ∃ κ : ℝ, 0 < κ ∧ C = A + κ • (γ • u + σ • w) := by
    rw [dm] at pC
    rw [dn] at qC
    have hd : 0 < dot u (C - A) := by nlinarith
    refine ⟨dot u (C - A) / γ, by positivity, ?_⟩
    have e1 : dot w (C - A) = (dot u (C - A) / γ) * σ := by field_simp; linarith
    have e2 := fr (C - A)
    rw [e1] at e2
    generalize dot u (C - A) = t at *
    have tg : t / γ * γ = t := by field_simp
    have ex := congrArg Pt.x e2
    have ey := congrArg Pt.y e2
    ext
    · simp only [Pt.add_x, Pt.smul_x, Pt.sub_x] at ex ⊢; linear_combination ex - u.x * tg
    · simp only [Pt.add_y, Pt.smul_y, Pt.sub_y] at ey ⊢; linear_combination ey - u.y * tg
  obtain ⟨β, hβ, hB⟩ := kB
  obtain ⟨κ, hκ, hC⟩ := kC
  have cor : Corner A B C u w σ γ β κ := ⟨uu, ww, uw, hσ, hγ, sq, hβ, hκ, hB, hC⟩
  have hO : c = ⟨A + ((1 + σ) * (c.radius / (σ * (1 + σ)))) • u, σ * ((1 + σ) * (c.radius / (σ * (1 + σ))))⟩ := by
    have r1 : (1 + σ) * (c.radius / (σ * (1 + σ))) = c.radius / σ := by field_simp
    rw [r1]
    rw [dn] at c1
    rw [dm] at c2
    have d1 : dot u (c.center - A) = c.radius / σ := by field_simp; linarith
    have d2 : dot w (c.center - A) = 0 := by
      have : γ * dot w (c.center - A) = 0 := by linarith
      exact (mul_eq_zero.1 this).resolve_left hγ.ne'
    have e2 := fr (c.center - A)
    rw [d1, d2] at e2
    have ex := congrArg Pt.x e2
    have ey := congrArg Pt.y e2
    ext
    · simp only [Pt.add_x, Pt.smul_x, Pt.sub_x] at ex ⊢; linear_combination ex
    · simp only [Pt.add_y, Pt.smul_y, Pt.sub_y] at ey ⊢; linear_combination ey
    · dsimp only; field_simp
  obtain ⟨l, hl⟩ : ∃ l, l = c.radius / (σ * (1 + σ)) := ⟨_, rfl⟩
  have hl0 : 0 < l := by rw [hl]; positivity
  rw [← hl] at hO
  have vE : (⟨A, γ * ((1 + σ) * l)⟩ : Circle).Valid := by unfold Circle.Valid; positivity
  refine ⟨circ ⟨A, γ * ((1 + σ) * l)⟩, ?_, u, w, σ, γ, β, κ, l, cor, hl0, hO, by rw [← en, ← em], by rw [← en, ← em]⟩
  have hA0 : A - A = (⟨0, 0⟩ : Pt) := by ext <;> simp
  have kn : ∀ {k : Pt}, dot k (c.center - A) = c.radius → pr (circ c) (half k A) = -1 := by
    intro k hk
    have := pr_circ_half hc k A
    rw [hk] at this
    exact mul_right_cancel₀ hr.ne' (by rw [this]; ring)
  have ke : ∀ k : Pt, pr (circ ⟨A, γ * ((1 + σ) * l)⟩) (half k A) = 0 := by
    intro k
    have := pr_circ_half vE k A
    dsimp only at this
    rw [hA0] at this
    have z : dot k (⟨0, 0⟩ : Pt) = 0 := by unfold dot; simp
    rw [z, neg_zero] at this
    exact (mul_eq_zero.1 this).resolve_right (by positivity)
  refine ⟨pr_circ_self hc, by rw [pr_half, hn], by rw [pr_half, hm], kn c1, kn c2, by rw [pr_half], pr_circ_self vE, ?_, ke n, ke m, ?_, g1, g2⟩
  · have := pr_circ vE hc
    rw [hO] at this
    rw [hO]
    dsimp only at this
    have e : sqDist A (A + ((1 + σ) * l) • u) = ((1 + σ) * l) ^ 2 := by
      simp only [sqDist, dot, Pt.add_x, Pt.add_y, Pt.smul_x, Pt.smul_y] at *
      linear_combination ((1 + σ) * l) ^ 2 * uu
    rw [e, show (γ * ((1 + σ) * l)) ^ 2 + (σ * ((1 + σ) * l)) ^ 2 - ((1 + σ) * l) ^ 2 = 0 by linear_combination ((1 + σ) * l) ^ 2 * sq] at this
    exact (mul_eq_zero.1 this).resolve_right (by positivity)
  · rw [circ_zero]; dsimp only; positivity

theorem dot_comm' (P Q : Pt) : dot P Q = dot Q P := by unfold dot; ring

theorem inTriangle_iff_normals {A B C : Pt} (h : ¬ Collinear A B C) {s : ℝ} (hs : s ^ 2 = 1) (hK : 0 < s * cross (B - A) (C - A)) (P : Pt) :
    InTriangle A B C P ↔ 0 < dot (nrm s A B) (P - A) ∧ 0 < dot (nrm s B C) (P - B) ∧ 0 < dot (nrm s C A) (P - C) := by
  obtain ⟨h1, h2, h3⟩ := ne_of_not_collinear h
  rw [inTriangle_iff_cross h]
  have key : ∀ {U V : Pt}, U ≠ V → (0 < cross (B - A) (C - A) * cross (V - U) (P - U) ↔ 0 < dot (nrm s U V) (P - U)) := by
    intro U V hUV
    have e := nrm_dot (s := s) hUV P
    have hd := dist_pos_of_ne hUV
    have e2 : cross (B - A) (C - A) * cross (V - U) (P - U) =
        (s * cross (B - A) (C - A)) * (Spec.dist U V) * dot (nrm s U V) (P - U) := by
      linear_combination (-(cross (B - A) (C - A) * cross (V - U) (P - U))) * hs - s * cross (B - A) (C - A) * e
    rw [e2]
    exact mul_pos_iff_of_pos_left (by positivity)
  rw [key h1, key h3, key h2.symm]

/-- The first holes, with the Malfatti circles and the sides. -/
theorem start {A B C : Pt} {c1 c2 c3 : Circle} {TA TB TC : Pt} (h : ¬ Collinear A B C)
    (M : MalfattiConfig A B C c1.center c1.radius c2.center c2.radius c3.center c3.radius TA TB TC) :
    ∃ a b c : GV, (∀ P, InTriangle A B C P ↔ 0 < ev a P ∧ 0 < ev b P ∧ 0 < ev c P) ∧
      (∀ P, ev a P = 0 ↔ OnLine B C P) ∧ (∀ P, ev b P = 0 ↔ OnLine C A P) ∧ (∀ P, ev c P = 0 ↔ OnLine A B P) ∧
      Inv {P | InTriangle A B C P} [a, b, c] [c1, c2, c3] []
        [.ccl c1 c2 A B, .ccl c2 c3 B C, .ccl c3 c1 C A, .ccc c1 c2 c3, .cll A B C c1, .cll B A C c2, .cll C A B c3] := by
  obtain ⟨h1, h2, h3⟩ := ne_of_not_collinear h
  have hK : cross (B - A) (C - A) ≠ 0 := h
  obtain ⟨s, hs, hsK⟩ : ∃ s : ℝ, s ^ 2 = 1 ∧ 0 < s * cross (B - A) (C - A) := by
    rcases lt_or_gt_of_ne hK with hn | hp
    · exact ⟨-1, by norm_num, by linarith⟩
    · exact ⟨1, by norm_num, by linarith⟩
  have tri := inTriangle_iff_normals h hs hsK
  have ua := nrm_unit hs h3
  have ub := nrm_unit hs h2.symm
  have uc := nrm_unit hs h1
  have v1 : c1.Valid := M.posA
  have v2 : c2.Valid := M.posB
  have v3 : c3.Valid := M.posC
  have r1 := M.posA
  have r2 := M.posB
  have r3 := M.posC
  obtain ⟨i1c, i1a, i1b⟩ := (tri _).1 M.inA
  obtain ⟨i2c, i2a, i2b⟩ := (tri _).1 M.inB
  obtain ⟨i3c, i3a, i3b⟩ := (tri _).1 M.inC
  have d1c := tangent_normal hs h1 r1 M.tanA.1 i1c
  have d1b := tangent_normal hs h2.symm r1 M.tanA.2 i1b
  have d2a := tangent_normal hs h3 r2 M.tanB.1 i2a
  have d2c := tangent_normal hs h1 r2 M.tanB.2 i2c
  have d3b := tangent_normal hs h2.symm r3 M.tanC.1 i3b
  have d3a := tangent_normal hs h3 r3 M.tanC.2 i3a
  have f1 := disc_far ua r1 fun P hP => ((tri P).1 (M.discA P hP)).2.1
  have f2 := disc_far ub r2 fun P hP => ((tri P).1 (M.discB P hP)).2.2
  have f3 := disc_far uc r3 fun P hP => ((tri P).1 (M.discC P hP)).1
  have hc1 : cross (C - B) (A - C) ≠ 0 := by
    rw [show cross (C - B) (A - C) = cross (B - A) (C - A) by simp only [cross, Pt.sub_x, Pt.sub_y]; ring]; exact hK
  have hc2 : cross (A - C) (B - A) ≠ 0 := by
    rw [show cross (A - C) (B - A) = cross (B - A) (C - A) by simp only [cross, Pt.sub_x, Pt.sub_y]; ring]; exact hK
  have hc3 : cross (B - A) (C - B) ≠ 0 := by
    rw [show cross (B - A) (C - B) = cross (B - A) (C - A) by simp only [cross, Pt.sub_x, Pt.sub_y]; ring]; exact hK
  have gC := nrm_angle hs h3 h2.symm hc1
  have gA := nrm_angle hs h2.symm h1 hc2
  have gB := nrm_angle hs h1 h3 hc3
  have sum := nrm_sum (s := s) h1 h3 h2.symm
  have oA : 0 < dot (nrm s B C) (A - B) := by
    have e := nrm_dot (s := s) h3 A
    rw [show cross (C - B) (A - B) = cross (B - A) (C - A) by simp only [cross, Pt.sub_x, Pt.sub_y]; ring] at e
    exact (pos_iff_pos_of_mul_pos (by rw [e]; exact hsK)).2 (dist_pos_of_ne h3)
  have oB : 0 < dot (nrm s C A) (B - C) := by
    have e := nrm_dot (s := s) h2.symm B
    rw [show cross (A - C) (B - C) = cross (B - A) (C - A) by simp only [cross, Pt.sub_x, Pt.sub_y]; ring] at e
    exact (pos_iff_pos_of_mul_pos (by rw [e]; exact hsK)).2 (dist_pos_of_ne h2.symm)
  have oC : 0 < dot (nrm s A B) (C - A) := by
    have e := nrm_dot (s := s) h1 C
    exact (pos_iff_pos_of_mul_pos (by rw [e]; exact hsK)).2 (dist_pos_of_ne h1)
  have pa := nrm_perp s B C
  have pb := nrm_perp s C A
  have pc := nrm_perp s A B
  have pa' := nrm_perp' s B C
  have pb' := nrm_perp' s C A
  have pc' := nrm_perp' s A B
  have sa := nrm_shift s B C
  have sb := nrm_shift s C A
  have sc := nrm_shift s A B
  have lin : ∀ {U V : Pt}, U ≠ V → ∀ P, ev (half (nrm s U V) U) P = 0 ↔ OnLine U V P := by
    intro U V hUV P
    rw [ev_half, onLine_iff_cross hUV]
    have e := nrm_dot (s := s) hUV P
    have hd := dist_pos_of_ne hUV
    have hs0 : s ≠ 0 := by rintro rfl; norm_num at hs
    constructor
    · intro h
      have : dot (nrm s U V) (P - U) = 0 := by linarith
      rw [this, zero_mul] at e
      exact (mul_eq_zero.1 e.symm).resolve_left hs0
    · intro h
      rw [h, mul_zero] at e
      have := (mul_eq_zero.1 e).resolve_right hd.ne'
      rw [this, mul_zero]
  obtain ⟨na, hna⟩ : ∃ n, n = nrm s B C := ⟨_, rfl⟩
  obtain ⟨nb, hnb⟩ : ∃ n, n = nrm s C A := ⟨_, rfl⟩
  obtain ⟨nc, hncc⟩ : ∃ n, n = nrm s A B := ⟨_, rfl⟩
  have la := lin h3
  have lb := lin h2.symm
  have lc := lin h1
  rw [← hna] at ua d2a d3a f1 gC gB oA pa pa' sa la i1a
  rw [← hnb] at ub d1b d3b f2 gA gC oB pb pb' sb lb i2b
  rw [← hncc] at uc d1c d2c f3 gA gB oC pc pc' sc lc i3c
  rw [← hna, ← hnb, ← hncc] at tri sum
  have kn : ∀ {c : Circle} {k U : Pt} {e : ℝ}, c.Valid → dot k (c.center - U) = e * c.radius → pr (circ c) (half k U) = -e := by
    intro c k U e hc hk
    have := pr_circ_half hc k U
    rw [hk] at this
    exact mul_right_cancel₀ (ne_of_gt hc) (by rw [this]; ring)
  have kn1 : ∀ {c : Circle} {k U : Pt}, c.Valid → dot k (c.center - U) = c.radius → pr (circ c) (half k U) = -1 :=
    fun hc hk => kn hc (by rw [hk, one_mul])
  have tt : ∀ {c d : Circle}, c.Valid → d.Valid → ExtTangent c.center c.radius d.center d.radius → pr (circ c) (circ d) = -1 := by
    intro c d hc hd he
    rw [pr_circ_tangent hc hd]
    unfold ExtTangent at he
    rw [← dist_sq, he]
  have da := dist_pos_of_ne h3
  have db := dist_pos_of_ne h2.symm
  have dc := dist_pos_of_ne h1
  have sA := sum na
  have sB := sum nb
  have sC := sum nc
  rw [ua, dot_comm' nc na] at sA
  rw [ub, dot_comm' na nb, dot_comm' nc nb] at sB
  rw [uc] at sC
  rw [dot_comm' nc na] at gB
  rw [dot_comm' na nb] at gC
  have hm : Malf (circ c1) (circ c2) (circ c3) (half na B) (half nb C) (half nc A) (dot na (c1.center - B) / c1.radius) (dot nb (c2.center - C) / c2.radius)
      (dot nc (c3.center - A) / c3.radius) (dot nb nc) (dot na nc) (dot nb na) := {
    n1 := pr_circ_self v1
    n2 := pr_circ_self v2
    n3 := pr_circ_self v3
    na := by rw [pr_half, ua]
    nb := by rw [pr_half, ub]
    nc := by rw [pr_half, uc]
    t12 := tt v1 v2 M.tAB
    t13 := tt v1 v3 M.tAC
    t23 := tt v2 v3 M.tBC
    t1b := kn1 v1 d1b
    t1c := kn1 v1 d1c
    t2a := kn1 v2 d2a
    t2c := kn1 v2 d2c
    t3a := kn1 v3 d3a
    t3b := kn1 v3 d3b
    u1a := kn v1 (by field_simp)
    u2b := kn v2 (by field_simp)
    u3c := kn v3 (by field_simp)
    vA := pr_half _ _ _ _
    vB := pr_half _ _ _ _
    vC := by rw [pr_half, dot_comm']
    he1 := by rw [le_div_iff₀ r1, one_mul]; exact f1
    he2 := by rw [le_div_iff₀ r2, one_mul]; exact f2
    he3 := by rw [le_div_iff₀ r3, one_mul]; exact f3
    gA1 := gA.1
    gB1 := gB.1
    gC1 := gC.1
    gA2 := gA.2
    gB2 := gB.2
    gC2 := gC.2
    sAB := angle_sum dc da db gC.2 (by linear_combination sA) (by linear_combination sB)
    sAC := angle_sum db da dc gB.2 (by linear_combination sA) (by linear_combination sC)
    sBC := angle_sum da db dc gA.2 (by linear_combination sB) (by linear_combination sC)
    k1 := by rw [circ_zero]; positivity
    k2 := by rw [circ_zero]; positivity
    k3 := by rw [circ_zero]; positivity
    ka := half_zero _ _
    kb := half_zero _ _
    kc := half_zero _ _ }
  obtain ⟨Dc, tc⟩ := exists_dual hm.n1 hm.n2 hm.nc hm.t12 hm.t1c hm.t2c (by
    have := hm.k1; have := hm.k2; rw [hm.kc, mul_zero, mul_zero, add_zero, add_zero]; positivity)
  obtain ⟨Da, ta⟩ := exists_dual hm.n2 hm.n3 hm.na hm.t23 hm.t2a hm.t3a (by
    have := hm.k2; have := hm.k3; rw [hm.ka, mul_zero, mul_zero, add_zero, add_zero]; positivity)
  obtain ⟨Db, tb⟩ := exists_dual hm.n3 hm.n1 hm.nb ((pr_comm _ _).trans hm.t13) hm.t3b hm.t1b (by
    have := hm.k1; have := hm.k3; rw [hm.kb, mul_zero, mul_zero, add_zero, add_zero]; positivity)
  obtain ⟨D0, t0⟩ := exists_dual hm.n1 hm.n2 hm.n3 hm.t12 hm.t13 hm.t23 (by
    have := hm.k1; have := hm.k2; have := hm.k3; positivity)
  have mv : ∀ {n X Y Z : Pt}, dot n (X - Y) = dot n (X - Z) + dot n (Z - Y) := by
    intro n X Y Z; simp only [dot, Pt.sub_x, Pt.sub_y]; ring
  obtain ⟨EA, wA, hA⟩ := corner_hole (A := A) (B := B) (C := C) (n := nc) (m := nb) (c := c1) uc ub (by rw [dot_comm']; exact gA.1)
    (by rw [dot_comm']; exact gA.2) pc pb' (by rw [mv (Z := C), pb']; linarith) oC v1 d1c (by rw [mv (Z := C), pb', d1b, add_zero])
  obtain ⟨EB, wB, hB⟩ := corner_hole (A := B) (B := A) (C := C) (n := nc) (m := na) (c := c2) uc ua (by rw [dot_comm']; exact gB.1)
    (by rw [dot_comm']; exact gB.2) pc' pa oA (by rw [mv (Z := A), pc']; linarith) v2 (by rw [mv (Z := A), pc', d2c, add_zero]) d2a
  obtain ⟨EC, wC, hC⟩ := corner_hole (A := C) (B := A) (C := B) (n := nb) (m := na) (c := c3) ub ua gC.1 gC.2 pb pa'
    (by rw [mv (Z := B), pa']; linarith) oB v3 d3b (by rw [mv (Z := B), pa', d3a, add_zero])
  rw [sb, dot_comm'] at wA
  rw [sb] at hA
  rw [sc, dot_comm'] at wB
  rw [sc] at hB
  rw [sa] at wC hC
  have hap := hm.holes_apart tc ta tb t0 wA wB wC
  have hfr := hm.holes_free tc ta tb t0 wA wB wC
  have tri' : ∀ P, InTriangle A B C P ↔ 0 < ev (half na B) P ∧ 0 < ev (half nb C) P ∧ 0 < ev (half nc A) P := by
    intro P
    rw [tri, ev_half, ev_half, ev_half]
    constructor
    · rintro ⟨a, b, c⟩; exact ⟨by linarith, by linarith, by linarith⟩
    · rintro ⟨a, b, c⟩; exact ⟨by linarith, by linarith, by linarith⟩
  refine ⟨half na B, half nb C, half nc A, tri', la, lb, lc, ?_⟩
  obtain ⟨a, ha⟩ : ∃ a, a = half na B := ⟨_, rfl⟩
  obtain ⟨b, hb⟩ : ∃ b, b = half nb C := ⟨_, rfl⟩
  obtain ⟨c, hc⟩ : ∃ c, c = half nc A := ⟨_, rfl⟩
  have x1 : HoleIs (.ccl c1 c2 A B) [circ c1, circ c2, half nc A] (hole (circ c1) (circ c2) (half nc A) Dc) := ⟨v1, v2, h1, nc, Dc, uc, pc, tc, rfl, rfl⟩
  have x2 : HoleIs (.ccl c2 c3 B C) [circ c2, circ c3, half na B] (hole (circ c2) (circ c3) (half na B) Da) := ⟨v2, v3, h3, na, Da, ua, pa, ta, rfl, rfl⟩
  have x3 : HoleIs (.ccl c3 c1 C A) [circ c3, circ c1, half nb C] (hole (circ c3) (circ c1) (half nb C) Db) :=
    ⟨v3, v1, h2.symm, nb, Db, ub, pb, tb, rfl, rfl⟩
  have x4 : HoleIs (.ccc c1 c2 c3) [circ c1, circ c2, circ c3] (hole (circ c1) (circ c2) (circ c3) D0) := ⟨v1, v2, v3, D0, t0, rfl, rfl⟩
  rw [← ha, ← hb, ← hc] at hap hfr tri' hm ⊢
  rw [← hc] at x1 hA hB
  rw [← ha] at x2 hB hC
  rw [← hb] at x3 hA hC
  have free_tri : ∀ P ∈ Malf.free (circ c1) (circ c2) (circ c3) a b c, InTriangle A B C P := fun P hP => (tri' P).2 ⟨hP.2.2.2.1, hP.2.2.2.2.1, hP.2.2.2.2.2⟩
  have free_disc : ∀ d ∈ [c1, c2, c3], Disjoint (Malf.free (circ c1) (circ c2) (circ c3) a b c) (dset d) := by
    intro d hd
    rw [Set.disjoint_left]
    intro P hP hP'
    have q : ev (circ d) P < 0 := hP'
    obtain ⟨q1, q2, q3, -⟩ := hP
    simp only [List.mem_cons, List.not_mem_nil, or_false] at hd
    rcases hd with rfl | rfl | rfl <;> linarith
  refine ⟨⟨[([circ c1, circ c2, c], hole (circ c1) (circ c2) c Dc), ([circ c2, circ c3, a], hole (circ c2) (circ c3) a Da),
    ([circ c3, circ c1, b], hole (circ c3) (circ c1) b Db), ([circ c1, circ c2, circ c3], hole (circ c1) (circ c2) (circ c3) D0),
    ([circ c1, c, b], hole (circ c1) c b EA), ([circ c2, c, a], hole (circ c2) c a EB), ([circ c3, b, a], hole (circ c3) b a EC)], ?_, ?_, ?_⟩, ?_, ?_, ?_⟩
  · exact .cons x1 (.cons x2 (.cons x3 (.cons x4 (.cons hA (.cons hB (.cons hC .nil))))))
  · exact List.Pairwise.of_map Prod.snd (fun _ _ h => h) (by simpa only [List.map_cons, List.map_nil] using hap)
  · intro x hx
    have hx2 : x.2 ⊆ Malf.free (circ c1) (circ c2) (circ c3) a b c := hfr _ (by
      have := List.mem_map_of_mem (f := Prod.snd) hx
      simpa only [List.map_cons, List.map_nil] using this)
    refine ⟨fun P hP => free_tri P (hx2 hP), fun d hd => (free_disc d (by simpa using hd)).mono_left hx2, ?_⟩
    have kc : ∀ d ∈ [c1, c2, c3], Known [a, b, c] ([c1, c2, c3] ++ []) (circ d) := fun d hd => .inr ⟨d, by simpa using hd, rfl⟩
    have ks : ∀ K ∈ [a, b, c], Known [a, b, c] ([c1, c2, c3] ++ []) K := fun K hK => .inl hK
    simp only [List.mem_cons, List.not_mem_nil, or_false, forall_eq_or_imp, forall_eq] at kc ks
    obtain ⟨k1, k2, k3⟩ := kc
    obtain ⟨l1, l2, l3⟩ := ks
    simp only [List.mem_cons, List.not_mem_nil, or_false] at hx
    rcases hx with rfl | rfl | rfl | rfl | rfl | rfl | rfl <;> dsimp only <;>
      simp only [List.mem_cons, List.not_mem_nil, or_false, forall_eq_or_imp, forall_eq] <;> simp only [k1, k2, k3, l1, l2, l3, and_self]
  · have ap : ∀ {d e : Circle}, d.Valid → e.Valid → pr (circ d) (circ e) = -1 → Disjoint (dset d) (dset e) := by
      intro d e hd he ht
      rw [Set.disjoint_left]
      intro P p q
      have p0 : ev (circ d) P < 0 := p
      have q0 : ev (circ e) P < 0 := q
      have hr : 0 < d.radius := hd
      have hr' : 0 < e.radius := he
      have := tangent_nonneg (pr_circ_self hd) (pr_circ_self he) ht (by rw [circ_zero, circ_zero]; positivity) P
      linarith
    simp only [List.append_nil, List.pairwise_cons, List.mem_cons, List.not_mem_nil, or_false, forall_eq_or_imp, forall_eq]
    exact ⟨⟨ap v1 v2 hm.t12, ap v1 v3 hm.t13⟩, ap v2 v3 hm.t23, by simp⟩
  · simp only [List.append_nil, List.mem_cons, List.not_mem_nil, or_false, forall_eq_or_imp, forall_eq]
    exact ⟨⟨v1, fun P hP => M.discA P ((ev_circ_neg v1 P).1 hP)⟩, ⟨v2, fun P hP => M.discB P ((ev_circ_neg v2 P).1 hP)⟩,
      ⟨v3, fun P hP => M.discC P ((ev_circ_neg v3 P).1 hP)⟩⟩
  · intro d hd
    exact absurd hd (List.not_mem_nil)

end
end TriGasket
