import Verif.Props.TriangularGasketExact

/-!
# C101: for every depth there is a triangle for which the script finishes
-/

open Spec Real Classical GV TriGasket

/-- Lines reported equal make an angle of at most `1e-4`. -/
theorem is_equal_cross (l1 l2 : Line) (h1 : l1.Valid) (h2 : l2.Valid) (he : l1.is_equal l2) :
    |cross (l1.B - l1.A) (l2.B - l2.A)| ≤ 1 / 10 ^ 4 * (Spec.dist l1.A l1.B * Spec.dist l2.A l2.B) := by
  obtain ⟨a1, a2, a3, a4⟩ := C03_direction_offset l1 h1
  obtain ⟨b1, b2, b3, b4⟩ := C03_direction_offset l2 h2
  obtain ⟨k, hk, -⟩ := is_equal_mod_pi l1 l2 h1 h2 he
  set d1 := l1.direction_offset.1
  set d2 := l2.direction_offset.1
  have lenA : ∀ (l : Line) (d o : ℝ), (∀ P, OnLine l.A l.B P ↔ cos d * P.x + sin d * P.y = o) →
      ∃ s : ℝ, |s| = Spec.dist l.A l.B ∧ l.B.x - l.A.x = -(s * sin d) ∧ l.B.y - l.A.y = s * cos d := by
    intro l d o h
    have pA := (h l.A).1 ⟨0, by ext <;> simp⟩
    have pB := (h l.B).1 ⟨1, by ext <;> simp⟩
    have cs := sin_sq_add_cos_sq d
    refine ⟨(l.B.y - l.A.y) * cos d - (l.B.x - l.A.x) * sin d, ?_, ?_, ?_⟩
    · unfold Spec.dist Spec.sqDist
      rw [← sqrt_sq_eq_abs]
      congr 1
      have e : (l.B.x - l.A.x) * cos d + (l.B.y - l.A.y) * sin d = 0 := by linarith
      linear_combination ((l.B.x - l.A.x) ^ 2 + (l.B.y - l.A.y) ^ 2) * cs - ((l.B.x - l.A.x) * cos d + (l.B.y - l.A.y) * sin d) * e
    · linear_combination (-(l.B.x - l.A.x)) * cs + cos d * (pB - pA)
    · linear_combination (-(l.B.y - l.A.y)) * cs + sin d * (pB - pA)
  obtain ⟨s1, m1, x1, y1⟩ := lenA l1 d1 _ a4
  obtain ⟨s2, m2, x2, y2⟩ := lenA l2 d2 _ b4
  have hs : |sin (d1 - d2)| ≤ 1 / 10 ^ 4 := by
    have e : |sin (d1 - d2)| = |sin (d1 - d2 - k * π)| := by
      rw [sin_sub_int_mul_pi, abs_mul]
      rw [abs_zpow, abs_neg, abs_one, one_zpow, one_mul]
    rw [e]
    exact abs_sin_le_abs.trans hk
  have hc : cross (l1.B - l1.A) (l2.B - l2.A) = -(s1 * s2 * sin (d1 - d2)) := by
    unfold cross
    rw [Pt.sub_x, Pt.sub_y, Pt.sub_x, Pt.sub_y, x1, y1, x2, y2, sin_sub]
    ring
  rw [hc, abs_neg, abs_mul, abs_mul, ← m1, ← m2]
  have := mul_nonneg (abs_nonneg s1) (abs_nonneg s2)
  nlinarith

namespace TriGasket

variable {A B C u w : Pt} {σ γ β κ : ℝ}

theorem Corner.sqDist_B (h : Corner A B C u w σ γ β κ) : sqDist A B = β ^ 2 := by
  have uu := h.uu
  have ww := h.ww
  have uw := h.uw
  have sq := h.sq
  unfold dot at uu ww uw
  rw [h.hB]
  simp only [sqDist, Pt.add_x, Pt.add_y, Pt.sub_x, Pt.sub_y, Pt.smul_x, Pt.smul_y]
  linear_combination β ^ 2 * (γ ^ 2 * uu + σ ^ 2 * ww - 2 * γ * σ * uw + sq)

theorem Corner.dot_BC (h : Corner A B C u w σ γ β κ) : dot (B - A) (C - A) = β * κ * (1 - 2 * σ ^ 2) := by
  have uu := h.uu
  have ww := h.ww
  have uw := h.uw
  have sq := h.sq
  unfold dot at uu ww uw
  rw [h.hB, h.hC]
  simp only [dot, Pt.add_x, Pt.add_y, Pt.sub_x, Pt.sub_y, Pt.smul_x, Pt.smul_y]
  linear_combination β * κ * (γ ^ 2 * uu - σ ^ 2 * ww + sq)

/-- Enough for the lines of the corner to be accepted. -/
theorem Corner.fine_of (h : Corner A B C u w σ γ β κ) {l : ℝ} (hl : 0 < l) (hγ : 1 / 10 ^ 3 ≤ γ) (h1 : ¬ allclose A B) (h2 : ¬ allclose A C)
    (h3 : 1 / 2 ^ 26 ≤ σ * l * (γ * β)) (h4 : 1 / 2 ^ 26 ≤ σ * l * (γ * κ))
    (h5 : ¬ allclose (A + (l - σ * l) • u) (A + (l - σ * l) • u + (σ * l) • (⟨u.y, -u.x⟩ : Pt))) : CornerFine A B C ⟨A + l • u, σ * l⟩ := by
  have hσ := h.hσ
  have uu := h.uu
  unfold dot at uu
  rw [h.fine_iff hl]
  refine ⟨h5, h1, h2, ?_⟩
  have τl : Spec.dist (A + (l - σ * l) • u) (A + (l - σ * l) • u + (σ * l) • (⟨u.y, -u.x⟩ : Pt)) = σ * l := by
    rw [dist_eq_iff (by positivity)]
    simp only [sqDist, Pt.add_x, Pt.add_y, Pt.smul_x, Pt.smul_y]
    linear_combination (σ * l) ^ 2 * uu
  have key : ∀ {X : Pt} {δ : ℝ}, 0 < δ → Spec.dist A X = δ → ¬ allclose A X → cross ((σ * l) • (⟨u.y, -u.x⟩ : Pt)) (X - A) = σ * l * (γ * δ) →
      1 / 2 ^ 26 ≤ σ * l * (γ * δ) →
      ¬ (⟨A + (l - σ * l) • u, A + (l - σ * l) • u + (σ * l) • (⟨u.y, -u.x⟩ : Pt), true, true⟩ : Line).is_equal ⟨A, X, true, true⟩ ∧
        1 / 2 ^ 26 ≤ |cross ((σ * l) • (⟨u.y, -u.x⟩ : Pt)) (X - A)| := by
    intro X δ hδ hd hn hc hb
    constructor
    · intro he
      have := is_equal_cross ⟨_, _, true, true⟩ ⟨A, X, true, true⟩ h5 hn he
      dsimp only at this
      have e3 : A + (l - σ * l) • u + (σ * l) • (⟨u.y, -u.x⟩ : Pt) - (A + (l - σ * l) • u) = (σ * l) • (⟨u.y, -u.x⟩ : Pt) := by
        ext <;> simp
      rw [e3, hc, τl, hd, abs_of_pos (by have := h.hγ; positivity)] at this
      have p : 0 < σ * l * δ := by positivity
      nlinarith
    · rw [hc]; exact hb.trans (le_abs_self _)
  have cC : cross ((σ * l) • (⟨u.y, -u.x⟩ : Pt)) (C - A) = σ * l * (γ * κ) := h.mirror.cross_B l
  rintro X (rfl | rfl)
  · exact key h.hβ ((dist_eq_iff h.hβ.le).2 h.sqDist_B) h1 (h.cross_B l) h3
  · exact key h.hκ ((dist_eq_iff h.hκ.le).2 h.mirror.sqDist_B) h2 cC h4

/-- The bisector. -/
theorem Corner.bisector (h : Corner A B C u w σ γ β κ) : 2 * γ * u.x = (B.x - A.x) / β + (C.x - A.x) / κ ∧
    2 * γ * u.y = (B.y - A.y) / β + (C.y - A.y) / κ := by
  have hβ := h.hβ
  have hκ := h.hκ
  rw [h.hB, h.hC]
  constructor
  · simp only [Pt.add_x, Pt.sub_x, Pt.smul_x]; field_simp; ring
  · simp only [Pt.add_y, Pt.sub_y, Pt.smul_y]; field_simp; ring

theorem notclose_aux {a b s l : ℝ} (hs : 1 ≤ s) (hb : 1 / 2 ≤ |b|) (ha : |a| ≤ 1) (hb1 : |b| ≤ 1) (hl : |l - s| ≤ 10 * s) {p q : ℝ} (hp : p = (l - s) * a)
    (hq : q = (l - s) * a + s * b) : ¬ npClose p q := by
  intro h
  unfold npClose at h
  have e1 : |p - q| = s * |b| := by rw [hp, hq, show (l - s) * a - ((l - s) * a + s * b) = -(s * b) by ring, abs_neg, abs_mul, abs_of_pos (by linarith)]
  have e2 : |q| ≤ 11 * s := by
    rw [hq]
    have h1 := abs_add_le ((l - s) * a) (s * b)
    rw [abs_mul, abs_mul, abs_of_pos (show 0 < s by linarith)] at h1
    have h2 : |l - s| * |a| ≤ 10 * s * 1 := mul_le_mul hl ha (abs_nonneg _) (by linarith)
    have h3 : s * |b| ≤ s * 1 := mul_le_mul_of_nonneg_left hb1 (by linarith)
    linarith
  rw [e1] at h
  have : s * (1 / 2) ≤ s * |b| := mul_le_mul_of_nonneg_left hb (by linarith)
  nlinarith

/-- In a right isosceles triangle the Malfatti circles are not small. -/
theorem radii_bound {lam a b c q : ℝ} (hlam : 0 < lam) (hq : 0 < q) (q2 : q ^ 2 = 2) (ha : 0 < a) (hb : 0 < b) (hc : 0 < c) (a1 : (2 + q) * a ≤ lam)
    (b1 : (2 + q) * b ≤ lam) (c1 : (2 + q) * c ≤ lam) (t1 : (lam - (q + 1) * b - a) ^ 2 = 4 * a * b) (t2 : (lam - (q + 1) * c - a) ^ 2 = 4 * a * c)
    (t3 : (q * lam - (q + 1) * (b + c)) ^ 2 = 4 * b * c) : lam / 100 ≤ a ∧ lam / 100 ≤ b ∧ lam / 100 ≤ c := by
  have q1 : 1.41 < q := by nlinarith
  have q3 : q < 1.42 := by nlinarith
  have a3 : a ≤ 0.3 * lam := by nlinarith
  have b3 : b ≤ 0.3 * lam := by nlinarith
  have c3 : c ≤ 0.3 * lam := by nlinarith
  have small : ∀ {D x y : ℝ}, D ^ 2 = 4 * x * y → 0 < x → 0 < y → x < lam / 100 → y ≤ 0.3 * lam → D ≤ 0.11 * lam := by
    intro D x y h hx hy h1 h2
    have : x * y ≤ lam / 100 * (0.3 * lam) := mul_le_mul h1.le h2 hy.le (by positivity)
    apply le_of_sq_le_sq _ (by positivity)
    nlinarith
  refine ⟨?_, ?_, ?_⟩
  · by_contra hn
    push Not at hn
    have D1 := small t1 ha hb hn b3
    have D2 := small t2 ha hc hn c3
    nlinarith
  · by_contra hn
    push Not at hn
    have D1 := small (show _ = 4 * b * a by rw [t1]; ring) hb ha hn a3
    nlinarith
  · by_contra hn
    push Not at hn
    have D1 := small (show _ = 4 * c * a by rw [t2]; ring) hc ha hn a3
    nlinarith

theorem right_A {lam : ℝ} (hlam : 0 < lam) {u w : Pt} {σ γ β κ : ℝ} (h : Corner ⟨0, 0⟩ ⟨lam, 0⟩ ⟨0, lam⟩ u w σ γ β κ) :
    β = lam ∧ κ = lam ∧ σ ^ 2 = 1 / 2 ∧ γ = σ ∧ 2 * γ * u.x = 1 ∧ 2 * γ * u.y = 1 := by
  have e1 := h.sqDist_B
  have e2 := h.mirror.sqDist_B
  have e3 := h.dot_BC
  have sq := h.sq
  obtain ⟨e4, e5⟩ := h.bisector
  have hσ := h.hσ
  have hγ := h.hγ
  have hβ := h.hβ
  have hκ := h.hκ
  simp only [sqDist, dot, Pt.sub_x, Pt.sub_y] at e1 e2 e3
  have b : β = lam := by
    apply (pow_left_inj₀ hβ.le hlam.le two_ne_zero).1; linarith
  have k : κ = lam := by
    apply (pow_left_inj₀ hκ.le hlam.le two_ne_zero).1; linarith
  subst b
  subst k
  have s : σ ^ 2 = 1 / 2 := by
    have : κ * κ * (1 - 2 * σ ^ 2) = 0 := by linarith
    rcases mul_eq_zero.1 this with h | h
    · nlinarith
    · linarith
  refine ⟨rfl, rfl, s, (pow_left_inj₀ hγ.le hσ.le two_ne_zero).1 (by linarith), ?_, ?_⟩
  · rw [e4]; field_simp; ring
  · rw [e5]; field_simp; ring

/-- The corner at an end of the hypotenuse; `q` is the square root of 2. -/
theorem right_B {lam q : ℝ} (hlam : 0 < lam) (hq : 0 < q) (q2 : q ^ 2 = 2) {P Q R u w : Pt} {σ γ β κ : ℝ} (h : Corner P Q R u w σ γ β κ)
    (h1 : sqDist P Q = lam ^ 2) (h2 : sqDist P R = 2 * lam ^ 2) (h3 : dot (Q - P) (R - P) = lam ^ 2) :
    β = lam ∧ κ = q * lam ∧ σ ^ 2 = (2 - q) / 4 ∧ 2 * γ * σ = q / 2 ∧
    2 * γ * u.x = (Q.x - P.x) / lam + (R.x - P.x) / (q * lam) ∧ 2 * γ * u.y = (Q.y - P.y) / lam + (R.y - P.y) / (q * lam) := by
  have e1 := h.sqDist_B
  have e2 := h.mirror.sqDist_B
  have e3 := h.dot_BC
  have sq := h.sq
  obtain ⟨e4, e5⟩ := h.bisector
  have hσ := h.hσ
  have hγ := h.hγ
  have hβ := h.hβ
  have hκ := h.hκ
  have b : β = lam := by
    apply (pow_left_inj₀ hβ.le hlam.le two_ne_zero).1; linarith
  have k : κ = q * lam := by
    apply (pow_left_inj₀ hκ.le (by positivity) two_ne_zero).1; rw [mul_pow, q2]; linarith
  subst b
  subst k
  have s : σ ^ 2 = (2 - q) / 4 := by
    have : β ^ 2 * (q * (1 - 2 * σ ^ 2) - 1) = 0 := by linarith
    rcases mul_eq_zero.1 this with h | h
    · exact absurd h (by positivity)
    · have : q * (q * (1 - 2 * σ ^ 2) - 1) = 0 := by rw [h, mul_zero]
      have : q ^ 2 * (1 - 2 * σ ^ 2) = q := by linarith
      rw [q2] at this
      linarith
  refine ⟨rfl, rfl, s, ?_, e4, e5⟩
  apply (pow_left_inj₀ (by positivity) (by positivity) two_ne_zero).1
  have : γ ^ 2 = (2 + q) / 4 := by linarith
  rw [mul_pow, mul_pow, this, s]
  linear_combination (-(1 : ℝ) / 4 - 1 / 4) * q2

theorem inTriangle_right {lam : ℝ} {P : Pt} (hlam : 0 < lam) (h : InTriangle ⟨0, 0⟩ ⟨lam, 0⟩ ⟨0, lam⟩ P) : 0 < P.x ∧ 0 < P.y ∧ P.x + P.y < lam := by
  obtain ⟨u, v, w, hu, hv, hw, hs, rfl⟩ := h
  refine ⟨?_, ?_, ?_⟩
  · simp; positivity
  · simp; positivity
  · simp
    nlinarith

/-- The Malfatti circles of a right isosceles triangle. -/
theorem right_bound {lam : ℝ} (hlam : 0 < lam) {OA OB OC TA TB TC : Pt} {a b c : ℝ} (M : MalfattiConfig ⟨0, 0⟩ ⟨lam, 0⟩ ⟨0, lam⟩ OA a OB b OC c TA TB TC)
    {uA wA uB wB uC wC : Pt} {σA γA βA κA lA σB γB βB κB lB σC γC βC κC lC : ℝ} (hA : Corner ⟨0, 0⟩ ⟨lam, 0⟩ ⟨0, lam⟩ uA wA σA γA βA κA)
    (hB : Corner ⟨lam, 0⟩ ⟨0, 0⟩ ⟨0, lam⟩ uB wB σB γB βB κB) (hC : Corner ⟨0, lam⟩ ⟨0, 0⟩ ⟨lam, 0⟩ uC wC σC γC βC κC)
    (eA : OA = ⟨0, 0⟩ + lA • uA) (eA' : a = σA * lA) (eB : OB = ⟨lam, 0⟩ + lB • uB) (eB' : b = σB * lB) (eC : OC = ⟨0, lam⟩ + lC • uC)
    (eC' : c = σC * lC) : lam / 100 ≤ a ∧ lam / 100 ≤ b ∧ lam / 100 ≤ c := by
  obtain ⟨q, hq, q2⟩ : ∃ q : ℝ, 0 < q ∧ q ^ 2 = 2 := ⟨√2, by positivity, Real.sq_sqrt (by norm_num)⟩
  obtain ⟨-, -, sA, gA, xA, yA⟩ := right_A hlam hA
  obtain ⟨-, -, sB, gB, xB, yB⟩ := right_B hlam hq q2 hB (by simp [sqDist]) (by simp [sqDist]; ring) (by simp [dot]; ring)
  obtain ⟨-, -, sC, gC, xC, yC⟩ := right_B hlam hq q2 hC (by simp [sqDist]) (by simp [sqDist]; ring) (by simp [dot]; ring)
  dsimp only at xB yB xC yC
  have qi : lam / (q * lam) = q / 2 := by
    rw [div_eq_div_iff (by positivity) two_ne_zero]; linear_combination (-lam) * q2
  have qi' : -lam / (q * lam) = -(q / 2) := by rw [neg_div, qi]
  have li : -lam / lam = -1 := by field_simp
  rw [zero_sub, qi', li] at xB
  rw [sub_zero, sub_zero, zero_div, qi] at yB
  rw [sub_zero, sub_zero, zero_div, qi] at xC
  rw [zero_sub, qi', li] at yC
  have OAe : OA = ⟨a, a⟩ := by
    rw [eA, eA']
    have : σA * (2 * γA) = 1 := by rw [gA]; linarith
    ext
    · simp; linear_combination (-lA * uA.x) * this + σA * lA * xA
    · simp; linear_combination (-lA * uA.y) * this + σA * lA * yA
  have OBe : OB = ⟨lam - (q + 1) * b, b⟩ := by
    rw [eB, eB']
    ext
    · simp
      have : q / 2 * (lB * uB.x) = σB * lB * (-1 + -(q / 2)) := by rw [← xB, ← gB]; ring
      linear_combination q * this + (-(lB * uB.x) / 2 - σB * lB / 2) * q2
    · simp
      have : q / 2 * (lB * uB.y) = σB * lB * (0 + q / 2) := by linear_combination (-(lB * uB.y)) * gB + σB * lB * yB
      linear_combination q * this + (-(lB * uB.y) / 2 + σB * lB / 2) * q2
  have OCe : OC = ⟨c, lam - (q + 1) * c⟩ := by
    rw [eC, eC']
    ext
    · simp
      have : q / 2 * (lC * uC.x) = σC * lC * (0 + q / 2) := by linear_combination (-(lC * uC.x)) * gC + σC * lC * xC
      linear_combination q * this + (-(lC * uC.x) / 2 + σC * lC / 2) * q2
    · simp
      have : q / 2 * (lC * uC.y) = σC * lC * (-1 + -(q / 2)) := by rw [← yC, ← gC]; ring
      linear_combination q * this + (-(lC * uC.y) / 2 - σC * lC / 2) * q2
  clear eA eA' eB eB' eC eC' sA gA xA yA sB gB xB yB sC gC xC yC hA hB hC
  subst OAe
  subst OBe
  subst OCe
  have pa := M.posA
  have pb := M.posB
  have pc := M.posC
  have ext : ∀ {O₁ O₂ : Pt} {r s : ℝ}, ExtTangent O₁ r O₂ s → sqDist O₁ O₂ = (r + s) ^ 2 := by
    intro O₁ O₂ r s h
    rw [← dist_sq, h]
  have t1 := ext M.tAB
  have t2 := ext M.tAC
  have t3 := ext M.tBC
  simp only [sqDist] at t1 t2 t3
  refine radii_bound hlam hq q2 pa pb pc ?_ ?_ ?_ (by linear_combination t1) (by linear_combination t2) ?_
  · by_contra hn
    push Not at hn
    have i0 := inTriangle_right hlam M.inA
    dsimp only at i0
    have := (inTriangle_right hlam (M.discA ⟨lam / 2, lam / 2⟩ (by
      simp only [sqDist]
      have : (a - lam / 2) ^ 2 * 2 < a ^ 2 := by
        have h1 : lam - 2 * a < q * a := by linarith
        have h2 : (lam - 2 * a) ^ 2 < (q * a) ^ 2 := pow_lt_pow_left₀ h1 (by linarith [i0.2.2]) two_ne_zero
        rw [mul_pow, q2] at h2
        linarith
      linarith))).2.2
    dsimp only at this
    linarith
  · by_contra hn
    push Not at hn
    have i0 := inTriangle_right hlam M.inB
    dsimp only at i0
    have := (inTriangle_right hlam (M.discB ⟨0, b⟩ (by
      simp only [sqDist]
      have h1 : lam - (q + 1) * b < b := by linarith
      have h2 := pow_lt_pow_left₀ h1 i0.1.le two_ne_zero
      linarith))).1
    dsimp only at this
    linarith
  · by_contra hn
    push Not at hn
    have i0 := inTriangle_right hlam M.inC
    dsimp only at i0
    have := (inTriangle_right hlam (M.discC ⟨c, 0⟩ (by
      simp only [sqDist]
      have h1 : lam - (q + 1) * c < c := by linarith
      have h2 := pow_lt_pow_left₀ h1 i0.2.1.le two_ne_zero
      linarith))).2.1
    dsimp only at this
    linarith
  · linear_combination t3 + (lam ^ 2 - (b + c) * lam * 2 + 2 * b * c) * q2

theorem not_allclose_lam {lam : ℝ} (h : 1 ≤ lam) {P Q : Pt} (hx : (P.x = 0 ∧ Q.x = lam) ∨ (P.x = lam ∧ Q.x = 0) ∨ (P.y = 0 ∧ Q.y = lam) ∨ (P.y = lam ∧ Q.y = 0)) :
    ¬ allclose P Q := by
  unfold allclose npClose
  rintro ⟨h1, h2⟩
  rcases hx with ⟨e1, e2⟩ | ⟨e1, e2⟩ | ⟨e1, e2⟩ | ⟨e1, e2⟩
  · rw [e1, e2, zero_sub, abs_neg, abs_of_pos (by linarith)] at h1; linarith
  · rw [e1, e2, sub_zero, abs_zero, abs_of_pos (by linarith)] at h1; linarith
  · rw [e1, e2, zero_sub, abs_neg, abs_of_pos (by linarith)] at h2; linarith
  · rw [e1, e2, sub_zero, abs_zero, abs_of_pos (by linarith)] at h2; linarith

/-- A corner of a large right isosceles triangle, for a circle that is not small. -/
theorem right_fine (h : Corner A B C u w σ γ β κ) {l : ℝ} (hl : 0 < l) (hs : 1 ≤ σ * l) (s1 : 1 / 5 ≤ σ) (hγ : 1 / 10 ≤ γ) (hβ : 1 ≤ β) (hκ : 1 ≤ κ)
    (h1 : ¬ allclose A B) (h2 : ¬ allclose A C) (hu : (A.x = 0 ∧ 1 / 2 ≤ |u.y|) ∨ (A.y = 0 ∧ 1 / 2 ≤ |u.x|)) : CornerFine A B C ⟨A + l • u, σ * l⟩ := by
  have uu := h.uu
  unfold dot at uu
  have ux : |u.x| ≤ 1 := by rw [← sq_le_one_iff_abs_le_one]; nlinarith [sq_nonneg u.y]
  have uy : |u.y| ≤ 1 := by rw [← sq_le_one_iff_abs_le_one]; nlinarith [sq_nonneg u.x]
  have hs1 := h.σ_lt
  have hls : |l - σ * l| ≤ 10 * (σ * l) := by
    rw [abs_of_nonneg (by nlinarith)]
    nlinarith
  have g1 : 1 / 10 * 1 ≤ γ * β := mul_le_mul hγ hβ zero_le_one (by linarith)
  have g2 : 1 / 10 * 1 ≤ γ * κ := mul_le_mul hγ hκ zero_le_one (by linarith)
  have g3 : 1 * (1 / 10 * 1) ≤ σ * l * (γ * β) := mul_le_mul hs g1 (by norm_num) (by linarith)
  have g4 : 1 * (1 / 10 * 1) ≤ σ * l * (γ * κ) := mul_le_mul hs g2 (by norm_num) (by linarith)
  refine h.fine_of hl (by linarith) h1 h2 (le_trans (by norm_num) g3) (le_trans (by norm_num) g4) ?_
  rintro ⟨cx, cy⟩
  rcases hu with ⟨e, hu⟩ | ⟨e, hu⟩
  · refine notclose_aux hs hu ux uy hls ?_ ?_ cx
    · simp only [Pt.add_x, Pt.smul_x, e]; ring
    · simp only [Pt.add_x, Pt.smul_x, e]; ring
  · refine notclose_aux (b := -u.x) hs (by rwa [abs_neg]) uy (by rwa [abs_neg]) hls ?_ ?_ cy
    · simp only [Pt.add_y, Pt.smul_y, e]; ring
    · simp only [Pt.add_y, Pt.smul_y, e]; ring

end TriGasket

theorem TriGasket.between {x : ℝ} (hx : 0 < x) (h1 : 0.1 ≤ x ^ 2) (h2 : x ^ 2 ≤ 0.6) : 1 / 5 ≤ x ∧ x < 0.8 := by constructor <;> nlinarith

/-- The radius of the circle number `k`. -/
theorem TriGasket.size {depth : ℕ} {lam σ l : ℝ} (hlam : 10 ^ (depth + 10) ≤ lam) (hσ : 0 < σ) (hl : 0 < l) (h8 : σ < 0.8) (hr : lam / 100 ≤ σ * l)
    (k : ℕ) (hk : k ≤ depth) : 1 ≤ σ * (((1 - σ) / (1 + σ)) ^ k * l) := by
  have big : (1 : ℝ) ≤ 10 ^ depth := one_le_pow₀ (by norm_num)
  have r1 : 1 / 10 ≤ (1 - σ) / (1 + σ) := by rw [div_le_div_iff₀ (by norm_num) (by linarith)]; linarith
  have r2 : (1 / 10 : ℝ) ^ depth ≤ (1 / 10) ^ k := pow_le_pow_of_le_one (by norm_num) (by norm_num) hk
  have r3 : (1 / 10 : ℝ) ^ k ≤ ((1 - σ) / (1 + σ)) ^ k := pow_le_pow_left₀ (by norm_num) r1 k
  have r4 : (1 / 10 : ℝ) ^ depth * 10 ^ depth = 1 := by rw [← mul_pow]; norm_num
  have r5 : (1 / 10 : ℝ) ^ depth * (10 ^ depth * 10 ^ 8) ≤ ((1 - σ) / (1 + σ)) ^ k * (σ * l) := by
    refine mul_le_mul (r2.trans r3) ?_ (by positivity) (by positivity)
    rw [pow_add] at hlam
    linarith
  rw [← mul_assoc, r4] at r5
  linarith

theorem TriGasket.half_le {σ γ x y : ℝ} (h1 : 0 < σ) (h2 : 0 < γ) (h3 : σ ^ 2 + γ ^ 2 = 1) (h4 : 2 * γ * x = y) (h5 : 1 ≤ |y|) : 1 / 2 ≤ |x| := by
  have : γ ≤ 1 := by nlinarith
  rw [← h4, abs_mul, abs_of_pos (by positivity)] at h5
  nlinarith [abs_nonneg x]

theorem TriGasket.one_tenth {x : ℝ} (hx : 0 < x) (h1 : 0.1 ≤ x ^ 2) : 1 / 10 ≤ x := by nlinarith

/-- C101: no depth is out of reach. For the right isosceles triangle with legs at least `10^(depth + 10)` the script finishes. -/
theorem C101_finishes (depth : ℕ) (lam : ℝ) (hlam : 10 ^ (depth + 10) ≤ lam) :
    ∃ L, drawTriangularGasket ⟨0, 0⟩ ⟨lam, 0⟩ ⟨0, lam⟩ depth = .ok L := by
  have big : (1 : ℝ) ≤ 10 ^ depth := one_le_pow₀ (by norm_num)
  have hlam1 : 10 ^ 10 ≤ lam := by rw [pow_add] at hlam; nlinarith
  have hlam0 : 0 < lam := by linarith
  have hn : ¬ Collinear ⟨0, 0⟩ ⟨lam, 0⟩ ⟨0, lam⟩ := by
    unfold Collinear cross
    simp
    positivity
  obtain ⟨m, -, M, ⟨uA, wA, σA, γA, βA, κA, lA, hA, pA, eA⟩, ⟨uB, wB, σB, γB, βB, κB, lB, hB, pB, eB⟩, ⟨uC, wC, σC, γC, βC, κC, lC, hC, pC, eC⟩, hi, -⟩ :=
    setup hn
  dsimp only at hA eA hB eB hC eC
  obtain ⟨rA, rB, rC⟩ := right_bound hlam0 M hA hB hC (by rw [eA]) (by rw [eA]) (by rw [eB]) (by rw [eB]) (by rw [eC]) (by rw [eC])
  rw [eA] at rA
  rw [eB] at rB
  rw [eC] at rC
  dsimp only at rA rB rC
  obtain ⟨q, hq, q2⟩ : ∃ q : ℝ, 0 < q ∧ q ^ 2 = 2 := ⟨√2, by positivity, Real.sq_sqrt (by norm_num)⟩
  have q1 : 1.41 < q := by nlinarith
  have q3 : q < 1.42 := by nlinarith
  obtain ⟨bA, kA, sA, gA, xA, yA⟩ := right_A hlam0 hA
  obtain ⟨bB, kB, sB, gB, xB, yB⟩ := right_B hlam0 hq q2 hB (by simp [sqDist]) (by simp [sqDist]; ring) (by simp [dot]; ring)
  obtain ⟨bC, kC, sC, gC, xC, yC⟩ := right_B hlam0 hq q2 hC (by simp [sqDist]) (by simp [sqDist]; ring) (by simp [dot]; ring)
  dsimp only at xB yC
  have qi' : (0 - lam) / (q * lam) = -(q / 2) := by
    rw [zero_sub, neg_div, neg_inj, div_eq_div_iff (by positivity) two_ne_zero]; linear_combination (-lam) * q2
  have li : (0 - lam) / lam = -1 := by field_simp; ring
  rw [qi', li] at xB yC
  obtain ⟨σA2, σA8⟩ := between hA.hσ (by rw [sA]; norm_num) (by rw [sA]; norm_num)
  obtain ⟨σB2, σB8⟩ := between hB.hσ (by rw [sB]; linarith) (by rw [sB]; linarith)
  obtain ⟨σC2, σC8⟩ := between hC.hσ (by rw [sC]; linarith) (by rw [sC]; linarith)
  have γB2 : 1 / 10 ≤ γB := one_tenth hB.hγ (by linarith [hB.sq])
  have γC2 : 1 / 10 ≤ γC := one_tenth hC.hγ (by linarith [hC.sq])
  have kap : 1 ≤ q * lam := by rw [← one_mul (1 : ℝ)]; exact mul_le_mul (by linarith) (by linarith) zero_le_one hq.le
  rw [hi depth]
  intro k hk
  simp only [List.mem_cons, List.not_mem_nil, or_false, forall_eq_or_imp, forall_eq]
  refine ⟨?_, ?_, ?_⟩
  · rw [eA, hA.cornerCircle pA]
    have := hA.ratio_pos
    refine right_fine hA (by positivity) (size hlam hA.hσ pA σA8 rA k hk) σA2 (by linarith) (by linarith) (by linarith) ?_ ?_ (.inl ⟨rfl, half_le hA.hσ hA.hγ hA.sq yA (by norm_num)⟩)
    · exact not_allclose_lam (by linarith) (.inl ⟨rfl, rfl⟩)
    · exact not_allclose_lam (by linarith) (.inr (.inr (.inl ⟨rfl, rfl⟩)))
  · rw [eB, hB.cornerCircle pB]
    have := hB.ratio_pos
    refine right_fine hB (by positivity) (size hlam hB.hσ pB σB8 rB k hk) σB2 γB2 (by linarith) (by rw [kB]; exact kap) ?_ ?_
      (.inr ⟨rfl, half_le hB.hσ hB.hγ hB.sq xB (by rw [abs_of_neg (by linarith)]; linarith)⟩)
    · exact not_allclose_lam (by linarith) (.inr (.inl ⟨rfl, rfl⟩))
    · exact not_allclose_lam (by linarith) (.inr (.inl ⟨rfl, rfl⟩))
  · rw [eC, hC.cornerCircle pC]
    have := hC.ratio_pos
    refine right_fine hC (by positivity) (size hlam hC.hσ pC σC8 rC k hk) σC2 γC2 (by linarith) (by rw [kC]; exact kap) ?_ ?_
      (.inl ⟨rfl, half_le hC.hσ hC.hγ hC.sq yC (by rw [abs_of_neg (by linarith)]; linarith)⟩)
    · exact not_allclose_lam (by linarith) (.inr (.inr (.inr ⟨rfl, rfl⟩)))
    · exact not_allclose_lam (by linarith) (.inl ⟨rfl, rfl⟩)

/-- Depth 3, a triangle with legs `10^13`: 283 circles. -/
example : ∃ L, drawTriangularGasket ⟨0, 0⟩ ⟨10 ^ 13, 0⟩ ⟨0, 10 ^ 13⟩ 3 = .ok L ∧ L.length = 283 ∧ L.Pairwise fun c d => (disc c).Apart (disc d) := by
  obtain ⟨L, hL⟩ := C101_finishes 3 (10 ^ 13) (by norm_num)
  obtain ⟨h1, -, -, h2⟩ := C101_gasket _ _ _ 3 L (by unfold Collinear cross; simp) hL
  exact ⟨L, hL, by omega, h2⟩

/-- The same triangle, too deep; and a flat triangle. -/
example : (∃ N, ∀ depth ≥ N, ∃ msg, drawTriangularGasket ⟨0, 0⟩ ⟨10 ^ 13, 0⟩ ⟨0, 10 ^ 13⟩ depth = .error (.valueError msg)) ∧
    drawTriangularGasket ⟨0, 0⟩ ⟨1, 0⟩ ⟨3, 0⟩ 2 = .error .typeError :=
  ⟨C101_deep_counterexample _ _ _ (by unfold Collinear cross; simp), C101_flat _ _ _ (by unfold Collinear cross; simp) (by simp) (by simp) 2⟩
