import Verif.Lemmas.InversionOrbit
import Verif.Props.Conformal

/-! One step of `examples/Inversions.py` on a curve with integer coefficients. -/

open Spec Real Classical

namespace Inversions

/-- The coefficients of a circle or line. -/
def Rep (v : V) : GCircle → Prop
  | .circle c => v.A ≠ 0 ∧ c.center = ⟨2 * v.b / v.A, 2 * v.c / v.A⟩ ∧ c.radius = 2 / |(v.A : ℝ)|
  | .line l => v.A = 0 ∧ l.Valid ∧ ∀ P : Pt, OnLine l.A l.B P ↔ v.b * P.x + v.c * P.y = v.E

theorem one_le_abs {A : ℤ} (h : A ≠ 0) : (1 : ℝ) ≤ |(A : ℝ)| := by
  have := Int.one_le_abs h
  exact_mod_cast this

theorem onCircle_form {v : V} (h : Good v) (hA : v.A ≠ 0) (P : Pt) :
    OnCircle ⟨2 * v.b / v.A, 2 * v.c / v.A⟩ (2 / |(v.A : ℝ)|) P ↔ form v (.fin P) = 0 := by
  have hA' : (v.A : ℝ) ≠ 0 := by exact_mod_cast hA
  have hn : (v.b : ℝ) ^ 2 + (v.c : ℝ) ^ 2 - v.A * v.E = 1 := by exact_mod_cast h.1
  unfold OnCircle sqDist form
  dsimp only
  rw [div_pow, sq_abs]
  have e : (P.x - 2 * v.b / v.A) ^ 2 + (P.y - 2 * v.c / v.A) ^ 2 - 2 ^ 2 / (v.A : ℝ) ^ 2 =
      2 / v.A * ((v.A : ℝ) * (P.x ^ 2 + P.y ^ 2) / 2 - 2 * (v.b * P.x + v.c * P.y) + 2 * v.E) := by
    field_simp
    linear_combination 4 * hn
  rw [← sub_eq_zero, e]
  constructor
  · intro h
    exact (mul_eq_zero.1 h).resolve_left (by positivity)
  · intro h; rw [h, mul_zero]

theorem curve_eq {v : V} {g : GCircle} (h : Good v) (hg : Rep v g) : curve g = zset v := by
  ext X
  cases g with
  | circle c =>
    obtain ⟨h1, h2, h3⟩ := hg
    cases X with
    | inf => simp [curve, XOnCircle, zset, form, h1]
    | fin P =>
      change OnCircle c.center c.radius P ↔ form v (.fin P) = 0
      rw [h2, h3]
      exact onCircle_form h h1 P
  | line l =>
    obtain ⟨h1, h2, h3⟩ := hg
    cases X with
    | inf => simp [curve, XOnLine, zset, form, h1]
    | fin P =>
      change OnLine l.A l.B P ↔ form v (.fin P) = 0
      rw [h3]
      simp only [form, h1, Int.cast_zero]
      constructor <;> intro h <;> linarith

theorem rep_valid {v : V} {c : Circle} (hg : Rep v (.circle c)) : 0 < c.radius := by
  obtain ⟨h1, h2, h3⟩ := hg
  have := one_le_abs h1
  rw [h3]; positivity

/-- The circle number `i`. -/
noncomputable def circ (i : ℕ) : Circle := ⟨pole i, rad i⟩

theorem pole_abs (i : ℕ) : |(pole i).x| ≤ 1 ∧ |(pole i).y| ≤ 1 := by
  unfold pole
  constructor
  · dsimp only; unfold px; split <;> norm_num
  · dsimp only; unfold py; split <;> norm_num

/-- A line of the orbit that is not through a pole is not near it. -/
theorem not_close {v : V} (h : Good v) (hA : v.A = 0) (i : ℕ) {X : Pt} (hX : v.b * X.x + v.c * X.y = (v.E : ℝ))
    (hne : v.b * px i + v.c * py i ≠ v.E) : ¬ allclose X (pole i) ∧ ¬ allclose (pole i) X := by
  obtain ⟨p1, p2⟩ := pole_abs i
  have hu : v.b ^ 2 + v.c ^ 2 = 1 := by have := h.1; rw [hA] at this; linarith
  have hb : |(v.b : ℝ)| ≤ 1 := by
    have : (v.b : ℝ) ^ 2 + (v.c : ℝ) ^ 2 = 1 := by exact_mod_cast hu
    apply abs_le_one_iff_mul_self_le_one.2; nlinarith [sq_nonneg (v.c : ℝ)]
  have hc : |(v.c : ℝ)| ≤ 1 := by
    have : (v.b : ℝ) ^ 2 + (v.c : ℝ) ^ 2 = 1 := by exact_mod_cast hu
    apply abs_le_one_iff_mul_self_le_one.2; nlinarith [sq_nonneg (v.b : ℝ)]
  have hz : v.E - (v.b * px i + v.c * py i) ≠ 0 := fun e => hne (by linarith)
  have h1 := one_le_abs hz
  have e : ((v.E - (v.b * px i + v.c * py i) : ℤ) : ℝ) = v.b * (X.x - (pole i).x) + v.c * (X.y - (pole i).y) := by
    push_cast; simp only [pole]; linear_combination -hX
  rw [e] at h1
  have h2 : (1 : ℝ) ≤ |X.x - (pole i).x| + |X.y - (pole i).y| := by
    refine h1.trans ((abs_add_le _ _).trans ?_)
    rw [abs_mul, abs_mul]
    have := abs_nonneg (X.x - (pole i).x)
    have := abs_nonneg (X.y - (pole i).y)
    nlinarith
  have t1 : |X.x| ≤ |X.x - (pole i).x| + |(pole i).x| := by
    have := abs_add_le (X.x - (pole i).x) (pole i).x; rwa [sub_add_cancel] at this
  have t2 : |X.y| ≤ |X.y - (pole i).y| + |(pole i).y| := by
    have := abs_add_le (X.y - (pole i).y) (pole i).y; rwa [sub_add_cancel] at this
  constructor
  · rintro ⟨c1, c2⟩
    unfold npClose at c1 c2
    linarith
  · rintro ⟨c1, c2⟩
    unfold npClose at c1 c2
    rw [abs_sub_comm] at c1 c2
    linarith

/-- The new first coefficient is the power of the pole. -/
theorem power_of_pole {i : ℕ} (hi : i < 5) {v : V} (h : Good v) (hA : v.A ≠ 0) :
    sqDist (⟨2 * v.b / v.A, 2 * v.c / v.A⟩ : Pt) (pole i) - (2 / |(v.A : ℝ)|) ^ 2 = power i * (refl i v).A / v.A := by
  have hA' : (v.A : ℝ) ≠ 0 := by exact_mod_cast hA
  have hn : (v.b : ℝ) ^ 2 + (v.c : ℝ) ^ 2 - v.A * v.E = 1 := by exact_mod_cast h.1
  rw [div_pow, sq_abs, power_eq hi]
  unfold sqDist refl
  by_cases h4 : i = 4
  · subst h4
    simp only [pole, px, py, if_true, Int.cast_zero, sub_zero]
    field_simp
    linear_combination 4 * hn
  · have hu := pole_unit hi h4
    have hu' : ((px i : ℤ) : ℝ) ^ 2 + ((py i : ℤ) : ℝ) ^ 2 = 1 := by exact_mod_cast hu
    rw [if_neg h4, if_neg h4]
    simp only [pole]
    push_cast
    field_simp
    linear_combination 4 * hn + (v.A : ℝ) ^ 2 * hu'

/-- The center of the image. -/
theorem center_image {i : ℕ} (hi : i < 5) {v : V} (hA : v.A ≠ 0) (hA2 : (refl i v).A ≠ 0) :
    pole i + (power i / (power i * (refl i v).A / v.A)) • ((⟨2 * v.b / v.A, 2 * v.c / v.A⟩ : Pt) - pole i) =
      ⟨2 * (refl i v).b / (refl i v).A, 2 * (refl i v).c / (refl i v).A⟩ := by
  have hA' : (v.A : ℝ) ≠ 0 := by exact_mod_cast hA
  have hA2' : ((refl i v).A : ℝ) ≠ 0 := by exact_mod_cast hA2
  have hp := power_ne hi
  have e : power i / (power i * (refl i v).A / v.A) = v.A / (refl i v).A := by field_simp
  rw [e]
  clear e
  obtain ⟨w, hw⟩ : ∃ w, w = refl i v := ⟨_, rfl⟩
  rw [← hw] at hA2' ⊢
  have e1 : (2 * w.b : ℝ) = 2 * v.b + (w.A - v.A) * (pole i).x := by
    rw [hw]; unfold refl pole
    by_cases h4 : i = 4
    · subst h4; simp [px]
    · rw [if_neg h4]; push_cast; ring
  have e2 : (2 * w.c : ℝ) = 2 * v.c + (w.A - v.A) * (pole i).y := by
    rw [hw]; unfold refl pole
    by_cases h4 : i = 4
    · subst h4; simp [py]
    · rw [if_neg h4]; push_cast; ring
  rw [e1, e2]
  ext
  · simp; field_simp; ring
  · simp; field_simp; ring

/-- The image of a circle through the pole: the two points which the code computes are images of points of the circle. -/
theorem invert_through_pole {q : Pt} {k : ℝ} {c : Circle} (q1 : |q.x| ≤ 1) (q2 : |q.y| ≤ 1) (hk : 1 ≤ k) (hr : 1 / 10 ^ 4 < c.radius) (hr2 : c.radius ≤ 2)
    (hc : sqDist c.center q = c.radius ^ 2) :
    ∃ l M N, (⟨q, k⟩ : Inversion).invert_circle c = .ok (.line l) ∧ l.Valid ∧ OnCircle c.center c.radius M ∧ OnCircle c.center c.radius N ∧
      xinv q k (.fin M) = .fin l.A ∧ xinv q k (.fin N) = .fin l.B := by
  obtain ⟨a, ha⟩ : ∃ a, a = c.center.x - q.x := ⟨_, rfl⟩
  obtain ⟨b, hb⟩ : ∃ b, b = c.center.y - q.y := ⟨_, rfl⟩
  obtain ⟨r, hrr⟩ : ∃ r, r = c.radius := ⟨_, rfl⟩
  have hab : a ^ 2 + b ^ 2 = r ^ 2 := by rw [ha, hb, hrr, ← hc]; rfl
  rw [← hrr] at hr hr2 hc ⊢
  have hsum : r ≤ |a| + |b| := by
    have h0 := abs_nonneg a
    have h1 := abs_nonneg b
    have : r ^ 2 ≤ (|a| + |b|) ^ 2 := by rw [← hab, ← sq_abs a, ← sq_abs b]; nlinarith
    exact (abs_le_of_sq_le_sq' this (by positivity)).2
  obtain ⟨M, hM⟩ : ∃ M : Pt, M = ⟨q.x + 2 * a, q.y + 2 * b⟩ := ⟨_, rfl⟩
  obtain ⟨N, hN⟩ : ∃ N : Pt, N = ⟨q.x + (a + b), q.y + (b - a)⟩ := ⟨_, rfl⟩
  have eM : c.center - (q - c.center) = M := by rw [hM, ha, hb]; ext <;> simp <;> ring
  have eN : (⟨-(q - c.center).y, (q - c.center).x⟩ : Pt) + c.center = N := by rw [hN, ha, hb]; ext <;> simp <;> ring
  have tri : ∀ x y : ℝ, |x + y| ≤ |x| + |y| := abs_add_le
  have far : ∀ s t : ℝ, |a| + |b| ≤ |s| + |t| → ¬ allclose q ⟨q.x + s, q.y + t⟩ := by
    rintro s t h ⟨c1, c2⟩
    unfold npClose at c1 c2
    dsimp only at c1 c2
    rw [sub_add_cancel_left, abs_neg] at c1 c2
    have := tri q.x s
    have := tri q.y t
    have := abs_nonneg s
    have := abs_nonneg t
    linarith
  have nM : ¬ allclose q M := by
    rw [hM]; apply far
    rw [abs_mul, abs_mul, abs_two]
    have := abs_nonneg a
    have := abs_nonneg b
    linarith
  have nN : ¬ allclose q N := by
    rw [hN]; apply far
    have h1 := tri (a + b) (-(b - a))
    have h2 := tri (a + b) (b - a)
    rw [abs_neg, show a + b + -(b - a) = 2 * a by ring, abs_mul, abs_two] at h1
    rw [show a + b + (b - a) = 2 * b by ring, abs_mul, abs_two] at h2
    linarith
  have r0 : 0 < r := by linarith [show (0 : ℝ) < 1 / 10 ^ 4 by norm_num]
  have sM : sqDist M q = 4 * r ^ 2 := by rw [hM, ← hab]; unfold sqDist; ring
  have sN : sqDist N q = 2 * r ^ 2 := by rw [hN, ← hab]; unfold sqDist; ring
  have dM : dot1_ (M - q) = 4 * r ^ 2 := by rw [← sM]; unfold dot1_ dot_ sqDist; simp; ring
  have dN : dot1_ (N - q) = 2 * r ^ 2 := by rw [← sN]; unfold dot1_ dot_ sqDist; simp; ring
  obtain ⟨m, hm⟩ : ∃ m, m = k / (2 * r ^ 2) := ⟨_, rfl⟩
  have iM : (⟨q, k⟩ : Inversion).invert (.fin M) = .fin (q + (k / (4 * r ^ 2)) • (M - q)) := by
    unfold Inversion.invert; dsimp only; rw [if_neg nM, dM]
  have iN : (⟨q, k⟩ : Inversion).invert (.fin N) = .fin (q + (k / (2 * r ^ 2)) • (N - q)) := by
    unfold Inversion.invert; dsimp only; rw [if_neg nN, dN]
  have hm0 : 0 < m := by rw [hm]; positivity
  have fM : q + (k / (4 * r ^ 2)) • (M - q) = ⟨q.x + m * a, q.y + m * b⟩ := by
    have : k / (4 * r ^ 2) = m / 2 := by rw [hm]; field_simp; norm_num
    rw [this, hM]; ext <;> simp <;> ring
  have fN : q + (k / (2 * r ^ 2)) • (N - q) = ⟨q.x + m * (a + b), q.y + m * (b - a)⟩ := by
    rw [← hm, hN]; ext <;> simp
  have big : 1 / 4 ≤ m * (|a| + |b|) := by
    have h1 : m * r = k / (2 * r) := by rw [hm]; field_simp
    have h2 : 1 / 4 ≤ k / (2 * r) := by rw [div_le_div_iff₀ (by norm_num) (by positivity)]; linarith
    have := mul_le_mul_of_nonneg_left hsum hm0.le
    linarith
  have nAB : ¬ allclose (⟨q.x + m * a, q.y + m * b⟩ : Pt) ⟨q.x + m * (a + b), q.y + m * (b - a)⟩ := by
    rintro ⟨c1, c2⟩
    unfold npClose at c1 c2
    dsimp only at c1 c2
    rw [show q.x + m * a - (q.x + m * (a + b)) = -(m * b) by ring, abs_neg, abs_mul, abs_of_pos hm0] at c1
    rw [show q.y + m * b - (q.y + m * (b - a)) = m * a by ring, abs_mul, abs_of_pos hm0] at c2
    have t1 := tri q.x (m * (a + b))
    have t2 := tri q.y (m * (b - a))
    rw [abs_mul, abs_of_pos hm0] at t1 t2
    have t3 := mul_le_mul_of_nonneg_left (tri a b) hm0.le
    have t4 := mul_le_mul_of_nonneg_left (abs_sub b a) hm0.le
    nlinarith
  refine ⟨⟨⟨q.x + m * a, q.y + m * b⟩, ⟨q.x + m * (a + b), q.y + m * (b - a)⟩, true, true⟩, M, N, ?_, nAB, ?_, ?_, ?_, ?_⟩
  · have e0 : (c.center.x - q.x) ^ 2 + (c.center.y - q.y) ^ 2 - c.radius * c.radius = 0 := by
      rw [← ha, ← hb, ← hrr]; linarith
    unfold Inversion.invert_circle
    dsimp only
    rw [e0, abs_zero, if_neg (not_lt.2 sepsilon_pos.le), eM, eN, iM, iN, fM, fN]
    unfold mkLineX mkLine
    dsimp only
    rw [if_neg nAB]
    rfl
  · rw [hM]; unfold OnCircle sqDist
    have f1 : c.center.x = q.x + a := by linarith
    have f2 : c.center.y = q.y + b := by linarith
    rw [f1, f2]
    linear_combination hab
  · rw [hN]; unfold OnCircle sqDist
    have f1 : c.center.x = q.x + a := by linarith
    have f2 : c.center.y = q.y + b := by linarith
    rw [f1, f2]
    linear_combination hab
  · have : M ≠ q := (ne_of_not_allclose nM).symm
    simp only [xinv, if_neg this, sM, fM]
  · have : N ≠ q := (ne_of_not_allclose nN).symm
    simp only [xinv, if_neg this, sN, fN]

/-- Two different points on a line with unit normal. -/
theorem onLine_normal {b c E : ℝ} (hu : b ^ 2 + c ^ 2 = 1) {M N : Pt} (hne : M ≠ N) (hM : b * M.x + c * M.y = E) (hN : b * N.x + c * N.y = E) (P : Pt) :
    OnLine M N P ↔ b * P.x + c * P.y = E := by
  constructor
  · rintro ⟨t, rfl⟩
    simp
    linear_combination (1 - t) * hM + t * hN
  · intro hP
    rw [onLine_iff_cross hne]
    simp only [cross, Pt.sub_x, Pt.sub_y]
    have h1 : b * (N.x - M.x) + c * (N.y - M.y) = 0 := by linarith
    have h2 : b * (P.x - M.x) + c * (P.y - M.y) = 0 := by linarith
    obtain ⟨x, hx⟩ : ∃ x, x = N.x - M.x := ⟨_, rfl⟩
    obtain ⟨y, hy⟩ : ∃ y, y = N.y - M.y := ⟨_, rfl⟩
    obtain ⟨z, hz⟩ : ∃ z, z = P.x - M.x := ⟨_, rfl⟩
    obtain ⟨w, hw⟩ : ∃ w, w = P.y - M.y := ⟨_, rfl⟩
    rw [← hx, ← hy] at h1
    rw [← hz, ← hw] at h2
    rw [← hx, ← hy, ← hz, ← hw]
    linear_combination (-(x * w - y * z)) * hu + (b * w - c * z) * h1 - (b * y - c * x) * h2

theorem circ_inv (i : ℕ) : (⟨(circ i).center, (circ i).radius ^ 2⟩ : Inversion) = ⟨pole i, power i⟩ := rfl

/-- One step. -/
theorem step {i : ℕ} (hi : i < 5) {v : V} (h : Good v) {g : GCircle} (hg : Rep v g)
    (hr : ∀ c, g = .circle c → 1 / 10 ^ 4 < c.radius) :
    ∃ g', invertEntry (circ i) (some g) = .ok (some g') ∧ Rep (refl i v) g' := by
  have h' := good_refl hi h
  have hk := power_ne hi
  have hk1 : 1 ≤ power i := by rw [power_eq hi]; split_ifs <;> norm_num
  obtain ⟨q1, q2⟩ := pole_abs i
  cases g with
  | circle c =>
    have hpos := rep_valid hg
    obtain ⟨h1, h2, h3⟩ := hg
    have hrc := hr c rfl
    have hA' : (v.A : ℝ) ≠ 0 := by exact_mod_cast h1
    have hpow := power_of_pole hi h h1
    rw [← h2, ← h3] at hpow
    have hAabs := one_le_abs h1
    unfold invertEntry
    dsimp only
    rw [circ_inv]
    by_cases hz : (refl i v).A = 0
    · rw [hz, Int.cast_zero, mul_zero, zero_div, sub_eq_zero] at hpow
      have hr2 : c.radius ≤ 2 := by rw [h3, div_le_iff₀ (by positivity)]; linarith
      obtain ⟨l, M, N, e, hl, hM, hN, iM, iN⟩ := invert_through_pole q1 q2 hk1 hrc hr2 hpow
      refine ⟨.line l, by rw [e]; rfl, hz, hl, ?_⟩
      rw [h2, h3, onCircle_form h h1] at hM hN
      have fA := (form_inv hi v _).2 hM
      have fB := (form_inv hi v _).2 hN
      rw [iM] at fA
      rw [iN] at fB
      simp only [form, hz, Int.cast_zero] at fA fB
      have hu : ((refl i v).b : ℝ) ^ 2 + ((refl i v).c : ℝ) ^ 2 = 1 := by
        have := h'.1; rw [hz] at this
        have h5 : (refl i v).b ^ 2 + (refl i v).c ^ 2 = 1 := by linarith
        exact_mod_cast h5
      exact onLine_normal hu (ne_of_not_allclose hl) (by linarith) (by linarith)
    · have hz' : ((refl i v).A : ℝ) ≠ 0 := by exact_mod_cast hz
      have hzabs := one_le_abs hz
      have hbd : |(v.A : ℝ)| < 2 * 10 ^ 4 := by
        rw [h3, lt_div_iff₀ (by positivity)] at hrc; linarith
      have hbig : (1 : ℝ) / (2 * 10 ^ 4) ≤ |power i * (refl i v).A / v.A| := by
        rw [abs_div, abs_mul, abs_of_pos (by linarith : 0 < power i), div_le_div_iff₀ (by norm_num) (by positivity)]
        nlinarith
      obtain ⟨c', e, hv, -⟩ := C25_invert_circle ⟨pole i, power i⟩ hk c hpos (by
        dsimp only; rw [hpow]; refine lt_of_lt_of_le (by norm_num) hbig)
      obtain ⟨D, hD, hD0, hc, hrad, -⟩ := invert_circle_explicit e
      dsimp only at hD hc hrad
      rw [hpow] at hD
      refine ⟨.circle c', by rw [e]; rfl, hz, ?_, ?_⟩
      · rw [hc, hD, h2]; exact center_image hi h1 hz
      · rw [hrad, hD, h3]
        have e1 : power i / (power i * (refl i v).A / v.A) = v.A / (refl i v).A := by field_simp
        rw [e1, abs_div]
        field_simp
  | line l =>
    obtain ⟨h1, h2, h3⟩ := hg
    have hn := ne_of_not_allclose h2
    unfold invertEntry
    dsimp only
    rw [circ_inv]
    by_cases hz : v.b * px i + v.c * py i = v.E
    · have hon : OnLine l.A l.B (pole i) := by
        rw [h3]; simp only [pole]; exact_mod_cast hz
      refine ⟨.line l, (C26_through_pole ⟨pole i, power i⟩ hk l h2 hon).1, ?_⟩
      have : refl i v = v := by
        unfold refl
        by_cases h4 : i = 4
        · subst h4
          have hE : v.E = 0 := by rw [← hz]; simp [px, py]
          rw [if_pos rfl, hE, ← h1]
          cases v
          simp only at h1 hE
          simp [h1, hE]
        · rw [if_neg h4, hz, h1]
          cases v
          simp only at h1
          simp [h1]
      rw [this]
      exact ⟨h1, h2, h3⟩
    · have hA := (h3 l.A).1 ⟨0, by ext <;> simp⟩
      have hB := (h3 l.B).1 ⟨1, by ext <;> simp⟩
      obtain ⟨a1, a2⟩ := not_close h h1 i hA hz
      obtain ⟨b1, b2⟩ := not_close h h1 i hB hz
      have hnon : ¬ OnLine l.A l.B (pole i) := by
        rw [h3]; simp only [pole]; intro hh; apply hz; exact_mod_cast hh
      obtain ⟨c, e, hcr, hcp, hmap⟩ := C26_invert_line_partial ⟨pole i, power i⟩ hk l h2 hnon a1 b1 a2 b2
      have hz2 : (refl i v).A ≠ 0 := by
        intro h0
        have := (form_inv hi v (.fin (pole i))).1 (by simp [xinv, form, h0])
        apply hnon
        rw [h3]
        simp only [form, h1, Int.cast_zero] at this
        linarith
      refine ⟨.circle c, e, hz2, ?_⟩
      have hsub : ∀ P, OnCircle c.center c.radius P →
          OnCircle ⟨2 * (refl i v).b / (refl i v).A, 2 * (refl i v).c / (refl i v).A⟩ (2 / |((refl i v).A : ℝ)|) P := by
        intro P hP
        rw [onCircle_form h' hz2]
        by_cases hPp : P = pole i
        · have := (form_inv hi v .inf).2 (by simp [form, h1])
          rw [hPp]; exact this
        · obtain ⟨Q, hQ⟩ := isInverse_exists (power i) hPp
          have hQP := isInverse_symm hk hQ
          have hon := (hmap Q P hQP).2 hP
          rw [h3] at hon
          obtain ⟨n1, n2⟩ := isInverse_iff.1 hQP
          have hf := (form_inv hi v (.fin Q)).2 (by simp only [form, h1, Int.cast_zero]; linarith)
          have ex : xinv (pole i) (power i) (.fin Q) = .fin P := by
            have ed : sqDist Q (pole i) = dot (Q - pole i) (Q - pole i) := by simp [sqDist, dot]; ring
            simp only [xinv, if_neg n1, ed]
            exact congrArg XPt.fin n2.symm
          rw [ex] at hf
          exact hf
      have hp2 := one_le_abs hz2
      exact circle_subset hcr (by positivity) hsub

end Inversions
