import Verif.Lemmas.SoddyStart

/-! Three mutually tangent circles inside the unit circle: when the first lines of the scripts with Malfatti circles do not raise. -/

open Spec Real Classical MalfattiApollonian

namespace GV
noncomputable section

/-- The unit circle. -/
def unitC : Circle := ⟨⟨0, 0⟩, 1⟩

/-- The radical axis can be built when the centers are not too close and everything is in the unit disc. -/
theorem axis_unit {c1 c2 : Circle} {R : Pt} (b1x : |c1.center.x| ≤ 1) (b1y : |c1.center.y| ≤ 1) (b2x : |c2.center.x| ≤ 1) (b2y : |c2.center.y| ≤ 1)
    (hd : (1 / 60) ^ 2 ≤ sqDist c1.center c2.center) (hR : c1.radical_center c2 = .ok R) (bRx : |R.x| ≤ 1) (bRy : |R.y| ≤ 1) :
    ∃ l, c1.radical_axis c2 = .ok (some l) := by
  obtain ⟨dx, hdx⟩ : ∃ dx, dx = c2.center.x - c1.center.x := ⟨_, rfl⟩
  obtain ⟨dy, hdy⟩ : ∃ dy, dy = c2.center.y - c1.center.y := ⟨_, rfl⟩
  have hs : (1 / 60) ^ 2 ≤ dx ^ 2 + dy ^ 2 := by
    rw [hdx, hdy]; unfold sqDist at hd; linarith
  have big : 1 / 100 < |dx| ∨ 1 / 100 < |dy| := by
    by_contra hcon
    push Not at hcon
    have q1 : dx ^ 2 ≤ (1 / 100) ^ 2 := by rw [← sq_abs]; exact pow_le_pow_left₀ (abs_nonneg _) hcon.1 2
    have q2 : dy ^ 2 ≤ (1 / 100) ^ 2 := by rw [← sq_abs]; exact pow_le_pow_left₀ (abs_nonneg _) hcon.2 2
    norm_num at hs q1 q2
    linarith
  have adx : |dx| ≤ 2 := by rw [hdx]; exact (abs_sub _ _).trans (by linarith)
  have ady : |dy| ≤ 2 := by rw [hdy]; exact (abs_sub _ _).trans (by linarith)
  have n1 : ¬ allclose c1.center c2.center := by
    rintro ⟨k1, k2⟩
    unfold npClose at k1 k2
    rw [show c1.center.x - c2.center.x = -dx by rw [hdx]; ring, abs_neg] at k1
    rw [show c1.center.y - c2.center.y = -dy by rw [hdy]; ring, abs_neg] at k2
    rcases big with h | h <;> norm_num at k1 k2 <;> linarith
  refine ((C15_radical_axis_total c1 c2).2 n1).2 ⟨R, hR, ?_⟩
  rw [← hdx, ← hdy]
  rintro ⟨k1, k2⟩
  unfold npClose at k1 k2
  dsimp only at k1 k2
  rw [show R.x - (R.x - dy) = dy by ring] at k1
  rw [show R.y - (R.y + dx) = -dx by ring, abs_neg] at k2
  have a1 : |R.x - dy| ≤ 3 := (abs_sub _ _).trans (by linarith)
  have a2 : |R.y + dx| ≤ 3 := (abs_add_le _ _).trans (by linarith)
  rcases big with h | h <;> norm_num at k1 k2 <;> linarith

/-- The radical axis of two circles tangent from outside. -/
theorem axis_ext {c1 c2 : Circle} (h1 : 1 / 60 ≤ c1.radius) (h2 : 1 / 60 ≤ c2.radius) (b1x : |c1.center.x| ≤ 1) (b1y : |c1.center.y| ≤ 1)
    (b2x : |c2.center.x| ≤ 1) (b2y : |c2.center.y| ≤ 1) (ht : sqDist c1.center c2.center = (c1.radius + c2.radius) ^ 2) :
    ∃ l, c1.radical_axis c2 = .ok (some l) := by
  have p1 : 0 < c1.radius := by linarith
  have p2 : 0 < c2.radius := by linarith
  have hdot : dot1_ (c2.center - c1.center) = (c1.radius + c2.radius) ^ 2 := by
    rw [← ht]; simp only [dot1_, dot_, Pt.sub_x, Pt.sub_y]; unfold sqDist; ring
  have hR : c1.radical_center c2 = .ok ⟨(c2.radius * c1.center.x + c1.radius * c2.center.x) / (c1.radius + c2.radius),
      (c2.radius * c1.center.y + c1.radius * c2.center.y) / (c1.radius + c2.radius)⟩ := by
    unfold Circle.radical_center
    dsimp only
    rw [hdot, if_neg (by positivity)]
    congr 1
    ext
    · simp only [Pt.add_x, Pt.div_x, Pt.smul_x, Pt.sub_x]; field_simp; ring
    · simp only [Pt.add_y, Pt.div_y, Pt.smul_y, Pt.sub_y]; field_simp; ring
  have conv : ∀ a b : ℝ, |a| ≤ 1 → |b| ≤ 1 → |(c2.radius * a + c1.radius * b) / (c1.radius + c2.radius)| ≤ 1 := by
    intro a b ha hb
    rw [abs_div, abs_of_pos (show 0 < c1.radius + c2.radius by linarith), div_le_one (by linarith)]
    refine (abs_add_le _ _).trans ?_
    rw [abs_mul, abs_mul, abs_of_pos p1, abs_of_pos p2]
    nlinarith
  refine axis_unit b1x b1y b2x b2y ?_ hR (conv _ _ b1x b2x) (conv _ _ b1y b2y)
  rw [ht]
  exact pow_le_pow_left₀ (by norm_num) (by linarith) 2

/-- The radical axis of the unit circle and a circle tangent to it from inside. -/
theorem axis_int {c : Circle} (h1 : 0 < c.radius) (h2 : c.radius ≤ 59 / 60) (ht : sqDist c.center ⟨0, 0⟩ = (1 - c.radius) ^ 2) :
    |c.center.x| ≤ 1 ∧ |c.center.y| ≤ 1 ∧ ∃ l, unitC.radical_axis c = .ok (some l) := by
  have hE : 0 < 1 - c.radius := by linarith
  have hq : c.center.x ^ 2 + c.center.y ^ 2 = (1 - c.radius) ^ 2 := by unfold sqDist at ht; dsimp only at ht; linarith
  have ax : |c.center.x| ≤ 1 - c.radius := abs_le_of_sq_le_sq (by nlinarith [sq_nonneg c.center.y]) hE.le
  have ay : |c.center.y| ≤ 1 - c.radius := abs_le_of_sq_le_sq (by nlinarith [sq_nonneg c.center.x]) hE.le
  refine ⟨by linarith, by linarith, ?_⟩
  have hdot : dot1_ (c.center - unitC.center) = (1 - c.radius) ^ 2 := by
    rw [← hq]; simp only [dot1_, dot_, unitC, Pt.sub_x, Pt.sub_y]; ring
  have hR : unitC.radical_center c = .ok ⟨c.center.x / (1 - c.radius), c.center.y / (1 - c.radius)⟩ := by
    unfold Circle.radical_center
    dsimp only
    rw [hdot, if_neg (by positivity)]
    congr 1
    ext
    · simp only [unitC, Pt.add_x, Pt.div_x, Pt.smul_x, Pt.sub_x]; field_simp; ring
    · simp only [unitC, Pt.add_y, Pt.div_y, Pt.smul_y, Pt.sub_y]; field_simp; ring
  refine axis_unit (by simp [unitC]) (by simp [unitC]) (by linarith) (by linarith) ?_ hR ?_ ?_
  · rw [sqDist_comm]
    change (1 / 60) ^ 2 ≤ sqDist c.center ⟨0, 0⟩
    rw [ht]
    exact pow_le_pow_left₀ (by norm_num) (by linarith) 2
  · dsimp only
    rw [abs_div, abs_of_pos hE, div_le_one hE]; exact ax
  · dsimp only
    rw [abs_div, abs_of_pos hE, div_le_one hE]; exact ay

/-- The area of the triangle of two centers and the center of the unit circle. -/
theorem cross_int {c1 c2 : Circle} (h1 : sqDist c1.center ⟨0, 0⟩ = (1 - c1.radius) ^ 2) (h2 : sqDist c2.center ⟨0, 0⟩ = (1 - c2.radius) ^ 2)
    (h12 : sqDist c1.center c2.center = (c1.radius + c2.radius) ^ 2) :
    cross (c1.center - ⟨0, 0⟩) (c2.center - ⟨0, 0⟩) ^ 2 = 4 * (c1.radius * c2.radius) * (1 - c1.radius - c2.radius) := by
  unfold sqDist at h1 h2 h12
  simp only [cross, Pt.sub_x, Pt.sub_y]
  dsimp only at h1 h2 ⊢
  have a1 : c1.center.x ^ 2 + c1.center.y ^ 2 = (1 - c1.radius) ^ 2 := by linarith
  have a2 : c2.center.x ^ 2 + c2.center.y ^ 2 = (1 - c2.radius) ^ 2 := by linarith
  have a3 : c1.center.x * c2.center.x + c1.center.y * c2.center.y = ((1 - c1.radius) ^ 2 + (1 - c2.radius) ^ 2 - (c1.radius + c2.radius) ^ 2) / 2 := by
    linarith
  have lag : ((c1.center.x - 0) * (c2.center.y - 0) - (c1.center.y - 0) * (c2.center.x - 0)) ^ 2 = (c1.center.x ^ 2 + c1.center.y ^ 2) *
    (c2.center.x ^ 2 + c2.center.y ^ 2) - (c1.center.x * c2.center.x + c1.center.y * c2.center.y) ^ 2 := by ring
  rw [lag, a1, a2, a3]
  ring

/-- The centers are on a line when the radii add up to that of the outer circle. -/
theorem flat_int {c1 c2 O : Circle} (h1 : sqDist c1.center O.center = (O.radius - c1.radius) ^ 2)
    (h2 : sqDist c2.center O.center = (O.radius - c2.radius) ^ 2) (h12 : sqDist c1.center c2.center = (c1.radius + c2.radius) ^ 2)
    (h : c1.radius + c2.radius = O.radius) : Collinear O.center c1.center c2.center := by
  have key : cross (c1.center - O.center) (c2.center - O.center) ^ 2 = sqDist c1.center O.center * sqDist c2.center O.center -
      ((sqDist c1.center O.center + sqDist c2.center O.center - sqDist c1.center c2.center) / 2) ^ 2 := by
    simp only [cross, Pt.sub_x, Pt.sub_y]
    unfold sqDist
    ring
  rw [h1, h2, h12, ← h] at key
  unfold Collinear
  have : cross (c1.center - O.center) (c2.center - O.center) ^ 2 = 0 := by rw [key]; ring
  exact pow_eq_zero_iff (two_ne_zero) |>.1 this

/-- `from_fixing_three_circles` raises when the centers are on a line. -/
theorem fixing_flat {c1 c2 c3 : Circle} (h : Collinear c1.center c2.center c3.center) (iota : Inversion) :
    Inversion.from_fixing_three_circles c1 c2 c3 ≠ .ok iota := by
  intro hf
  unfold Inversion.from_fixing_three_circles at hf
  rw [Res.bind_ok] at hf
  obtain ⟨o, ho, hf⟩ := hf
  rw [(C16_radical_center_none_iff _ _ _ _ ho).2 h] at hf
  cases hf

/-- The centers of three mutually tangent circles are not on a line. -/
theorem tangent_not_collinear {c0 c1 c2 : Circle} (v0 : 0 < c0.radius) (v1 : 0 < c1.radius) (v2 : 0 < c2.radius)
    (h01 : sqDist c0.center c1.center = (c0.radius + c1.radius) ^ 2) (h02 : sqDist c0.center c2.center = (c0.radius + c2.radius) ^ 2)
    (h12 : sqDist c1.center c2.center = (c1.radius + c2.radius) ^ 2) : ¬ Collinear c0.center c1.center c2.center := by
  unfold Collinear
  intro h
  have key : cross (c1.center - c0.center) (c2.center - c0.center) ^ 2 = sqDist c0.center c1.center * sqDist c0.center c2.center -
      ((sqDist c0.center c1.center + sqDist c0.center c2.center - sqDist c1.center c2.center) / 2) ^ 2 := by
    simp only [cross, Pt.sub_x, Pt.sub_y]
    unfold sqDist
    ring
  rw [h, h01, h02, h12] at key
  have : 0 < 4 * (c0.radius * c1.radius * c2.radius) * (c0.radius + c1.radius + c2.radius) := by positivity
  nlinarith

/-- `from_fixing_three_circles` does not raise. -/
theorem fixing_ok {c1 c2 c3 : Circle} (h2 : ∃ l, c1.radical_axis c2 = .ok (some l)) (h3 : ∃ l, c1.radical_axis c3 = .ok (some l))
    (hnc : ¬ Collinear c1.center c2.center c3.center) : ∃ iota, Inversion.from_fixing_three_circles c1 c2 c3 = .ok iota := by
  obtain ⟨l1, h1⟩ := h2
  obtain ⟨l2, h2⟩ := h3
  have hrc := radical_center_ok.2 ⟨l1, l2, h1, h2, rfl⟩
  have hnn := mt (C16_radical_center_none_iff _ _ _ _ hrc).1 hnc
  obtain ⟨R, hRR⟩ := Option.ne_none_iff_exists'.1 hnn
  rw [hRR] at hrc
  refine ⟨⟨R, c1.power R⟩, ?_⟩
  unfold Inversion.from_fixing_three_circles
  rw [hrc]; rfl

/-- The power of the pole of an inversion with respect to a circle. -/
theorem gv_power {m : GV} (hm : pr m m = 1) (h0 : m 0 ≠ 0) {c : Circle} (hc : c.Valid) :
    (sqDist c.center (inv m).pole - c.radius ^ 2) * m 0 ^ 2 = 1 - 2 * m 0 * c.radius * pr m (circ c) := by
  have hr : 0 < c.radius := hc
  have e : pr m (circ c) * c.radius = m 2 * c.center.x + m 3 * c.center.y - (m 0 * (c.center.x ^ 2 + c.center.y ^ 2 - c.radius ^ 2) + m 1) / 2 := by
    simp only [pr, circ, Matrix.cons_val_zero, Matrix.cons_val_one, Matrix.cons_val]
    field_simp
  rw [show 2 * m 0 * c.radius * pr m (circ c) = 2 * m 0 * (pr m (circ c) * c.radius) by ring, e]
  unfold pr at hm
  unfold inv sqDist
  dsimp only
  field_simp
  linear_combination hm

variable {c0 c1 c2 : Circle}

/-- The pole of a mirror that is not too curved is far from the unit circle. -/
theorem pole_far {m : GV} (hm : pr m m = 1) (h0 : m 0 ≠ 0) (hb : |m 0| ≤ 59) (ho : pr m (circ unitC) = 0) :
    1 + 1 / 2 ^ 13 ≤ Spec.dist (inv m).pole ⟨0, 0⟩ := by
  have e := orth_power hm h0 (c := unitC) (by unfold Circle.Valid unitC; norm_num) ho
  have hq : m 0 ^ 2 ≤ 59 ^ 2 := by rw [← sq_abs]; exact pow_le_pow_left₀ (abs_nonneg _) hb 2
  have hpos : 0 < m 0 ^ 2 := by positivity
  have hp : 1 / 59 ^ 2 ≤ (inv m).power := one_div_le_one_div_of_le hpos hq
  unfold Spec.dist
  apply Real.le_sqrt_of_sq_le
  rw [sqDist_comm]
  change _ ≤ sqDist unitC.center _
  have : unitC.radius = 1 := rfl
  rw [this] at e
  norm_num at hp ⊢
  linarith

set_option maxHeartbeats 1000000 in
/-- Everything works when the radii are at least `1/60` and no two of them add up to 1. -/
theorem unit_ok (h : Soddy c0 c1 c2 unitC) (r0 : 1 / 60 ≤ c0.radius) (r1 : 1 / 60 ≤ c1.radius) (r2 : 1 / 60 ≤ c2.radius)
    (n01 : c0.radius + c1.radius ≠ 1) (n02 : c0.radius + c2.radius ≠ 1) (n12 : c1.radius + c2.radius ≠ 1) :
    ∃ i0 i1 i2 i3 g0 g1 g2 g3, Inversion.from_fixing_three_circles unitC c1 c2 = .ok i0 ∧ Inversion.from_fixing_three_circles unitC c0 c2 = .ok i1 ∧
      Inversion.from_fixing_three_circles unitC c0 c1 = .ok i2 ∧ Inversion.from_fixing_three_circles c0 c1 c2 = .ok i3 ∧
      i0.invert_circle c0 = .ok (.circle g0) ∧ i1.invert_circle c1 = .ok (.circle g1) ∧ i2.invert_circle c2 = .ok (.circle g2) ∧
      i3.invert_circle unitC = .ok (.circle g3) ∧
      (1 + 1 / 2 ^ 13 ≤ Spec.dist i0.pole ⟨0, 0⟩) ∧ (1 + 1 / 2 ^ 13 ≤ Spec.dist i1.pole ⟨0, 0⟩) ∧ (1 + 1 / 2 ^ 13 ≤ Spec.dist i2.pole ⟨0, 0⟩) ∧
      1 / 2 ^ 26 ≤ i3.power := by
  have x01 := cross_int h.i0 h.i1 h.t01
  have x02 := cross_int h.i0 h.i2 h.t02
  have x12 := cross_int h.i1 h.i2 h.t12
  have p0 : 0 < c0.radius := by linarith
  have p1 : 0 < c1.radius := by linarith
  have p2 : 0 < c2.radius := by linarith
  have room : ∀ {a b u : ℝ}, 0 < a → 0 < b → u ^ 2 = 4 * (a * b) * (1 - a - b) → a + b ≤ 1 := by
    intro a b u ha hb hu
    by_contra hc
    push Not at hc
    have : 4 * (a * b) * (1 - a - b) < 0 := mul_neg_of_pos_of_neg (by positivity) (by linarith)
    nlinarith [sq_nonneg u]
  have s01 := room p0 p1 x01
  have s02 := room p0 p2 x02
  have s12 := room p1 p2 x12
  have nc : ∀ {a b : Circle}, 0 < a.radius → 0 < b.radius → a.radius + b.radius ≠ 1 →
      cross (a.center - ⟨0, 0⟩) (b.center - ⟨0, 0⟩) ^ 2 = 4 * (a.radius * b.radius) * (1 - a.radius - b.radius) →
      ¬ Collinear unitC.center a.center b.center := by
    intro a b ha hb hn hx hc
    unfold Collinear at hc
    change cross (a.center - ⟨0, 0⟩) (b.center - ⟨0, 0⟩) = 0 at hc
    rw [hc] at hx
    have : 4 * (a.radius * b.radius) * (1 - a.radius - b.radius) = 0 := by rw [← hx]; norm_num
    rcases mul_eq_zero.1 this with h' | h'
    · exact absurd h' (by positivity)
    · exact hn (by linarith)
  obtain ⟨a0x, a0y, ax0⟩ := axis_int p0 (by linarith) h.i0
  obtain ⟨a1x, a1y, ax1⟩ := axis_int p1 (by linarith) h.i1
  obtain ⟨a2x, a2y, ax2⟩ := axis_int p2 (by linarith) h.i2
  obtain ⟨i0, f0⟩ := fixing_ok ax1 ax2 (nc p1 p2 n12 x12)
  obtain ⟨i1, f1⟩ := fixing_ok ax0 ax2 (nc p0 p2 n02 x02)
  obtain ⟨i2, f2⟩ := fixing_ok ax0 ax1 (nc p0 p1 n01 x01)
  obtain ⟨i3, f3⟩ := fixing_ok (axis_ext r0 r1 a0x a0y a1x a1y h.t01) (axis_ext r0 r2 a0x a0y a2x a2y h.t02)
    (tangent_not_collinear p0 p1 p2 h.t01 h.t02 h.t12)
  have hn := mir_self h
  have ho := mir_orth h
  obtain ⟨m0, rfl⟩ := fixing_gv (hn 0) h.vO h.v1 h.v2 ((ho 0).2.2.2 (by decide)) ((ho 0).2.1 (by decide)) ((ho 0).2.2.1 (by decide)) f0
  obtain ⟨m1, rfl⟩ := fixing_gv (hn 1) h.vO h.v0 h.v2 ((ho 1).2.2.2 (by decide)) ((ho 1).1 (by decide)) ((ho 1).2.2.1 (by decide)) f1
  obtain ⟨m2, rfl⟩ := fixing_gv (hn 2) h.vO h.v0 h.v1 ((ho 2).2.2.2 (by decide)) ((ho 2).1 (by decide)) ((ho 2).2.1 (by decide)) f2
  obtain ⟨m3, rfl⟩ := fixing_gv (hn 3) h.v0 h.v1 h.v2 ((ho 3).1 (by decide)) ((ho 3).2.1 (by decide)) ((ho 3).2.2.1 (by decide)) f3
  have k : ∀ {a : ℝ}, 1 / 60 ≤ a → a < 1 → 1 / a ≤ 60 ∧ 1 ≤ 1 / a := by
    intro a ha ha'
    have hp : 0 < a := by linarith
    constructor
    · rw [div_le_iff₀ hp]; linarith
    · rw [le_div_iff₀ hp]; linarith
  obtain ⟨u0, w0⟩ := k r0 h.l0
  obtain ⟨u1, w1⟩ := k r1 h.l1
  obtain ⟨u2, w2⟩ := k r2 h.l2
  have e0 : mir (four c0 c1 c2 unitC) 0 0 = (1 / 2 : ℝ) * (1 / c0.radius + 1 / c1.radius + 1 / c2.radius + -(1 / 1)) - 1 / c0.radius := rfl
  have e1 : mir (four c0 c1 c2 unitC) 1 0 = (1 / 2 : ℝ) * (1 / c0.radius + 1 / c1.radius + 1 / c2.radius + -(1 / 1)) - 1 / c1.radius := rfl
  have e2 : mir (four c0 c1 c2 unitC) 2 0 = (1 / 2 : ℝ) * (1 / c0.radius + 1 / c1.radius + 1 / c2.radius + -(1 / 1)) - 1 / c2.radius := rfl
  have e3 : mir (four c0 c1 c2 unitC) 3 0 = (1 / 2 : ℝ) * (1 / c0.radius + 1 / c1.radius + 1 / c2.radius + -(1 / 1)) - -(1 / 1) := rfl
  have d0 := pole_far (hn 0) m0 (by rw [e0, abs_le]; constructor <;> linarith) ((ho 0).2.2.2 (by decide))
  have d1 := pole_far (hn 1) m1 (by rw [e1, abs_le]; constructor <;> linarith) ((ho 1).2.2.2 (by decide))
  have d2 := pole_far (hn 2) m2 (by rw [e2, abs_le]; constructor <;> linarith) ((ho 2).2.2.2 (by decide))
  have far : ∀ {c : Circle} {m : GV}, c.Valid → c.radius < 1 → sqDist c.center ⟨0, 0⟩ = (1 - c.radius) ^ 2 → m 0 ≠ 0 →
      1 + 1 / 2 ^ 13 ≤ Spec.dist (inv m).pole ⟨0, 0⟩ → ∃ g, (inv m).invert_circle c = .ok (.circle g) := by
    intro c m hc hl ht h0 hd
    have := far_outside (c := c) (O := unitC) (I := (inv m).pole) (g := 1 / 2 ^ 13) hc
      (by
        change Spec.dist c.center ⟨0, 0⟩ + c.radius ≤ 1
        rw [(dist_eq_iff (by linarith)).2 ht]; linarith) (by norm_num) hd
    obtain ⟨g, e, -⟩ := C25_invert_circle (inv m) (inv_power_pos h0).ne' c hc (by
      refine lt_of_lt_of_le ?_ (le_abs_self _)
      refine lt_of_le_of_lt ?_ this
      norm_num)
    exact ⟨g, e⟩
  obtain ⟨g0, k0⟩ := far h.v0 h.l0 h.i0 m0 d0
  obtain ⟨g1, k1⟩ := far h.v1 h.l1 h.i1 m1 d1
  obtain ⟨g2, k2⟩ := far h.v2 h.l2 h.i2 m2 d2
  obtain ⟨M, hM⟩ : ∃ M, M = mir (four c0 c1 c2 unitC) 3 0 := ⟨_, rfl⟩
  have hM1 : 2 ≤ M := by rw [hM, e3]; linarith
  have hM2 : M ≤ 100 := by rw [hM, e3]; linarith
  have hpw : 1 / 2 ^ 26 ≤ (inv (mir (four c0 c1 c2 unitC) 3)).power := by
    unfold inv
    rw [← hM]
    apply one_div_le_one_div_of_le (by positivity)
    nlinarith
  have h3v : pr (mir (four c0 c1 c2 unitC) 3) (circ unitC) = 2 := by
    have := (four_spec h).mir_v 3 3
    rw [if_pos rfl] at this
    change pr _ (-circ unitC) = -2 at this
    rw [pr_neg'] at this
    linarith
  have hD := gv_power (hn 3) m3 (c := unitC) h.vO
  rw [h3v, ← hM] at hD
  have hr1 : unitC.radius = 1 := rfl
  rw [hr1] at hD
  obtain ⟨g3, k3, -⟩ := C25_invert_circle (inv (mir (four c0 c1 c2 unitC) 3)) (inv_power_pos m3).ne' unitC h.vO (by
    rw [hr1]
    obtain ⟨D, hDe⟩ : ∃ D, D = sqDist unitC.center (inv (mir (four c0 c1 c2 unitC) 3)).pole - 1 ^ 2 := ⟨_, rfl⟩
    rw [← hDe] at hD ⊢
    refine lt_of_lt_of_le ?_ (neg_le_abs D)
    by_contra hc
    push Not at hc
    norm_num at hc
    nlinarith)
  exact ⟨_, _, _, _, g0, g1, g2, g3, f0, f1, f2, f3, k0, k1, k2, k3, d0, d1, d2, hpw⟩

end
end GV
