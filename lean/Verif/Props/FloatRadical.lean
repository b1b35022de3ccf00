import Verif.Model.FloatRadical
import Verif.Props.FloatConstruct
import Verif.Props.FloatLines
import Verif.Props.Inversion

/-!
# C125: radical axes and images of circles in double precision
-/

open Spec Real Classical FG FT

namespace FX

theorem tiny4 : (2 : ℝ) ^ (-1073 : ℤ) = 4 * tiny := by
  unfold tiny
  rw [show (-1073 : ℤ) = 2 + -1075 by norm_num, zpow_add₀ (by norm_num)]
  norm_num

/-- A rounded quotient added to an exact number. -/
theorem add_quot {m t : ℝ} (hm : IsDouble m) : |fl (m + fl t) - (m + t)| ≤ |m + t| / 2 ^ 53 + 2 / 2 ^ 53 * |t| + 2 ^ (-1073 : ℤ) := by
  have h := last_add hm (fl_isDouble t) (fl_err' t)
  rw [add_comm _ m, add_comm _ m] at h
  refine h.trans ?_
  rw [tiny4]
  have t0 := tiny_pos
  have a0 := abs_nonneg t
  generalize |t| = a at *
  generalize |m + t| = b at *
  norm_num
  nlinarith

/-- A rounded product with a rounded factor. -/
theorem prod_err (a X : ℝ) : |fl (fl a * X) - a * X| ≤ (2 / 2 ^ 53 + 1 / 2 ^ 106) * |a * X| + 2 * tiny * (|X| + 1) := by
  obtain ⟨d, e, hd, he, q⟩ := fl_factor a
  obtain ⟨d', e', hd', he', q'⟩ := fl_factor (fl a * X)
  obtain ⟨c, hc, ec⟩ := mul_factor hd hd' (C := 2 / 2 ^ 53 + 1 / 2 ^ 106) (by norm_num)
  have e1 : fl (fl a * X) - a * X = a * X * c + (e * X * (1 + d') + e') := by
    rw [q', q]
    linear_combination a * X * ec
  have h1 : |1 + d'| ≤ 2 := (abs_add_le _ _).trans (by rw [abs_one]; norm_num at *; linarith)
  have t0 := tiny_pos
  rw [e1]
  calc |a * X * c + (e * X * (1 + d') + e')| ≤ |a * X| * |c| + (|e| * |X| * |1 + d'| + |e'|) := by
        rw [← abs_mul, ← abs_mul, ← abs_mul]
        exact (abs_add_le _ _).trans (by gcongr; exact abs_add_le _ _)
    _ ≤ |a * X| * (2 / 2 ^ 53 + 1 / 2 ^ 106) + (tiny * |X| * 2 + tiny) := by gcongr
    _ ≤ _ := by nlinarith [abs_nonneg X]

/-- The two coordinates of the radical center. -/
theorem radical_coord {C1 C2 P : Pt} {r1 r2 : ℝ} (hne : C1 ≠ C2) (hP : OnLine C1 C2 P) (hp : specPower C1 r1 P = specPower C2 r2 P) :
    P.x = (C1.x + C2.x) / 2 + (r1 * r1 - r2 * r2) / 2 * (C2.x - C1.x) / sqDist C2 C1 ∧
    P.y = (C1.y + C2.y) / 2 + (r1 * r1 - r2 * r2) / 2 * (C2.y - C1.y) / sqDist C2 C1 := by
  have hq : sqDist C2 C1 ≠ 0 := (sqDist_pos hne.symm).ne'
  obtain ⟨t, rfl⟩ := hP
  unfold specPower at hp
  have hq' : (C2.x - C1.x) ^ 2 + (C2.y - C1.y) ^ 2 ≠ 0 := by simpa [sqDist] using hq
  simp only [sqDist, Pt.add_x, Pt.add_y, Pt.smul_x, Pt.smul_y, Pt.sub_x, Pt.sub_y] at *
  have e : (2 * t - 1) * ((C2.x - C1.x) ^ 2 + (C2.y - C1.y) ^ 2) = r1 * r1 - r2 * r2 := by linear_combination hp
  rw [← e]
  constructor <;> · field_simp; ring

/-- The half of the difference of the squares times a difference. -/
theorem half_mul {K X : ℝ} (hK : IntB (2 ^ 35) K) (hX : IntB (2 ^ 18) X) : fl (fl (K / 2) * X) = K / 2 * X := by
  obtain ⟨k, rfl, hk⟩ := hK
  obtain ⟨x, rfl, hx⟩ := hX
  have hk' : |k| ≤ 2 ^ 35 := by exact_mod_cast hk
  have hx' : |x| ≤ 2 ^ 18 := by exact_mod_cast hx
  rw [FC.dbl_half k (hk'.trans (by norm_num))]
  have := FC.dbl_half (k * x) (by
    rw [abs_mul]
    calc |k| * |x| ≤ 2 ^ 35 * 2 ^ 18 := mul_le_mul hk' hx' (abs_nonneg _) (by norm_num)
      _ = _ := by norm_num)
  rw [show (k : ℝ) / 2 * x = ((k * x : ℤ) : ℝ) / 2 by push_cast; ring, this]

end FX

/-- C125: for integer centers and radii up to `2^17`, `Circle.radical_center` is infinite exactly for concentric circles; otherwise each
coordinate of the result is the coordinate of the radical center up to one rounding and two roundings of its difference with the
middle of the centers. -/
theorem C125_radical_center (k : Fma) (c1 c2 : Circle) (h1 : IntPt (2 ^ 17) c1.center) (h2 : IntPt (2 ^ 17) c2.center)
    (r1 : IntB (2 ^ 17) c1.radius) (r2 : IntB (2 ^ 17) c2.radius) :
    (c1.radical_centerF k c2 = .error .nonFinite ↔ c1.center = c2.center) ∧
    ∀ P, c1.center ≠ c2.center → OnLine c1.center c2.center P →
      specPower c1.center c1.radius P = specPower c2.center c2.radius P →
      ∃ R, c1.radical_centerF k c2 = .ok R ∧ DoublePt R ∧
        |R.x - P.x| ≤ |P.x| / 2 ^ 53 + 2 / 2 ^ 53 * |P.x - (c1.center.x + c2.center.x) / 2| + 2 ^ (-1073 : ℤ) ∧
        |R.y - P.y| ≤ |P.y| / 2 ^ 53 + 2 / 2 ^ 53 * |P.y - (c1.center.y + c2.center.y) / 2| + 2 ^ (-1073 : ℤ) := by
  obtain ⟨es, is⟩ := FI.subPt h2 h1 (by norm_num)
  have eK1 := FI.mul r1 r1
  have eK2 := FI.mul r2 r2
  have eK := FI.sub eK1 eK2
  have eq := FI.vdot k is is (by norm_num)
  have hq : vdotF k (c2.center - c1.center) (c2.center - c1.center) = sqDist c2.center c1.center := by
    rw [eq]; unfold sqDist; simp only [Pt.sub_x, Pt.sub_y]; ring
  have m1 := FC.mid_int (FI.mono h1.1 (by norm_num)) (FI.mono h2.1 (by norm_num))
  have m2 := FC.mid_int (FI.mono h1.2 (by norm_num)) (FI.mono h2.2 (by norm_num))
  have b1 := FX.half_mul (FI.mono eK (by norm_num)) (FI.mono is.1 (by norm_num))
  have b2 := FX.half_mul (FI.mono eK (by norm_num)) (FI.mono is.2 (by norm_num))
  have d1 : IsDouble ((c1.center.x + c2.center.x) / 2) := by rw [← m1]; exact fl_isDouble _
  have d2 : IsDouble ((c1.center.y + c2.center.y) / 2) := by rw [← m2]; exact fl_isDouble _
  unfold Circle.radical_centerF
  dsimp only
  rw [es, FI.fl eK1 (by norm_num), FI.fl eK2 (by norm_num), FI.fl eK (by norm_num), hq, m1, m2, b1, b2]
  constructor
  · constructor
    · intro h
      by_contra hne
      rw [if_neg (fun e => hne (sqDist_eq_zero.1 e).symm)] at h
      simp at h
    · intro h
      rw [if_pos (sqDist_eq_zero.2 h.symm)]
  · intro P hne hP hp
    obtain ⟨ex, ey⟩ := FX.radical_coord hne hP hp
    rw [if_neg (fun e => hne (sqDist_eq_zero.1 e).symm)]
    refine ⟨_, rfl, ⟨fl_isDouble _, fl_isDouble _⟩, ?_, ?_⟩
    · have := FX.add_quot (t := (c1.radius * c1.radius - c2.radius * c2.radius) / 2 * (c2.center - c1.center).x / sqDist c2.center c1.center) d1
      simp only [Pt.sub_x] at this ⊢
      rw [← ex] at this
      rw [show P.x - (c1.center.x + c2.center.x) / 2 = (c1.radius * c1.radius - c2.radius * c2.radius) / 2 * (c2.center.x - c1.center.x) /
        sqDist c2.center c1.center by rw [ex]; ring]
      exact this
    · have := FX.add_quot (t := (c1.radius * c1.radius - c2.radius * c2.radius) / 2 * (c2.center - c1.center).y / sqDist c2.center c1.center) d2
      simp only [Pt.sub_y] at this ⊢
      rw [← ey] at this
      rw [show P.y - (c1.center.y + c2.center.y) / 2 = (c1.radius * c1.radius - c2.radius * c2.radius) / 2 * (c2.center.y - c1.center.y) /
        sqDist c2.center c1.center by rw [ey]; ring]
      exact this

/-- The radical center of two circles of radii 5 and 4 with centers (0, 0) and (3, 0) is (3, 0). -/
example (k : Fma) : ∃ R : Pt, (⟨⟨0, 0⟩, 5⟩ : Circle).radical_centerF k ⟨⟨3, 0⟩, 4⟩ = .ok R ∧ |R.x - 3| ≤ 7 / 2 ^ 53 ∧
    |R.y| ≤ 2 ^ (-1073 : ℤ) := by
  obtain ⟨R, h, -, a, b⟩ := (C125_radical_center k ⟨⟨0, 0⟩, 5⟩ ⟨⟨3, 0⟩, 4⟩ ⟨⟨0, by norm_num, by norm_num⟩, ⟨0, by norm_num, by norm_num⟩⟩
    ⟨⟨3, by norm_num, by norm_num⟩, ⟨0, by norm_num, by norm_num⟩⟩ ⟨5, by norm_num, by norm_num⟩ ⟨4, by norm_num, by norm_num⟩).2 ⟨3, 0⟩
    (by intro h; norm_num [Pt.ext_iff] at h) ⟨1, by ext <;> simp⟩ (by norm_num [specPower, sqDist])
  have ts : (2 : ℝ) ^ (-1073 : ℤ) ≤ 1 / 2 ^ 100 := by
    rw [FX.tiny4]
    have := FI.tiny_small
    norm_num at *
    linarith
  refine ⟨R, h, ?_, ?_⟩
  · refine a.trans ?_
    norm_num [abs_of_pos] at ts ⊢
    linarith
  · simpa using b

namespace FX

/-- Numbers up to 90000 at a distance close to one or more are not close in the sense of `np.isclose`. -/
theorem not_npClose {a b : ℝ} (hb : |b| ≤ 90000) (ha : IsDouble a) (hb' : IsDouble b) (h : 99 / 100 ≤ |a - b|) : ¬ npClose64 a b := by
  unfold npClose64
  intro hc
  have h1 := fl_sub_err ha hb'
  have h2 := abs_sub_abs_le_abs_sub (a - b) (fl (a - b))
  rw [abs_sub_comm (a - b) (fl (a - b))] at h2
  have ht := FI.tiny_small
  have b0 := abs_nonneg b
  have e8 := (abs_le.1 (fl_err' (1 / 10 ^ 8))).2
  have e5 := (abs_le.1 (fl_err' (1 / 10 ^ 5))).2
  rw [abs_of_pos (by norm_num)] at e8 e5
  have n5 : 0 ≤ fl (1 / 10 ^ 5) := fl_nonneg (by norm_num)
  have n8 : 0 ≤ fl (1 / 10 ^ 8) := fl_nonneg (by norm_num)
  have q5 : fl (1 / 10 ^ 5) ≤ 10001 / 10 ^ 9 := by norm_num at *; linarith
  have q8 : fl (1 / 10 ^ 8) ≤ 2 / 10 ^ 8 := by norm_num at *; linarith
  have m : fl (1 / 10 ^ 5) * |b| ≤ 10001 / 10 ^ 9 * 90000 := by gcongr
  have m0 : 0 ≤ fl (1 / 10 ^ 5) * |b| := by positivity
  have em := (abs_le.1 (fl_err' (fl (1 / 10 ^ 5) * |b|))).2
  rw [abs_of_nonneg m0] at em
  have n0 : 0 ≤ fl (fl (1 / 10 ^ 5) * |b|) := fl_nonneg m0
  have es := (abs_le.1 (fl_err' (fl (1 / 10 ^ 8) + fl (fl (1 / 10 ^ 5) * |b|)))).2
  rw [abs_of_nonneg (add_nonneg n8 n0)] at es
  generalize |a - b| = w at *
  norm_num at *
  linarith

/-- The radical center of circles given by small integers is not far. -/
theorem radical_small {m K X q : ℝ} (hm : |m| ≤ 400) (hK : |K| ≤ 160000) (hX : |X| ≤ q) (hq : 0 < q) :
    |m + K / 2 * X / q| ≤ 80400 ∧ |m + K / 2 * X / q - m| ≤ 80000 := by
  have h : |K / 2 * X / q| ≤ 80000 := by
    rw [abs_div, abs_mul, abs_div, abs_of_pos hq, abs_two, div_le_iff₀ hq]
    have := abs_nonneg X
    nlinarith [abs_nonneg K]
  refine ⟨(abs_add_le _ _).trans (by linarith), by rwa [add_sub_cancel_left]⟩

theorem int_le_sq {B : ℕ} {x : ℝ} (h : IntB B x) : |x| ≤ x ^ 2 := by
  rcases eq_or_ne x 0 with rfl | h0
  · simp
  · have := FI.one_le_abs h h0
    rw [← sq_abs]
    nlinarith

theorem mid_small {a b : ℝ} (ha : IntB 400 a) (hb : IntB 400 b) : |(a + b) / 2| ≤ 400 := by
  have h1 := FI.abs_le ha
  have h2 := FI.abs_le hb
  have := abs_add_le a b
  rw [abs_div, abs_two]
  norm_num at *
  linarith

/-- The second point of the radical axis. -/
theorem second_err {R P v : ℝ} (hR : IsDouble R) (hv : IntB 800 v) (hP : |P| ≤ 80400) (h : |R - P| ≤ 1 / 2 ^ 35) :
    |fl (R + v) - (P + v)| ≤ 1 / 2 ^ 34 ∧ |fl (R + v)| ≤ 90000 ∧ |R - fl (R + v)| ≥ |v| - 1 / 2 ^ 30 := by
  have h1 := fl_add_err hR (FI.isDouble hv (by norm_num))
  have v1 := FI.abs_le hv
  have v2 : |v| ≤ 800 := by exact_mod_cast v1
  have p1 := abs_le.1 hP
  have p2 := abs_le.1 h
  have p3 := abs_le.1 v2
  have h2 : |R + v| ≤ 2 ^ 17 := by
    rw [abs_le]
    norm_num at *
    constructor <;> linarith
  have h3 : |fl (R + v) - (R + v)| ≤ 1 / 2 ^ 36 := h1.trans (by norm_num at *; linarith)
  have h4 := abs_le.1 h3
  refine ⟨?_, ?_, ?_⟩
  · rw [abs_le]
    norm_num at *
    constructor <;> linarith
  · rw [abs_le]
    norm_num at *
    constructor <;> linarith
  · have h5 : |(-v) - (R - fl (R + v))| = |fl (R + v) - (R + v)| := by congr 1; ring
    have h6 := abs_sub_abs_le_abs_sub (-v) (R - fl (R + v))
    rw [h5, abs_neg] at h6
    norm_num at *
    linarith

end FX

/-- C125: for integer centers and radii up to 400, `Circle.radical_axis` returns `None` exactly for concentric circles; otherwise it
returns a line both points of which are within `2^-34` of two points of the radical axis, the radical center and its translate by
the vector orthogonal to the line of the centers. -/
theorem C125_radical_axis (k : Fma) (c1 c2 : Circle) (h1 : IntPt 400 c1.center) (h2 : IntPt 400 c2.center)
    (r1 : IntB 400 c1.radius) (r2 : IntB 400 c2.radius) :
    (c1.radical_axisF k c2 = .ok none ↔ c1.center = c2.center) ∧
    ∀ P, c1.center ≠ c2.center → OnLine c1.center c2.center P →
      specPower c1.center c1.radius P = specPower c2.center c2.radius P →
      ∃ l : Line, c1.radical_axisF k c2 = .ok (some l) ∧ l.extendA = true ∧ l.extendB = true ∧
        |l.A.x - P.x| ≤ 1 / 2 ^ 35 ∧ |l.A.y - P.y| ≤ 1 / 2 ^ 35 ∧
        |l.B.x - (P.x - (c2.center.y - c1.center.y))| ≤ 1 / 2 ^ 34 ∧ |l.B.y - (P.y + (c2.center.x - c1.center.x))| ≤ 1 / 2 ^ 34 := by
  have hcl := FI.allclose (P := c1.center) (Q := c2.center) ⟨FI.mono h1.1 (by norm_num), FI.mono h1.2 (by norm_num)⟩
    ⟨FI.mono h2.1 (by norm_num), FI.mono h2.2 (by norm_num)⟩
  have main : ∀ P, c1.center ≠ c2.center → OnLine c1.center c2.center P →
      specPower c1.center c1.radius P = specPower c2.center c2.radius P →
      ∃ l : Line, c1.radical_axisF k c2 = .ok (some l) ∧ l.extendA = true ∧ l.extendB = true ∧
        |l.A.x - P.x| ≤ 1 / 2 ^ 35 ∧ |l.A.y - P.y| ≤ 1 / 2 ^ 35 ∧
        |l.B.x - (P.x - (c2.center.y - c1.center.y))| ≤ 1 / 2 ^ 34 ∧
        |l.B.y - (P.y + (c2.center.x - c1.center.x))| ≤ 1 / 2 ^ 34 := by
    intro P hne hP hp
    obtain ⟨R, eR, dR, bx, bY⟩ := (C125_radical_center k c1 c2 ⟨FI.mono h1.1 (by norm_num), FI.mono h1.2 (by norm_num)⟩
      ⟨FI.mono h2.1 (by norm_num), FI.mono h2.2 (by norm_num)⟩ (FI.mono r1 (by norm_num)) (FI.mono r2 (by norm_num))).2 P hne hP hp
    obtain ⟨ex, ey⟩ := FX.radical_coord hne hP hp
    obtain ⟨es, is⟩ := FI.subPt h2 h1 (by norm_num)
    have ix : IntB 800 (c2.center.x - c1.center.x) := is.1
    have iy : IntB 800 (c2.center.y - c1.center.y) := is.2
    have hq : 0 < sqDist c2.center c1.center := sqDist_pos hne.symm
    have qe : sqDist c2.center c1.center = (c2.center.x - c1.center.x) ^ 2 + (c2.center.y - c1.center.y) ^ 2 := rfl
    have qx : |c2.center.x - c1.center.x| ≤ sqDist c2.center c1.center := by
      rw [qe]; exact (FX.int_le_sq ix).trans (le_add_of_nonneg_right (sq_nonneg _))
    have qy : |c2.center.y - c1.center.y| ≤ sqDist c2.center c1.center := by
      rw [qe]; exact (FX.int_le_sq iy).trans (le_add_of_nonneg_left (sq_nonneg _))
    have hK : |c1.radius * c1.radius - c2.radius * c2.radius| ≤ 160000 := by
      have a1 := FI.abs_le r1
      have a2 := FI.abs_le r2
      push_cast at a1 a2
      have s1 : c1.radius * c1.radius ≤ 160000 := by rw [← sq, ← sq_abs]; nlinarith [abs_nonneg c1.radius]
      have s2 : c2.radius * c2.radius ≤ 160000 := by rw [← sq, ← sq_abs]; nlinarith [abs_nonneg c2.radius]
      rw [abs_le]
      constructor <;> nlinarith [mul_self_nonneg c1.radius, mul_self_nonneg c2.radius]
    obtain ⟨x1, x2⟩ := FX.radical_small (FX.mid_small h1.1 h2.1) hK qx hq
    obtain ⟨y1, y2⟩ := FX.radical_small (FX.mid_small h1.2 h2.2) hK qy hq
    rw [← ex] at x1 x2
    rw [← ey] at y1 y2
    have ts : (2 : ℝ) ^ (-1073 : ℤ) ≤ 1 / 2 ^ 100 := by
      rw [FX.tiny4]
      have := FI.tiny_small
      norm_num at *
      linarith
    have ax : |R.x - P.x| ≤ 1 / 2 ^ 35 := by
      refine bx.trans ?_
      norm_num at ts ⊢
      linarith
    have ay : |R.y - P.y| ≤ 1 / 2 ^ 35 := by
      refine bY.trans ?_
      norm_num at ts ⊢
      linarith
    obtain ⟨u1, u2, u3⟩ := FX.second_err dR.1 (FI.neg iy) x1 ax
    obtain ⟨w1, w2, w3⟩ := FX.second_err dR.2 ix y1 ay
    have far : ¬ allclose64 R (addF R ⟨-(c2.center.y - c1.center.y), c2.center.x - c1.center.x⟩) := by
      rintro ⟨n1, n2⟩
      have hor : c2.center.x - c1.center.x ≠ 0 ∨ c2.center.y - c1.center.y ≠ 0 := by
        by_contra hc
        push Not at hc
        rw [qe, hc.1, hc.2] at hq
        norm_num at hq
      rcases hor with h | h
      · have := FI.one_le_abs ix h
        exact FX.not_npClose w2 dR.2 (fl_isDouble _) (le_trans (by norm_num at *; linarith) w3) n2
      · have := FI.one_le_abs (FI.neg iy) (neg_ne_zero.2 h)
        exact FX.not_npClose u2 dR.1 (fl_isDouble _) (le_trans (by norm_num at *; linarith) u3) n1
    refine ⟨⟨R, addF R ⟨-(c2.center.y - c1.center.y), c2.center.x - c1.center.x⟩, true, true⟩, ?_, rfl, rfl, ax, ay, ?_, w1⟩
    · unfold Circle.radical_axisF
      rw [if_neg (mt hcl.1 hne)]
      dsimp only
      rw [eR, es]
      unfold mkLineF
      simp only [Pt.sub_x, Pt.sub_y]
      rw [Res.ok_bind, if_neg far]
      rfl
    · rw [← sub_eq_add_neg] at u1
      exact u1
  refine ⟨⟨fun h => ?_, fun h => ?_⟩, main⟩
  · by_contra hne
    obtain ⟨R, -, hl, hp⟩ := C15_radical_center c1 c2 hne
    obtain ⟨l, e, -⟩ := main R hne hl hp
    rw [e] at h
    simp at h
  · unfold Circle.radical_axisF
    rw [if_pos (hcl.2 h)]

/-- Two circles of radii 5 and 4 with centers (0, 0) and (3, 0): the radical axis is the line `x = 3`. -/
example (k : Fma) : ∃ l : Line, (⟨⟨0, 0⟩, 5⟩ : Circle).radical_axisF k ⟨⟨3, 0⟩, 4⟩ = .ok (some l) ∧
    |l.A.x - 3| ≤ 1 / 2 ^ 35 ∧ |l.B.x - 3| ≤ 1 / 2 ^ 34 ∧ |l.B.y - 3| ≤ 1 / 2 ^ 34 := by
  obtain ⟨l, h, -, -, a, -, b, c⟩ := (C125_radical_axis k ⟨⟨0, 0⟩, 5⟩ ⟨⟨3, 0⟩, 4⟩ ⟨⟨0, by norm_num, by norm_num⟩, ⟨0, by norm_num, by norm_num⟩⟩
    ⟨⟨3, by norm_num, by norm_num⟩, ⟨0, by norm_num, by norm_num⟩⟩ ⟨5, by norm_num, by norm_num⟩ ⟨4, by norm_num, by norm_num⟩).2 ⟨3, 0⟩
    (by intro h; norm_num [Pt.ext_iff] at h) ⟨1, by ext <;> simp⟩ (by norm_num [specPower, sqDist])
  refine ⟨l, h, a, ?_, ?_⟩
  · norm_num at b ⊢; exact b
  · norm_num at c ⊢; exact c

namespace FX

theorem dbl4 (n : ℤ) (h : |n| ≤ 2 ^ 53) {x : ℝ} (e : x = n / 4) : fl x = x := by
  rw [e]; exact FC.dbl_quarter n h

/-- The tolerance of `np.isclose` beyond 200000. -/
theorem npClose_far {a b : ℝ} (hb : 200000 ≤ |b|) (h : |fl (a - b)| ≤ 1) : npClose64 a b := by
  unfold npClose64
  refine h.trans ?_
  have n8 : 0 ≤ fl (1 / 10 ^ 8) := fl_nonneg (by norm_num)
  have ht := FI.tiny_small
  have e5 := (abs_le.1 (fl_err' (1 / 10 ^ 5))).1
  rw [abs_of_pos (by norm_num)] at e5
  have q5 : 9 / 10 ^ 6 ≤ fl (1 / 10 ^ 5) := by norm_num at *; linarith
  have one : fl 1 = 1 := by have := FC.dbl_int 1 (by norm_num); push_cast at this; exact this
  have m : 1 ≤ fl (1 / 10 ^ 5) * |b| := by nlinarith
  have m1 : 1 ≤ fl (fl (1 / 10 ^ 5) * |b|) := by have := fl_mono m; rwa [one] at this
  have m2 := fl_mono (show (1 : ℝ) ≤ fl (1 / 10 ^ 8) + fl (fl (1 / 10 ^ 5) * |b|) by linarith)
  rwa [one] at m2

end FX

/-- C125: for larger radii there may be no radical axis: the centers (0, 0) and (1, 1) with radii 1000 and 1; the two points of the
line are rejected as equal. -/
theorem C125_radical_axis_counterexample (k : Fma) : (⟨⟨0, 0⟩, 1000⟩ : Circle).radical_axisF k ⟨⟨1, 1⟩, 1⟩ =
    .error (.valueError "`A` and `B` must be distinct.") := by
  have f0 : fl 0 = 0 := fl_zero
  have f1 : fl 1 = 1 := FX.dbl4 4 (by norm_num) (by norm_num)
  have f2 : fl 2 = 2 := FX.dbl4 8 (by norm_num) (by norm_num)
  have fh : fl (1 / 2) = 1 / 2 := FX.dbl4 2 (by norm_num) (by norm_num)
  have g1 : fl 1000000 = 1000000 := FX.dbl4 4000000 (by norm_num) (by norm_num)
  have g2 : fl 999999 = 999999 := FX.dbl4 3999996 (by norm_num) (by norm_num)
  have g3 : fl (999999 / 2) = 999999 / 2 := FX.dbl4 1999998 (by norm_num) (by norm_num)
  have g4 : fl (999999 / 4) = 999999 / 4 := FX.dbl4 999999 (by norm_num) (by norm_num)
  have g5 : fl (1000001 / 4) = 1000001 / 4 := FX.dbl4 1000001 (by norm_num) (by norm_num)
  have g6 : fl (999997 / 4) = 999997 / 4 := FX.dbl4 999997 (by norm_num) (by norm_num)
  have g7 : fl (1000005 / 4) = 1000005 / 4 := FX.dbl4 1000005 (by norm_num) (by norm_num)
  have hv : vdotF k ⟨1, 1⟩ ⟨1, 1⟩ = 2 := by
    unfold vdotF
    cases k <;> norm_num [f1, f2]
  have hs : subF ⟨1, 1⟩ ⟨0, 0⟩ = ⟨1, 1⟩ := by
    unfold subF
    norm_num [f1]
  have hcl : ¬ allclose64 (⟨0, 0⟩ : Pt) ⟨1, 1⟩ := by
    rw [FI.allclose ⟨⟨0, by norm_num, by norm_num⟩, ⟨0, by norm_num, by norm_num⟩⟩ ⟨⟨1, by norm_num, by norm_num⟩, ⟨1, by norm_num, by norm_num⟩⟩]
    intro h
    norm_num [Pt.ext_iff] at h
  have hR : (⟨⟨0, 0⟩, 1000⟩ : Circle).radical_centerF k ⟨⟨1, 1⟩, 1⟩ = .ok ⟨1000001 / 4, 1000001 / 4⟩ := by
    unfold Circle.radical_centerF
    dsimp only
    rw [hs, hv, if_neg (by norm_num)]
    norm_num [f1, fh, g1, g2, g3, g4, g5]
  have hA : addF ⟨1000001 / 4, 1000001 / 4⟩ ⟨-1, 1⟩ = ⟨999997 / 4, 1000005 / 4⟩ := by
    unfold addF
    norm_num [g6, g7]
  have hc2 : allclose64 (⟨1000001 / 4, 1000001 / 4⟩ : Pt) ⟨999997 / 4, 1000005 / 4⟩ := by
    constructor
    · refine FX.npClose_far (by norm_num) ?_
      norm_num [f1]
    · refine FX.npClose_far (by norm_num) ?_
      norm_num [f1, fl_neg]
  unfold Circle.radical_axisF
  rw [if_neg hcl]
  dsimp only
  rw [hR, hs, Res.ok_bind]
  dsimp only
  rw [hA]
  unfold mkLineF
  rw [if_pos hc2]
  rfl

namespace FX

/-- The power of the pole is computed exactly. -/
theorem pole_power {B : ℕ} {O C : Pt} {r : ℝ} (hO : IntPt B O) (hC : IntPt B C) (hr : IntB B r) (hB : B ≤ 2 ^ 24) :
    subF C O = C - O ∧ fl (fl (fl ((C - O).x ^ 2) + fl ((C - O).y ^ 2)) - fl (r * r)) = sqDist C O - r ^ 2 ∧
    IntB (2 ^ 52) (sqDist C O - r ^ 2) := by
  obtain ⟨es, is⟩ := FI.subPt (FI.mono hC.1 hB |> fun a => (⟨a, FI.mono hC.2 hB⟩ : IntPt (2 ^ 24) C))
    (⟨FI.mono hO.1 hB, FI.mono hO.2 hB⟩ : IntPt (2 ^ 24) O) (by norm_num)
  have hr' := FI.mono hr hB
  have s1 := FI.mul is.1 is.1
  have s2 := FI.mul is.2 is.2
  have s3 := FI.add s1 s2
  have s4 := FI.mul hr' hr'
  have s5 := FI.sub s3 s4
  have e : sqDist C O - r ^ 2 = (C - O).x * (C - O).x + (C - O).y * (C - O).y - r * r := by
    unfold sqDist; simp only [Pt.sub_x, Pt.sub_y]; ring
  refine ⟨es, ?_, ?_⟩
  · rw [sq, sq, FI.fl s1 (by norm_num), FI.fl s2 (by norm_num), FI.fl s3 (by norm_num), FI.fl s4 (by norm_num), FI.fl s5 (by norm_num), e]
  · rw [e]; exact FI.mono s5 (by norm_num)

/-- A number which does not underflow is not rounded to zero. -/
theorem fl_pos {x : ℝ} (h : (2 : ℝ) ^ (-1074 : ℤ) ≤ x) : (2 : ℝ) ^ (-1074 : ℤ) ≤ fl x := by
  have := fl_mono h
  rwa [fl_double (isDouble_pow _ (by norm_num))] at this

theorem fl_abs (x : ℝ) : |fl x| = fl |x| := by
  rcases le_total 0 x with h | h
  · rw [abs_of_nonneg h, abs_of_nonneg (fl_nonneg h)]
  · rw [abs_of_nonpos h, abs_of_nonpos (fl_nonpos h), fl_neg]

end FX

/-- C125: for an integer pole, an integer center and an integer radius up to `2^24`, and for a power that is not smaller than `2^-1000`,
the image by `Inversion.invert_circle` of a circle that does not pass through the pole is a circle, and it is the image of the circle
up to one rounding of the coordinates of the center and three roundings of its difference with the pole and of the radius. -/
theorem C125_invert_circle (k1 k2 : Fma) (iota : Inversion) (c : Circle) (hO : IntPt (2 ^ 24) iota.pole)
    (hC : IntPt (2 ^ 24) c.center) (hr : IntB (2 ^ 24) c.radius) (hc : c.Valid) (hk : (2 : ℝ) ^ (-1000 : ℤ) ≤ |iota.power|)
    (hoff : ¬ OnCircle c.center c.radius iota.pole) :
    ∃ g g' : Circle, iota.invert_circleF k1 k2 c = .ok (.circle g) ∧ g.Valid ∧ g'.Valid ∧
      InvMapsOnto iota.pole iota.power (OnCircle c.center c.radius) (OnCircle g'.center g'.radius) ∧
      |g.center.x - g'.center.x| ≤ |g'.center.x| / 2 ^ 53 + 3 / 2 ^ 53 * |g'.center.x - iota.pole.x| + 2 ^ (-1000 : ℤ) ∧
      |g.center.y - g'.center.y| ≤ |g'.center.y| / 2 ^ 53 + 3 / 2 ^ 53 * |g'.center.y - iota.pole.y| + 2 ^ (-1000 : ℤ) ∧
      |g.radius - g'.radius| ≤ 3 / 2 ^ 53 * g'.radius + 2 ^ (-1000 : ℤ) := by
  obtain ⟨es, eD, iD⟩ := FX.pole_power hO hC hr le_rfl
  obtain ⟨-, is⟩ := FI.subPt hC hO (by norm_num)
  have hD0 : sqDist c.center iota.pole - c.radius ^ 2 ≠ 0 := by
    intro h; apply hoff; unfold OnCircle; rw [sqDist_comm]; linarith
  have hp : iota.power ≠ 0 := by
    intro h; rw [h, abs_zero] at hk; exact absurd hk (not_le.2 (two_zpow_pos _))
  have r1 : 1 ≤ c.radius := FI.one_le hr hc
  have D1 := FI.one_le_abs iD hD0
  have D2 := FI.abs_le iD
  obtain ⟨D, hD⟩ : ∃ D, D = sqDist c.center iota.pole - c.radius ^ 2 := ⟨_, rfl⟩
  rw [← hD] at eD hD0 D1 D2
  have D3 : |D| ≤ (2 : ℝ) ^ (52 : ℤ) := by norm_num at D2 ⊢; exact D2
  have hs : (2 : ℝ) ^ (-1074 : ℤ) ≤ |iota.power / D| := by
    rw [abs_div, le_div_iff₀ (by linarith)]
    calc (2 : ℝ) ^ (-1074 : ℤ) * |D| ≤ 2 ^ (-1074 : ℤ) * 2 ^ (52 : ℤ) := mul_le_mul_of_nonneg_left D3 (two_zpow_pos _).le
      _ = 2 ^ (-1022 : ℤ) := by rw [← zpow_add₀ (by norm_num)]; norm_num
      _ ≤ 2 ^ (-1000 : ℤ) := zpow_le_zpow_right₀ (by norm_num) (by norm_num)
      _ ≤ _ := hk
  have hs' : (2 : ℝ) ^ (-1074 : ℤ) ≤ |fl (iota.power / D)| := by rw [FX.fl_abs]; exact FX.fl_pos hs
  have hrad : (2 : ℝ) ^ (-1074 : ℤ) ≤ fl (|fl (iota.power / D)| * c.radius) := by
    apply FX.fl_pos
    have := two_zpow_pos (-1074)
    nlinarith
  have hrad0 : 0 < fl (|fl (iota.power / D)| * c.radius) := (two_zpow_pos _).trans_le hrad
  have hr' : 0 < |iota.power / D| * c.radius := mul_pos ((two_zpow_pos _).trans_le hs) (by linarith)
  have tail : ∀ X : ℝ, |X| ≤ 2 ^ 25 → (1 + 1 / 2 ^ 53) * (2 * tiny * (|X| + 1)) ≤ 2 ^ (-1000 : ℤ) := by
    intro X hX
    have t0 := tiny_pos
    have e1 : (2 : ℝ) ^ (-1000 : ℤ) = 2 ^ 75 * tiny := by
      unfold tiny
      rw [show (-1000 : ℤ) = 75 + -1075 by norm_num, zpow_add₀ (by norm_num)]
      norm_num
    rw [e1]
    have x0 := abs_nonneg X
    nlinarith [mul_nonneg t0.le x0, mul_le_mul_of_nonneg_left hX t0.le]
  have one : ∀ o X : ℝ, IsDouble o → |X| ≤ 2 ^ 25 →
      |fl (o + fl (fl (iota.power / D) * X)) - (o + iota.power / D * X)| ≤
        |o + iota.power / D * X| / 2 ^ 53 + 3 / 2 ^ 53 * |o + iota.power / D * X - o| + 2 ^ (-1000 : ℤ) := by
    intro o X ho hX
    have h := last_add ho (fl_isDouble _) (FX.prod_err (iota.power / D) X)
    rw [add_comm _ o, add_comm _ o] at h
    refine h.trans ?_
    rw [add_sub_cancel_left]
    have h2 := tail X hX
    have a0 := abs_nonneg (iota.power / D * X)
    generalize |iota.power / D * X| = a at *
    generalize 2 * tiny * (|X| + 1) = b at *
    generalize |o + iota.power / D * X| = w at *
    generalize (2 : ℝ) ^ (-1000 : ℤ) = z at *
    norm_num at *
    linarith
  have bx : |(c.center - iota.pole).x| ≤ 2 ^ 25 := by have := FI.abs_le is.1; norm_num at this ⊢; exact this
  have bY : |(c.center - iota.pole).y| ≤ 2 ^ 25 := by have := FI.abs_le is.2; norm_num at this ⊢; exact this
  refine ⟨⟨⟨fl (iota.pole.x + fl (fl (iota.power / D) * (c.center - iota.pole).x)),
      fl (iota.pole.y + fl (fl (iota.power / D) * (c.center - iota.pole).y))⟩, fl (|fl (iota.power / D)| * c.radius)⟩,
    ⟨iota.pole + (iota.power / D) • (c.center - iota.pole), |iota.power / D| * c.radius⟩, ?_, hrad0, hr', ?_, ?_, ?_, ?_⟩
  · unfold Inversion.invert_circleF
    dsimp only
    rw [es, eD, if_pos (lt_of_lt_of_le (by unfold sepsilon_; norm_num) D1)]
    unfold mkCircleF
    rw [if_neg (not_le.2 hrad0)]
    rfl
  · refine inv_circle_image hp (s := iota.power / D) ?_ rfl ?_
    · rw [← hD]; field_simp
    · simp only [mul_pow, sq_abs]
  · exact one _ _ (FI.isDouble hO.1 (by norm_num)) bx
  · exact one _ _ (FI.isDouble hO.2 (by norm_num)) bY
  · dsimp only
    have h := FX.prod_err |iota.power / D| c.radius
    rw [← FX.fl_abs] at h
    refine h.trans ?_
    have rB : |c.radius| ≤ 2 ^ 25 := by have := FI.abs_le hr; norm_num at this ⊢; linarith
    have h2 := tail _ rB
    rw [abs_of_pos hr']
    have b0 : 0 ≤ 2 * tiny * (|c.radius| + 1) := mul_nonneg (mul_nonneg (by norm_num) tiny_pos.le) (add_nonneg (abs_nonneg _) zero_le_one)
    generalize |iota.power / D| * c.radius = a at *
    generalize 2 * tiny * (|c.radius| + 1) = b at *
    generalize (2 : ℝ) ^ (-1000 : ℤ) = z at *
    norm_num at *
    linarith

/-- The circle of center (3, 4) and radius 2 and the inversion of pole (0, 0) and power 21: the center of the image is (3, 4) and its
radius is 2. -/
example (k1 k2 : Fma) : ∃ g : Circle, (⟨⟨0, 0⟩, 21⟩ : Inversion).invert_circleF k1 k2 ⟨⟨3, 4⟩, 2⟩ = .ok (.circle g) := by
  obtain ⟨g, -, h, -⟩ := C125_invert_circle k1 k2 ⟨⟨0, 0⟩, 21⟩ ⟨⟨3, 4⟩, 2⟩ ⟨⟨0, by norm_num, by norm_num⟩, ⟨0, by norm_num, by norm_num⟩⟩
    ⟨⟨3, by norm_num, by norm_num⟩, ⟨4, by norm_num, by norm_num⟩⟩ ⟨2, by norm_num, by norm_num⟩ (by norm_num [Circle.Valid])
    (by
      refine (zpow_le_zpow_right₀ (by norm_num) (by norm_num : (-1000 : ℤ) ≤ 0)).trans ?_
      norm_num) (by norm_num [OnCircle, sqDist])
  exact ⟨g, h⟩

/-- C125: for an integer pole, an integer center and an integer radius up to 30000, the image by `Inversion.invert_circle` of a circle
through the pole is a line, unless the two points of the line are rejected as equal; both points are close to points of the line which
is the image of the circle. -/
theorem C125_invert_circle_through_pole (k1 k2 : Fma) (iota : Inversion) (c : Circle) (hO : IntPt 30000 iota.pole)
    (hC : IntPt 30000 c.center) (hr : IntB 30000 c.radius) (hc : c.Valid) (hk : iota.power ≠ 0)
    (hon : OnCircle c.center c.radius iota.pole) :
    ∃ P Q P' Q' : Pt, iota.invert_circleF k1 k2 c =
        (if allclose64 P Q then .error (.valueError "`A` and `B` must be distinct.") else .ok (.line ⟨P, Q, true, true⟩)) ∧
      P' ≠ Q' ∧ InvMapsOnto iota.pole iota.power (OnCircle c.center c.radius) (OnLine P' Q') ∧
      |P.x - P'.x| ≤ |P'.x| / 2 ^ 53 + 11 / 2 ^ 53 * |P'.x - iota.pole.x| + 2 ^ (-1000 : ℤ) ∧
      |P.y - P'.y| ≤ |P'.y| / 2 ^ 53 + 11 / 2 ^ 53 * |P'.y - iota.pole.y| + 2 ^ (-1000 : ℤ) ∧
      |Q.x - Q'.x| ≤ |Q'.x| / 2 ^ 53 + 11 / 2 ^ 53 * |Q'.x - iota.pole.x| + 2 ^ (-1000 : ℤ) ∧
      |Q.y - Q'.y| ≤ |Q'.y| / 2 ^ 53 + 11 / 2 ^ 53 * |Q'.y - iota.pole.y| + 2 ^ (-1000 : ℤ) := by
  obtain ⟨es, eD, -⟩ := FX.pole_power hO hC hr (by norm_num)
  obtain ⟨et, it⟩ := FI.subPt hO hC (by norm_num)
  obtain ⟨eu, iu⟩ := FI.subPt hC it (by norm_num)
  have r0 : 0 < c.radius := hc
  have hD : sqDist c.center iota.pole = c.radius ^ 2 := by rw [sqDist_comm]; exact hon
  obtain ⟨w, hw⟩ : ∃ w, w = c.center - iota.pole := ⟨_, rfl⟩
  have hww : w.x ^ 2 + w.y ^ 2 = c.radius ^ 2 := by rw [hw, ← hD]; unfold sqDist; simp
  have hR90 : addF ⟨-(iota.pole - c.center).y, (iota.pole - c.center).x⟩ c.center =
      (⟨-(iota.pole - c.center).y, (iota.pole - c.center).x⟩ : Pt) + c.center ∧
      IntPt 90000 ((⟨-(iota.pole - c.center).y, (iota.pole - c.center).x⟩ : Pt) + c.center) := by
    have a := FI.add (FI.neg it.2) hC.1
    have b := FI.add it.1 hC.2
    refine ⟨?_, a, b⟩
    unfold addF
    dsimp only
    rw [FI.fl a (by norm_num), FI.fl b (by norm_num)]
    rfl
  obtain ⟨ev, iv⟩ := hR90
  -- the two points of the circle
  obtain ⟨A, hA⟩ : ∃ A, A = c.center - (iota.pole - c.center) := ⟨_, rfl⟩
  obtain ⟨B, hB⟩ : ∃ B, B = (⟨-(iota.pole - c.center).y, (iota.pole - c.center).x⟩ : Pt) + c.center := ⟨_, rfl⟩
  rw [← hA] at eu iu
  rw [← hB] at ev iv
  have dA : A - iota.pole = (2 : ℝ) • w := by rw [hA, hw]; ext <;> simp <;> ring
  have dB : B - iota.pole = ⟨w.x + w.y, w.y - w.x⟩ := by rw [hB, hw]; ext <;> simp <;> ring
  have nA : A ≠ iota.pole := by
    intro h
    rw [h] at dA
    have x0 := congrArg Pt.x dA
    have y0 := congrArg Pt.y dA
    simp at x0 y0
    rw [x0, y0] at hww
    nlinarith
  have nB : B ≠ iota.pole := by
    intro h
    rw [h] at dB
    have x0 := congrArg Pt.x dB
    have y0 := congrArg Pt.y dB
    simp at x0 y0
    nlinarith
  obtain ⟨P', hP'⟩ : ∃ P', IsInverse iota.pole iota.power A P' := ⟨_, isInverse_iff.2 ⟨nA, rfl⟩⟩
  obtain ⟨Q', hQ'⟩ : ∃ Q', IsInverse iota.pole iota.power B Q' := ⟨_, isInverse_iff.2 ⟨nB, rfl⟩⟩
  have dO : DoublePt iota.pole := ⟨FI.isDouble hO.1 (by norm_num), FI.isDouble hO.2 (by norm_num)⟩
  have hO9 : IntPt 90000 iota.pole := ⟨FI.mono hO.1 (by norm_num), FI.mono hO.2 (by norm_num)⟩
  have one : ∀ (k : Fma) (M N : Pt), IntPt 90000 M → M ≠ iota.pole → IsInverse iota.pole iota.power M N →
      ∃ R, iota.invertF k M = .ok (.fin R) ∧
        |R.x - N.x| ≤ |N.x| / 2 ^ 53 + 11 / 2 ^ 53 * |N.x - iota.pole.x| + 2 ^ (-1000 : ℤ) ∧
        |R.y - N.y| ≤ |N.y| / 2 ^ 53 + 11 / 2 ^ 53 * |N.y - iota.pole.y| + 2 ^ (-1000 : ℤ) := by
    intro k M N iM nM hN
    rcases C114_invert k iota M N dO ⟨FI.isDouble iM.1 (by norm_num), FI.isDouble iM.2 (by norm_num)⟩ hN with h | ⟨R, e, -, -, a, b⟩
    · exact absurd ((FI.allclose hO9 iM).1 h.2).symm nM
    · have sm : ∀ x : ℝ, IntB 180000 x → (2 : ℝ) ^ (-1073 : ℤ) * (|x| + 1) ≤ 2 ^ (-1000 : ℤ) := by
        intro x hx
        have e1 : (2 : ℝ) ^ (-1000 : ℤ) = 2 ^ (-1073 : ℤ) * 2 ^ 73 := by
          rw [show (-1000 : ℤ) = -1073 + 73 by norm_num, zpow_add₀ (by norm_num)]
          norm_num
        rw [e1]
        refine mul_le_mul_of_nonneg_left ?_ (two_zpow_pos _).le
        have := FI.abs_le hx
        norm_num at *
        linarith
      have s1 := sm _ (FI.sub iM.1 hO9.1)
      have s2 := sm _ (FI.sub iM.2 hO9.2)
      exact ⟨R, e, a.trans (by linarith), b.trans (by linarith)⟩
  obtain ⟨P, eP, p1, p2⟩ := one k1 A P' iu nA hP'
  obtain ⟨Q, eQ, q1, q2⟩ := one k2 B Q' iv nB hQ'
  -- the image is a line
  have hm : iota.power / (2 * c.radius ^ 2) ≠ 0 := div_ne_zero hk (by positivity)
  obtain ⟨m, hme⟩ : ∃ m, m = iota.power / (2 * c.radius ^ 2) := ⟨_, rfl⟩
  have hmk : iota.power = 2 * m * c.radius ^ 2 := by rw [hme]; field_simp
  rw [← hme] at hm
  have fP : P' = iota.pole + m • w := by
    rw [(isInverse_iff.1 hP').2, dA]
    have : dot ((2 : ℝ) • w) ((2 : ℝ) • w) = 4 * c.radius ^ 2 := by rw [← hww]; simp [dot]; ring
    rw [this, hmk, show 2 * m * c.radius ^ 2 / (4 * c.radius ^ 2) = m / 2 by field_simp; ring]
    ext <;> simp <;> ring
  have fQ : Q' = iota.pole + m • (⟨w.x + w.y, w.y - w.x⟩ : Pt) := by
    rw [(isInverse_iff.1 hQ').2, dB]
    have : dot (⟨w.x + w.y, w.y - w.x⟩ : Pt) ⟨w.x + w.y, w.y - w.x⟩ = 2 * c.radius ^ 2 := by rw [← hww]; simp [dot]; ring
    rw [this, hmk, show 2 * m * c.radius ^ 2 / (2 * c.radius ^ 2) = m by field_simp]
  have nPQ : P' ≠ Q' := by
    rw [fP, fQ]
    intro h
    have x0 := congrArg Pt.x h
    have y0 := congrArg Pt.y h
    simp only [Pt.add_x, Pt.add_y, Pt.smul_x, Pt.smul_y] at x0 y0
    have wy : w.y = 0 := by
      have : m * w.y = 0 := by linear_combination -x0
      exact (mul_eq_zero.1 this).resolve_left hm
    have wx : w.x = 0 := by
      have : m * w.x = 0 := by linear_combination y0
      exact (mul_eq_zero.1 this).resolve_left hm
    rw [wx, wy] at hww
    nlinarith
  refine ⟨P, Q, P', Q', ?_, nPQ, ?_, p1, p2, q1, q2⟩
  · unfold Inversion.invert_circleF
    dsimp only
    rw [es, eD, hD, sub_self, abs_zero, if_neg (by unfold sepsilon_; norm_num), et, eu, ev, eP, eQ]
    simp only [Res.ok_bind]
    unfold mkLineXF mkLineF
    dsimp only
    split_ifs
    · rfl
    · rfl
  · intro X Y hXY
    rw [inv_circle_through_pole hD hk hXY, onLine_iff_cross nPQ, ← hw, fP, fQ, hmk, ← hww]
    simp only [dot, cross, Pt.add_x, Pt.add_y, Pt.sub_x, Pt.sub_y, Pt.smul_x, Pt.smul_y]
    constructor
    · intro h
      linear_combination m / 2 * h
    · intro h
      have : m * (w.x * (Y.x - iota.pole.x - m * w.x) + w.y * (Y.y - iota.pole.y - m * w.y)) = 0 := by linear_combination h
      have := (mul_eq_zero.1 this).resolve_left hm
      linear_combination 2 * this

/-- The circle of center (3, 4) and radius 5 goes through the pole (0, 0); its image for the power 50 is a line. -/
example (k1 k2 : Fma) : ∃ P Q, (⟨⟨0, 0⟩, 50⟩ : Inversion).invert_circleF k1 k2 ⟨⟨3, 4⟩, 5⟩ =
    (if allclose64 P Q then .error (.valueError "`A` and `B` must be distinct.") else .ok (.line ⟨P, Q, true, true⟩)) := by
  obtain ⟨P, Q, -, -, h, -⟩ := C125_invert_circle_through_pole k1 k2 ⟨⟨0, 0⟩, 50⟩ ⟨⟨3, 4⟩, 5⟩
    ⟨⟨0, by norm_num, by norm_num⟩, ⟨0, by norm_num, by norm_num⟩⟩
    ⟨⟨3, by norm_num, by norm_num⟩, ⟨4, by norm_num, by norm_num⟩⟩ ⟨5, by norm_num, by norm_num⟩ (by norm_num [Circle.Valid])
    (by norm_num) (by norm_num [OnCircle, sqDist])
  exact ⟨P, Q, h⟩

/-- C125: for larger integers the power of the pole is not exact: a circle through the pole with a circle as its image. -/
theorem C125_invert_circle_counterexample (k1 k2 : Fma) : ∃ c : Circle, IntPt (2 ^ 30) c.center ∧ IntB (2 ^ 30) c.radius ∧ c.Valid ∧
    OnCircle c.center c.radius ⟨0, 0⟩ ∧ ∃ g : Circle, (⟨⟨0, 0⟩, 1⟩ : Inversion).invert_circleF k1 k2 c = .ok (.circle g) := by
  have fx : fl 723095460 = 723095460 := FX.dbl4 2892381840 (by norm_num) (by norm_num)
  have fy : fl 759250233 = 759250233 := FX.dbl4 3037000932 (by norm_num) (by norm_num)
  have gx : fl 522867044272611600 = 522867044272611584 := by
    rw [fl_eval (e := 6) (n := 8169797566759556) (by norm_num) (by norm_num [abs_of_pos]) (by norm_num [abs_of_pos]) (by norm_num [abs_lt])]
    norm_num
  have gy : fl 576460916310554289 = 576460916310554240 := by
    rw [fl_eval (e := 7) (n := 4503600908676205) (by norm_num) (by norm_num [abs_of_pos]) (by norm_num [abs_of_pos]) (by norm_num [abs_lt])]
    norm_num
  have gs : fl 1099327960583165824 = 1099327960583165824 := by
    rw [fl_eval (e := 7) (n := 8588499692055983) (by norm_num) (by norm_num [abs_of_pos]) (by norm_num [abs_of_pos]) (by norm_num [abs_lt])]
    norm_num
  have gr : fl 1099327960583165889 = 1099327960583165952 := by
    rw [fl_eval (e := 7) (n := 8588499692055984) (by norm_num) (by norm_num [abs_of_pos]) (by norm_num [abs_of_pos]) (by norm_num [abs_lt])]
    norm_num
  have gd : fl (-128) = -128 := FX.dbl4 (-512) (by norm_num) (by norm_num)
  have gq : fl (-1 / 128) = -1 / 128 := fl_double ⟨-1, -7, by norm_num, by norm_num, by norm_num [zpow_neg]⟩
  have gR : fl (1048488417 / 128) = 1048488417 / 128 := fl_double ⟨1048488417, -7, by norm_num, by norm_num, by norm_num [zpow_neg]⟩
  have hs : subF ⟨723095460, 759250233⟩ ⟨0, 0⟩ = ⟨723095460, 759250233⟩ := by
    unfold subF
    simp only [sub_zero, fx, fy]
  refine ⟨⟨⟨723095460, 759250233⟩, 1048488417⟩, ⟨⟨723095460, by norm_num, by norm_num⟩, ⟨759250233, by norm_num, by norm_num⟩⟩,
    ⟨1048488417, by norm_num, by norm_num⟩, by norm_num [Circle.Valid], by norm_num [OnCircle, sqDist], ?_⟩
  unfold Inversion.invert_circleF
  dsimp only
  rw [hs]
  dsimp only
  rw [show (723095460 : ℝ) ^ 2 = 522867044272611600 by norm_num, show (759250233 : ℝ) ^ 2 = 576460916310554289 by norm_num,
    show (1048488417 : ℝ) * 1048488417 = 1099327960583165889 by norm_num, gx, gy, gr,
    show (522867044272611584 : ℝ) + 576460916310554240 = 1099327960583165824 by norm_num, gs,
    show (1099327960583165824 : ℝ) - 1099327960583165952 = -128 by norm_num, gd, if_pos (by unfold sepsilon_; norm_num),
    show (1 : ℝ) / -128 = -1 / 128 by norm_num, gq, show |(-1 / 128 : ℝ)| * 1048488417 = 1048488417 / 128 by norm_num [abs_div], gR]
  unfold mkCircleF
  rw [if_neg (by norm_num)]
  exact ⟨_, rfl⟩
