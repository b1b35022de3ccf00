import Verif.Props.FloatCircles

/-!
# C116: intersections of circles and lines with integer data in double precision
-/

open Spec Real Classical

namespace FI
open FG FT

/-- A rounding of a number that is not small, as a factor. -/
theorem fl_rel {x : ℝ} (h : 1 ≤ |x|) : ∃ d, |d| ≤ 1 / 2 ^ 53 ∧ _root_.fl x = x * (1 + d) := by
  apply rel_factor (by norm_num)
  rcases fl_err x with h1 | h1
  · exact h1.trans_eq (by ring)
  · refine h1.1.trans ((tiny_small).trans ?_)
    norm_num
    linarith

/-- A coordinate of one of two points of intersection. -/
theorem two_err {A : ℕ} {G w Δ n C T r : ℝ} (hG : IntB A G) (hA : A ≤ 2 ^ 53) (hC : IntB A C) (hΔ : 1 ≤ Δ) (hn : 1 ≤ n) (hr : 1 ≤ r)
    (hT : T = (G + w * √Δ) / n) (hTr : |T| ≤ r) (hw : |w * √Δ| ≤ r * n) :
    |_root_.fl (_root_.fl (_root_.fl (G + _root_.fl (w * _root_.fl √Δ)) / n) + C) - (T + C)| ≤ (|T + C| + 5 * r) / 2 ^ 53 := by
  have s1 : 1 ≤ |√Δ| := by rw [abs_of_nonneg (Real.sqrt_nonneg _), Real.one_le_sqrt]; exact hΔ
  obtain ⟨d0, h0, r0⟩ := fl_rel s1
  obtain ⟨d1, e1, h1, g1, r1⟩ := fl_factor (w * _root_.fl √Δ)
  obtain ⟨d2, h2, r2⟩ := add_factor (isDouble hG hA) (fl_isDouble (w * _root_.fl √Δ))
  obtain ⟨d3, e3, h3, g3, r3⟩ := fl_factor (_root_.fl (G + _root_.fl (w * _root_.fl √Δ)) / n)
  obtain ⟨a, ha, ea⟩ := mul_factor h0 h1 (C := 2 / 2 ^ 53 + 1 / 2 ^ 106) (by norm_num)
  obtain ⟨c, hc, ec⟩ := mul_factor h2 h3 (C := 2 / 2 ^ 53 + 1 / 2 ^ 106) (by norm_num)
  have hn0 : n ≠ 0 := by linarith
  have key : _root_.fl (_root_.fl (G + _root_.fl (w * _root_.fl √Δ)) / n) - T = T * c + (w * √Δ / n * a + e1 / n) * (1 + c) + e3 := by
    have hcc : c = (1 + d2) * (1 + d3) - 1 := by rw [ec]; ring
    rw [r3, r2, r1, r0, hT, hcc]
    have : w * (√Δ * (1 + d0)) * (1 + d1) = w * √Δ * (1 + a) := by rw [← ea]; ring
    rw [this]
    field_simp
    ring
  have t0 := tiny_pos
  have t1 := tiny_small
  have b1 : |T * c| ≤ r * (2 / 2 ^ 53 + 1 / 2 ^ 106) := by rw [abs_mul]; gcongr
  have b2 : |w * √Δ / n * a| ≤ r * (2 / 2 ^ 53 + 1 / 2 ^ 106) := by
    rw [abs_mul]
    gcongr
    rw [abs_div, abs_of_pos (by linarith : 0 < n), div_le_iff₀ (by linarith)]
    exact hw
  have b3 : |e1 / n| ≤ tiny := by
    rw [abs_div, abs_of_pos (by linarith : 0 < n), div_le_iff₀ (by linarith)]
    nlinarith
  have b4 : |1 + c| ≤ 1 + (2 / 2 ^ 53 + 1 / 2 ^ 106) := (abs_add_le _ _).trans (by rw [abs_one]; gcongr)
  have b5 : |_root_.fl (_root_.fl (G + _root_.fl (w * _root_.fl √Δ)) / n) - T| ≤ r * (4 / 2 ^ 53 + 1 / 2 ^ 100) + 3 * tiny := by
    rw [key]
    calc |T * c + (w * √Δ / n * a + e1 / n) * (1 + c) + e3|
        ≤ |T * c| + (|w * √Δ / n * a| + |e1 / n|) * |1 + c| + |e3| := by
          refine (abs_add_le _ _).trans (add_le_add_left ((abs_add_le _ _).trans ?_) _)
          rw [abs_mul (w * √Δ / n * a + e1 / n)]
          gcongr
          exact abs_add_le _ _
      _ ≤ r * (2 / 2 ^ 53 + 1 / 2 ^ 106) + (r * (2 / 2 ^ 53 + 1 / 2 ^ 106) + tiny) * (1 + (2 / 2 ^ 53 + 1 / 2 ^ 106)) + tiny := by gcongr
      _ ≤ _ := by norm_num; linarith
  have h := last_add (isDouble hC hA) (fl_isDouble _) b5
  refine h.trans ?_
  norm_num at t1 ⊢
  linarith

/-- A coordinate of the single point of intersection. -/
theorem one_err {A : ℕ} {D w n C T r : ℝ} (hA : A ≤ 2 ^ 53) (hC : IntB A C) (hn : 1 ≤ n) (hr : 1 ≤ r) (hw : |w| ≤ 2 ^ 53)
    (hT : T = D / n * w) (hTr : |T| ≤ r) :
    |_root_.fl (_root_.fl (_root_.fl (D / n) * w) + C) - (T + C)| ≤ (|T + C| + 5 * r) / 2 ^ 53 := by
  obtain ⟨d1, e1, h1, g1, r1⟩ := fl_factor (D / n)
  obtain ⟨d2, e2, h2, g2, r2⟩ := fl_factor (_root_.fl (D / n) * w)
  obtain ⟨c, hc, ec⟩ := mul_factor h1 h2 (C := 2 / 2 ^ 53 + 1 / 2 ^ 106) (by norm_num)
  have key : _root_.fl (_root_.fl (D / n) * w) - T = T * c + (e1 * w * (1 + d2) + e2) := by
    have : c = (1 + d1) * (1 + d2) - 1 := by rw [ec]; ring
    rw [r2, r1, hT, this]
    ring
  have t0 := tiny_pos
  have t1 := tiny_small
  have b1 : |T * c| ≤ r * (2 / 2 ^ 53 + 1 / 2 ^ 106) := by rw [abs_mul]; gcongr
  have b4 : |1 + d2| ≤ 2 := (abs_add_le _ _).trans (by rw [abs_one]; norm_num at *; linarith)
  have b2 : |e1 * w * (1 + d2)| ≤ tiny * 2 ^ 53 * 2 := by
    rw [abs_mul, abs_mul]
    gcongr
  have b5 : |_root_.fl (_root_.fl (D / n) * w) - T| ≤ r * (2 / 2 ^ 53 + 1 / 2 ^ 106) + (tiny * 2 ^ 53 * 2 + tiny) := by
    rw [key]
    exact (abs_add_le _ _).trans (add_le_add b1 ((abs_add_le _ _).trans (add_le_add b2 g2)))
  have h := last_add (isDouble hC hA) (fl_isDouble _) b5
  refine h.trans ?_
  norm_num at t1 ⊢
  linarith

/-- An integer with another bound. -/
theorem of_abs {A B : ℕ} {x : ℝ} (hx : IntB A x) (h : |x| ≤ B) : IntB B x := by
  obtain ⟨m, rfl, -⟩ := hx
  refine ⟨m, rfl, ?_⟩
  rw [← Int.cast_abs] at h
  exact_mod_cast h

end FI

/-- The common points of a line and a circle. -/
theorem FI.common_iff {A B C Y : Pt} {r n D dx dy : ℝ} (h : A ≠ B) (hdx : dx = B.x - A.x) (hdy : dy = B.y - A.y)
    (hn : n = dx * dx + dy * dy) (hD : D = (A.x - C.x) * (B.y - C.y) - (B.x - C.x) * (A.y - C.y)) :
    (OnLine A B Y ∧ OnCircle C r Y) ↔
      ∃ w, w ^ 2 = r * r * n - D * D ∧ Y.x = (D * dy + w * dx) / n + C.x ∧ Y.y = (-D * dx + w * dy) / n + C.y := by
  have hs := sqDist_pos h
  have es : sqDist A B = n := by rw [hn, hdx, hdy]; unfold sqDist; ring
  have eD : cross (A - C) (B - C) = D := by rw [hD]; simp only [cross, Pt.sub_x, Pt.sub_y]; ring
  rw [es] at hs
  have hn0 := hs.ne'
  constructor
  · rintro ⟨h1, h2⟩
    refine ⟨dot (Y - C) (B - A), ?_, ?_, ?_⟩
    · rw [(oncircle_rel h h1).1 h2, es, eD]; ring
    · rw [online_rel (C := C) h, eD] at h1
      simp only [cross, dot, Pt.sub_x, Pt.sub_y] at h1 ⊢
      rw [← sub_eq_iff_eq_add, eq_div_iff hn0, hn, ← h1, hdx, hdy]
      ring
    · rw [online_rel (C := C) h, eD] at h1
      simp only [cross, dot, Pt.sub_x, Pt.sub_y] at h1 ⊢
      rw [← sub_eq_iff_eq_add, eq_div_iff hn0, hn, ← h1, hdx, hdy]
      ring
  · rintro ⟨w, hw, hx, hy⟩
    rw [← sub_eq_iff_eq_add, eq_div_iff hn0] at hx hy
    have ed : dot (Y - C) (B - A) = w := by
      apply mul_right_cancel₀ hn0
      simp only [dot, Pt.sub_x, Pt.sub_y]
      rw [← hdx, ← hdy]
      linear_combination dx * hx + dy * hy - w * hn
    have ol : OnLine A B Y := by
      rw [online_rel (C := C) h, eD]
      apply mul_right_cancel₀ hn0
      simp only [cross, Pt.sub_x, Pt.sub_y]
      rw [← hdx, ← hdy]
      linear_combination dy * hx - dx * hy - D * hn
    refine ⟨ol, (oncircle_rel h ol).2 ?_⟩
    rw [ed, es, eD, hw]
    ring

/-- The coordinates of one of two points of intersection. -/
theorem FI.two_close {D dx dy n r Δ x y σ : ℝ} (iD : IntB 72000000 D) (idx : IntB 6000 dx) (idy : IntB 6000 dy)
    (hn : n = dx * dx + dy * dy) (hΔ : Δ = r * r * n - D * D) (npos : 0 < n) (hx : IntB (2 ^ 53) x) (hy : IntB (2 ^ 53) y)
    (hΔ1 : 1 ≤ Δ) (hr1 : 1 ≤ r) (hn1 : 1 ≤ n) (hσ : σ ^ 2 = 1) :
    |_root_.fl (_root_.fl (_root_.fl (D * dy + _root_.fl (σ * dx * _root_.fl √Δ)) / n) + x) - ((D * dy + σ * √Δ * dx) / n + x)| ≤
      (|(D * dy + σ * √Δ * dx) / n + x| + 5 * r) / 2 ^ 53 ∧
    |_root_.fl (_root_.fl (_root_.fl (-D * dx + _root_.fl (σ * dy * _root_.fl √Δ)) / n) + y) - ((-D * dx + σ * √Δ * dy) / n + y)| ≤
      (|(-D * dx + σ * √Δ * dy) / n + y| + 5 * r) / 2 ^ 53 := by
  have h0 : 0 ≤ Δ := by linarith
  have hs2 : √Δ ^ 2 = Δ := Real.sq_sqrt h0
  have rp : 0 ≤ r := by linarith
  have wb : ∀ u v : ℝ, u * u + v * v = n → |σ * u * √Δ| ≤ r * n := by
    intro u v huv
    apply abs_le_of_sq_le_sq
    · have : (σ * u * √Δ) ^ 2 = u * u * Δ := by rw [mul_pow, mul_pow, hσ, hs2]; ring
      rw [this, mul_pow]
      have a1 : u * u ≤ n := by linarith [mul_self_nonneg v]
      have a2 : Δ ≤ r ^ 2 * n := by rw [hΔ]; linarith [mul_self_nonneg D]
      calc u * u * Δ ≤ n * (r ^ 2 * n) := mul_le_mul a1 a2 h0 npos.le
        _ = _ := by ring
    · positivity
  have ho : ((D * dy + σ * √Δ * dx) / n) ^ 2 + ((-D * dx + σ * √Δ * dy) / n) ^ 2 = r ^ 2 := by
    have hw : (σ * √Δ) ^ 2 = Δ := by rw [mul_pow, hσ, hs2]; ring
    generalize σ * √Δ = w at *
    have : D * D + w ^ 2 = r * r * n := by linarith
    have hn0 := npos.ne'
    field_simp
    linear_combination n * this - (D ^ 2 + w ^ 2) * hn
  have b1 := sq_nonneg ((D * dy + σ * √Δ * dx) / n)
  have b2 := sq_nonneg ((-D * dx + σ * √Δ * dy) / n)
  constructor
  · exact FI.two_err (FI.mono (FI.mul iD idy) (by norm_num)) le_rfl hx hΔ1 hn1 hr1 (by ring)
      (abs_le_of_sq_le_sq (by linarith) rp) (wb dx dy hn.symm)
  · exact FI.two_err (FI.mono (FI.mul (FI.neg iD) idx) (by norm_num)) le_rfl hy hΔ1 hn1 hr1 (by ring)
      (abs_le_of_sq_le_sq (by linarith) rp) (wb dy dx (by rw [hn]; ring))

/-- `Q` is the point `X` up to the rounding errors allowed for a point of a circle of radius `r`. -/
def Spec.CloseOnCircle (r : ℝ) (Q X : Pt) : Prop := |Q.x - X.x| ≤ (|X.x| + 5 * r) / 2 ^ 53 ∧ |Q.y - X.y| ≤ (|X.y| + 5 * r) / 2 ^ 53

/-- C116: for integer data of moderate size `intersection_circle_line` gives the right number of points, each coordinate with an error
of at most one rounding of the coordinate and five of the radius. -/
theorem C116_circle_line (c : Circle) (l : Line) (hc : IntPt 3000 c.center) (hr : IntB 10000 c.radius) (hp : 0 < c.radius)
    (hA : IntPt 3000 l.A) (hB : IntPt 3000 l.B) (hne : l.A ≠ l.B) :
    (intersection_circle_lineF c l = .none ∧ ¬ ∃ X, OnLine l.A l.B X ∧ OnCircle c.center c.radius X) ∨
    (∃ Q X, intersection_circle_lineF c l = .one Q ∧ CloseOnCircle c.radius Q X ∧
      ∀ Y, (OnLine l.A l.B Y ∧ OnCircle c.center c.radius Y) ↔ Y = X) ∨
    (∃ Q1 Q2 X1 X2, intersection_circle_lineF c l = .two Q1 Q2 ∧ CloseOnCircle c.radius Q1 X1 ∧ CloseOnCircle c.radius Q2 X2 ∧ X1 ≠ X2 ∧
      ∀ Y, (OnLine l.A l.B Y ∧ OnCircle c.center c.radius Y) ↔ Y = X1 ∨ Y = X2) := by
  obtain ⟨eA, iA⟩ := FI.subPt hA hc (by norm_num)
  obtain ⟨eB, iB⟩ := FI.subPt hB hc (by norm_num)
  have idx : IntB 6000 ((l.B - c.center).x - (l.A - c.center).x) := by
    have := FI.sub hB.1 hA.1
    rw [Pt.sub_x, Pt.sub_x, sub_sub_sub_cancel_right]
    exact this
  have idy : IntB 6000 ((l.B - c.center).y - (l.A - c.center).y) := by
    have := FI.sub hB.2 hA.2
    rw [Pt.sub_y, Pt.sub_y, sub_sub_sub_cancel_right]
    exact this
  obtain ⟨eD, iD⟩ := FI.det iA.1 iA.2 iB.1 iB.2 (by norm_num)
  obtain ⟨dx, hdx⟩ : ∃ dx, dx = (l.B - c.center).x - (l.A - c.center).x := ⟨_, rfl⟩
  obtain ⟨dy, hdy⟩ : ∃ dy, dy = (l.B - c.center).y - (l.A - c.center).y := ⟨_, rfl⟩
  obtain ⟨D, hD⟩ : ∃ D, D = (l.A - c.center).x * (l.B - c.center).y - (l.B - c.center).x * (l.A - c.center).y := ⟨_, rfl⟩
  obtain ⟨n, hn⟩ : ∃ n, n = dx * dx + dy * dy := ⟨_, rfl⟩
  have com := fun Y => FI.common_iff (C := c.center) (Y := Y) (r := c.radius) hne (hdx.trans (by simp only [Pt.sub_x]; ring))
    (hdy.trans (by simp only [Pt.sub_y]; ring)) hn hD
  have hn1 : n ≠ 0 := by
    have := sqDist_pos hne
    intro h0
    rw [hn, hdx, hdy] at h0
    simp only [Pt.sub_x, Pt.sub_y] at h0
    unfold sqDist at this
    nlinarith
  rw [← hD] at eD iD
  rw [← hdx] at idx
  rw [← hdy] at idy
  have fdx := FI.fl idx (by norm_num)
  have fdy := FI.fl idy (by norm_num)
  have ixx := FI.mul idx idx
  have iyy := FI.mul idy idy
  have inn := FI.add ixx iyy
  have fxx := FI.fl ixx (by norm_num)
  have fyy := FI.fl iyy (by norm_num)
  have fnn := FI.fl inn (by norm_num)
  rw [← hn] at inn fnn
  have irr := FI.mul hr hr
  have frr := FI.fl irr (by norm_num)
  have irn := FI.mul irr inn
  have frn := FI.fl irn (by norm_num)
  have iDD := FI.mul iD iD
  have fDD := FI.fl iDD (by norm_num)
  have hr1 : 1 ≤ c.radius := FI.one_le hr hp
  have npos : 0 < n := lt_of_le_of_ne (by rw [hn]; nlinarith [sq_nonneg dx, sq_nonneg dy]) (Ne.symm hn1)
  have none' : 1 ≤ n := FI.one_le inn npos
  obtain ⟨Δ, hΔ⟩ : ∃ Δ, Δ = c.radius * c.radius * n - D * D := ⟨_, rfl⟩
  have iΔ' := FI.sub irn iDD
  rw [← hΔ] at iΔ'
  have iΔ : IntB (2 ^ 53) Δ := by
    apply FI.of_abs iΔ'
    have b1 := FI.abs_le irn
    have b2 := FI.abs_le iDD
    have b3 : 0 ≤ c.radius * c.radius * n := by positivity
    have b4 := mul_self_nonneg D
    rw [abs_of_nonneg b3] at b1
    rw [abs_of_nonneg b4] at b2
    rw [hΔ, abs_le]
    norm_num at b1 b2 ⊢
    constructor <;> linarith
  have fΔ : fl Δ = Δ := FI.fl iΔ le_rfl
  have cond : circle_line_intersectionF (l.A - c.center) (l.B - c.center) c.radius =
      if Δ < 0 then .none
      else if Δ < 1 / 2 ^ 26 then .one ⟨fl (fl (D / n) * dy), fl (fl (D / n) * -dx)⟩
      else .two
        ⟨fl (fl (D * dy + fl ((if dy < 0 then -1 else 1) * dx * fl √Δ)) / n), fl (fl (-D * dx + fl (|dy| * fl √Δ)) / n)⟩
        ⟨fl (fl (D * dy - fl ((if dy < 0 then -1 else 1) * dx * fl √Δ)) / n), fl (fl (-D * dx - fl (|dy| * fl √Δ)) / n)⟩ := by
    unfold circle_line_intersectionF
    dsimp only
    rw [← hdx, ← hdy, fdx, fdy, fxx, fyy, ← hn, fnn, eD, frr, frn, fDD, ← hΔ, fΔ, FI.fl (FI.mul iD idy) (by norm_num),
      FI.fl (FI.mul (FI.neg iD) idx) (by norm_num)]
  have hcx : IntB (2 ^ 53) c.center.x := FI.mono hc.1 (by norm_num)
  have hcy : IntB (2 ^ 53) c.center.y := FI.mono hc.2 (by norm_num)
  have bdx := FI.abs_le idx
  have bdy := FI.abs_le idy
  unfold intersection_circle_lineF
  rw [eA, eB, cond]
  by_cases h0 : Δ < 0
  · left
    rw [if_pos h0]
    refine ⟨rfl, ?_⟩
    rintro ⟨Y, hY⟩
    obtain ⟨w, hw, -⟩ := (com Y).1 hY
    rw [← hΔ] at hw
    linarith [sq_nonneg w]
  right
  rw [if_neg h0]
  rw [not_lt] at h0
  by_cases h1 : Δ < 1 / 2 ^ 26
  · left
    rw [if_pos h1]
    have hz : Δ = 0 := (FI.lt_tol iΔ h0).1 h1
    have sq1 : (D / n * dy) ^ 2 + (D / n * -dx) ^ 2 = c.radius ^ 2 := by
      have : D * D = c.radius * c.radius * n := by linarith
      field_simp
      linear_combination n * this - D ^ 2 * hn
    refine ⟨_, ⟨D / n * dy + c.center.x, D / n * -dx + c.center.y⟩, rfl, ⟨?_, ?_⟩, ?_⟩
    · exact FI.one_err le_rfl hcx none' hr1 (bdy.trans (by norm_num)) rfl (abs_le_of_sq_le_sq (by nlinarith [sq_nonneg (D / n * -dx)]) hp.le)
    · exact FI.one_err le_rfl hcy none' hr1 (by rw [abs_neg]; exact bdx.trans (by norm_num)) rfl
        (abs_le_of_sq_le_sq (by nlinarith [sq_nonneg (D / n * dy)]) hp.le)
    · intro Y
      rw [com Y, ← hΔ, hz]
      constructor
      · rintro ⟨w, hw, hx, hy⟩
        have : w = 0 := pow_eq_zero_iff (two_ne_zero) |>.1 hw
        subst this
        ext
        · rw [hx]; ring
        · rw [hy]; ring
      · rintro rfl
        exact ⟨0, by ring, by ring, by ring⟩
  · right
    rw [if_neg h1]
    have hΔ1 : 1 ≤ Δ := FI.one_le iΔ (lt_of_lt_of_le (by norm_num) (not_lt.1 h1))
    obtain ⟨σ, hσ⟩ : ∃ σ : ℝ, σ = if dy < 0 then -1 else 1 := ⟨_, rfl⟩
    have hσ2 : σ ^ 2 = 1 := by rw [hσ]; split_ifs <;> norm_num
    have hσy : |dy| = σ * dy := by
      rw [hσ]
      split_ifs with hh
      · rw [abs_of_neg hh]; ring
      · rw [abs_of_nonneg (not_lt.1 hh)]; ring
    have hs2 : √Δ ^ 2 = Δ := Real.sq_sqrt h0
    rw [← hσ, hσy]
    obtain ⟨p1, p2⟩ := FI.two_close iD idx idy hn hΔ npos hcx hcy hΔ1 hr1 none' hσ2
    obtain ⟨m1, m2⟩ := FI.two_close (σ := -σ) iD idx idy hn hΔ npos hcx hcy hΔ1 hr1 none' (by rw [neg_sq]; exact hσ2)
    rw [show -σ * dx * fl √Δ = -(σ * dx * fl √Δ) by ring, show -σ * √Δ * dx = -(σ * √Δ * dx) by ring, fl_neg, ← sub_eq_add_neg] at m1
    rw [show -σ * dy * fl √Δ = -(σ * dy * fl √Δ) by ring, show -σ * √Δ * dy = -(σ * √Δ * dy) by ring, fl_neg, ← sub_eq_add_neg] at m2
    have hs2 : √Δ ^ 2 = Δ := Real.sq_sqrt h0
    have hσs : (σ * √Δ) ^ 2 = Δ := by rw [mul_pow, hσ2, hs2]; ring
    refine ⟨_, _, ⟨(D * dy + σ * √Δ * dx) / n + c.center.x, (-D * dx + σ * √Δ * dy) / n + c.center.y⟩,
      ⟨(D * dy + -(σ * √Δ * dx)) / n + c.center.x, (-D * dx + -(σ * √Δ * dy)) / n + c.center.y⟩, rfl, ⟨p1, p2⟩, ⟨m1, m2⟩, ?_, ?_⟩
    · intro he
      have hw : σ * √Δ ≠ 0 := by
        intro hw
        rw [hw] at hσs
        linarith
      have ex := congrArg Pt.x he
      have ey := congrArg Pt.y he
      dsimp only at ex ey
      field_simp at ex ey
      have zx : dx = 0 := by
        have h : σ * √Δ * dx = 0 := by linarith
        exact (mul_eq_zero.1 h).resolve_left hw
      have zy : dy = 0 := by
        have h : σ * √Δ * dy = 0 := by linarith
        exact (mul_eq_zero.1 h).resolve_left hw
      rw [zx, zy] at hn
      linarith
    · intro Y
      rw [com Y, ← hΔ]
      constructor
      · rintro ⟨w, hw, hx, hy⟩
        rcases sq_eq_sq_iff_eq_or_eq_neg.1 (hw.trans hσs.symm) with h | h
        · left
          rw [h] at hx hy
          exact Pt.ext hx hy
        · right
          rw [h] at hx hy
          ext
          · rw [hx]; ring
          · rw [hy]; ring
      · rintro (rfl | rfl)
        · exact ⟨σ * √Δ, hσs, rfl, rfl⟩
        · exact ⟨-(σ * √Δ), by rw [neg_sq]; exact hσs, by ring, by ring⟩

/-- The line through `(0, 5)` and `(1, 5)` touches the circle of center the origin and radius five, and one point is returned; the line
through `(0, 3)` and `(1, 3)` meets it in two points. -/
example : (∃ Q, intersection_circle_lineF ⟨⟨0, 0⟩, 5⟩ ⟨⟨0, 5⟩, ⟨1, 5⟩, true, true⟩ = .one Q ∧ CloseOnCircle 5 Q ⟨0, 5⟩) ∧
    ∃ P Q, intersection_circle_lineF ⟨⟨0, 0⟩, 5⟩ ⟨⟨0, 3⟩, ⟨1, 3⟩, true, true⟩ = .two P Q := by
  have i : ∀ m : ℤ, |m| ≤ 3000 → IntB 3000 m := fun m h => ⟨m, rfl, h⟩
  have z : IntB 3000 0 := by simpa using i 0 (by norm_num)
  have o : IntB 3000 1 := by simpa using i 1 (by norm_num)
  have t : IntB 3000 3 := by simpa using i 3 (by norm_num)
  have f : IntB 3000 5 := by simpa using i 5 (by norm_num)
  constructor
  · have c1 : OnLine (⟨0, 5⟩ : Pt) ⟨1, 5⟩ ⟨0, 5⟩ ∧ OnCircle (⟨0, 0⟩ : Pt) 5 ⟨0, 5⟩ :=
      ⟨⟨0, by ext <;> norm_num⟩, by unfold OnCircle sqDist; norm_num⟩
    rcases C116_circle_line ⟨⟨0, 0⟩, 5⟩ ⟨⟨0, 5⟩, ⟨1, 5⟩, true, true⟩ ⟨z, z⟩ (FI.mono f (by norm_num)) (by norm_num) ⟨z, f⟩ ⟨o, f⟩
      (by simp) with ⟨-, h⟩ | ⟨Q, X, h1, h2, h3⟩ | ⟨Q1, Q2, X1, X2, -, -, -, h4, h5⟩
    · exact absurd ⟨_, c1⟩ h
    · have := (h3 ⟨0, 5⟩).1 c1
      rw [← this] at h2
      exact ⟨Q, h1, h2⟩
    · exfalso
      have uni : ∀ Y, OnLine (⟨0, 5⟩ : Pt) ⟨1, 5⟩ Y ∧ OnCircle (⟨0, 0⟩ : Pt) 5 Y → Y = ⟨0, 5⟩ := by
        rintro Y ⟨⟨t, rfl⟩, h2⟩
        unfold OnCircle sqDist at h2
        norm_num at h2
        ext <;> norm_num [h2]
      exact h4 ((uni X1 ((h5 X1).2 (Or.inl rfl))).trans (uni X2 ((h5 X2).2 (Or.inr rfl))).symm)
  · have c1 : OnLine (⟨0, 3⟩ : Pt) ⟨1, 3⟩ ⟨4, 3⟩ ∧ OnCircle (⟨0, 0⟩ : Pt) 5 ⟨4, 3⟩ :=
      ⟨⟨4, by ext <;> norm_num⟩, by unfold OnCircle sqDist; norm_num⟩
    have c2 : OnLine (⟨0, 3⟩ : Pt) ⟨1, 3⟩ ⟨-4, 3⟩ ∧ OnCircle (⟨0, 0⟩ : Pt) 5 ⟨-4, 3⟩ :=
      ⟨⟨-4, by ext <;> norm_num⟩, by unfold OnCircle sqDist; norm_num⟩
    rcases C116_circle_line ⟨⟨0, 0⟩, 5⟩ ⟨⟨0, 3⟩, ⟨1, 3⟩, true, true⟩ ⟨z, z⟩ (FI.mono f (by norm_num)) (by norm_num) ⟨z, t⟩ ⟨o, t⟩
      (by simp) with ⟨-, h⟩ | ⟨Q, X, h1, h2, h3⟩ | ⟨Q1, Q2, X1, X2, h1, -⟩
    · exact absurd ⟨_, c1⟩ h
    · have := congrArg Pt.x (((h3 ⟨4, 3⟩).1 c1).trans ((h3 ⟨-4, 3⟩).1 c2).symm)
      norm_num at this
    · exact ⟨Q1, Q2, h1⟩
