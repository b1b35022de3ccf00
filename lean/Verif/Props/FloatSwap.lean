import Verif.Model.FloatSwap
import Verif.Props.FloatCircles
import Verif.Props.FloatEllipsePath
import Verif.Props.FloatIncircle

/-!
# C143: the inversion that swaps two circles in double precision
-/

open Spec Real Classical FG FT

namespace FSwap

/-- The square root of an integer is an integer or far from it. -/
theorem gap {n : ℤ} {s : ℤ} (hn : 0 ≤ n) (hs : |s| ≤ 2 ^ 22) (hn' : n ≤ 2 ^ 46) :
    (√(n : ℝ) < s → √(n : ℝ) + 1 / 2 ^ 24 ≤ s) ∧ ((s : ℝ) < √n → s + 1 / 2 ^ 24 ≤ √n) := by
  have h0 : (0 : ℝ) ≤ n := by exact_mod_cast hn
  have q := Real.sq_sqrt h0
  have q0 := Real.sqrt_nonneg (n : ℝ)
  have s1 : (s : ℝ) ≤ 2 ^ 22 := by exact_mod_cast (le_abs_self s).trans hs
  have q1 : √(n : ℝ) ≤ 2 ^ 23 := by
    rw [Real.sqrt_le_left (by norm_num)]
    have : (n : ℝ) ≤ 2 ^ 46 := by exact_mod_cast hn'
    norm_num at *
    exact this
  constructor
  · intro h
    have hlt : (n : ℝ) < s ^ 2 := by nlinarith
    have hi : (n : ℝ) + 1 ≤ (s : ℝ) ^ 2 := by
      have : n < s ^ 2 := by exact_mod_cast hlt
      exact_mod_cast this
    by_contra hc
    push Not at hc
    generalize √(n : ℝ) = t at *
    generalize (s : ℝ) = r at *
    have : r ^ 2 - t ^ 2 < 1 := by
      have e : r ^ 2 - t ^ 2 = (r - t) * (r + t) := by ring
      rw [e]
      have := mul_lt_mul'' (show r - t < 1 / 2 ^ 24 by linarith) (show r + t < 2 ^ 24 by norm_num at *; linarith) (by linarith) (by linarith)
      exact this.trans_le (by norm_num)
    linarith
  · intro h
    by_cases hs0 : s < 0
    · have : (s : ℝ) ≤ -1 := by exact_mod_cast (show s ≤ -1 by omega)
      norm_num
      linarith
    have r0 : (0 : ℝ) ≤ s := by exact_mod_cast not_lt.1 hs0
    have hlt : (s : ℝ) ^ 2 < n := by nlinarith
    have hi : (s : ℝ) ^ 2 + 1 ≤ n := by
      have : s ^ 2 < n := by exact_mod_cast hlt
      exact_mod_cast this
    by_contra hc
    push Not at hc
    generalize √(n : ℝ) = t at *
    generalize (s : ℝ) = r at *
    have : t ^ 2 - r ^ 2 < 1 := by
      have e : t ^ 2 - r ^ 2 = (t - r) * (r + t) := by ring
      rw [e]
      have := mul_lt_mul'' (show t - r < 1 / 2 ^ 24 by linarith) (show r + t < 2 ^ 24 by norm_num at *; linarith) (by linarith) (by linarith)
      exact this.trans_le (by norm_num)
    linarith

/-- The computed distance, with an integer added, compares with an integer like the distance. -/
theorem compare {n : ℤ} {s : ℤ} (hn : 0 ≤ n) (hs : |s| ≤ 2 ^ 22) (hn' : n ≤ 2 ^ 46) {y : ℝ} (hy : |y - √(n : ℝ)| ≤ 1 / 2 ^ 26) (he : √(n : ℝ) = s → y = s) :
    (y < s ↔ √(n : ℝ) < s) ∧ ((s : ℝ) < y ↔ s < √n) ∧ (y = s ↔ √(n : ℝ) = s) := by
  obtain ⟨g1, g2⟩ := gap hn hs hn'
  have h := abs_le.1 hy
  rcases lt_trichotomy (√(n : ℝ)) s with t | t | t
  · have := g1 t
    have : y < s := by norm_num at *; linarith
    refine ⟨⟨fun _ => t, fun _ => this⟩, ⟨fun w => ?_, fun w => ?_⟩, ⟨fun w => ?_, fun w => ?_⟩⟩ <;> linarith
  · have := he t
    rw [this, t]
    simp
  · have := g2 t
    have : s < y := by norm_num at *; linarith
    refine ⟨⟨fun w => ?_, fun w => ?_⟩, ⟨fun _ => t, fun _ => this⟩, ⟨fun w => ?_, fun w => ?_⟩⟩ <;> linarith

theorem flN {x B : ℝ} (h : |x| ≤ B) (hB : 1 / 2 ^ 60 ≤ B) : |fl x - x| ≤ 1.01 / 2 ^ 53 * B := by
  have := (Apx.exact h).round le_rfl (by norm_num) hB
  rw [zero_add] at this
  exact this.1.trans (le_of_eq (by norm_num))

theorem fl_int (s : ℤ) (h : |s| ≤ 2 ^ 53) : fl (s : ℝ) = s := fl_double ⟨s, 0, by norm_num, h, by norm_num⟩

/-- The square of the distance of two points with integer coordinates. -/
theorem distance_int (k : Fma) {P Q : Pt} (hP : IntPt (2 ^ 20) P) (hQ : IntPt (2 ^ 20) Q) :
    ∃ n : ℤ, 0 ≤ n ∧ n ≤ 2 ^ 44 ∧ distance_ P Q = √(n : ℝ) ∧ distanceF k P Q = fl √(n : ℝ) := by
  obtain ⟨e, n, h1, h2⟩ := FI.sqd k hQ hP (by norm_num)
  have h0 : 0 ≤ sqDist Q P := by unfold sqDist; positivity
  refine ⟨n, by rw [h1] at h0; exact_mod_cast h0, (le_abs_self n).trans (h2.trans (by norm_num)), ?_, ?_⟩
  · rw [← h1, distance_eq]
    unfold Spec.dist sqDist
    congr 1
    ring
  · unfold distanceF
    rw [e, h1]

/-- Half integers. -/
theorem half (n : ℤ) (h : |n| ≤ 2 ^ 53) : fl ((n : ℝ) / 2) = n / 2 :=
  fl_double ⟨n, -1, by norm_num, h, by rw [zpow_neg_one]; ring⟩

theorem quarter (n : ℤ) (h : |n| ≤ 2 ^ 53) : fl ((n : ℝ) / 4) = n / 4 :=
  fl_double ⟨n, -2, by norm_num, h, by norm_num; ring⟩

/-- The computed distance of points with integer coordinates compares with integers like the distance, also after the addition of an integer. -/
theorem compare_distance (k : Fma) {P Q : Pt} (hP : IntPt (2 ^ 20) P) (hQ : IntPt (2 ^ 20) Q) {s t : ℝ} (hs : IntB (2 ^ 20) s) (ht : IntB (2 ^ 21) t) :
    (distanceF k P Q < t ↔ distance_ P Q < t) ∧ (t < distanceF k P Q ↔ t < distance_ P Q) ∧
    (fl (distanceF k P Q + s) ≤ t ↔ distance_ P Q + s ≤ t) ∧ (t = fl (distanceF k P Q + s) ↔ t = distance_ P Q + s) := by
  obtain ⟨n, n0, n1, e1, e2⟩ := distance_int k hP hQ
  obtain ⟨i, rfl, hi⟩ := hs
  obtain ⟨j, rfl, hj⟩ := ht
  rw [e1, e2]
  have q0 := Real.sqrt_nonneg (n : ℝ)
  have q1 : √(n : ℝ) ≤ 2 ^ 22 := by
    rw [Real.sqrt_le_left (by norm_num)]
    have : (n : ℝ) ≤ 2 ^ 44 := by exact_mod_cast n1
    norm_num at *
    exact this
  have f1 := flN (x := √(n : ℝ)) (B := 2 ^ 22) (by rw [abs_of_nonneg q0]; exact q1) (by norm_num)
  have iR : |(i : ℝ)| ≤ 2 ^ 20 := by exact_mod_cast hi
  have f2 := flN (x := fl √(n : ℝ) + i) (B := 2 ^ 23) (by
    have := abs_le.1 f1
    have := abs_le.1 iR
    rw [abs_le]
    norm_num at *
    constructor <;> linarith [Real.sqrt_nonneg (n : ℝ)]) (by norm_num)
  have hj' : |j| ≤ 2 ^ 22 := hj.trans (by norm_num)
  have hij : |j - i| ≤ 2 ^ 22 := (abs_sub j i).trans ((add_le_add hj hi).trans (by norm_num))
  have a := compare n0 hj' (n1.trans (by norm_num)) (y := fl √(n : ℝ)) (f1.trans (by norm_num)) (fun h => by rw [h]; exact fl_int j (hj.trans (by norm_num)))
  have b := compare n0 hij (n1.trans (by norm_num)) (y := fl (fl √(n : ℝ) + i) - i) (by
      have := abs_le.1 f1
      have := abs_le.1 f2
      rw [abs_le]
      norm_num at *
      constructor <;> linarith) (fun h => by
      rw [h, fl_int _ (hij.trans (by norm_num))]
      push_cast
      rw [sub_add_cancel, fl_int j (hj.trans (by norm_num))])
  push_cast at b
  refine ⟨a.1, a.2.1, ?_, ?_⟩
  · have := b.2.1
    constructor
    · intro h
      by_contra hc
      have := this.2 (by linarith)
      linarith
    · intro h
      by_contra hc
      have := this.1 (by linarith)
      linarith
  · have := b.2.2
    constructor
    · intro h
      have := this.1 (by linarith)
      linarith
    · intro h
      have := this.2 (by linarith)
      linarith

/-- The middle of two points with integer coordinates, and its power with respect to a circle, are exact. -/
theorem middle (k : Fma) {c1 c2 : Circle} (h1 : IntPt (2 ^ 20) c1.center) (h2 : IntPt (2 ^ 20) c2.center) (hr2 : IntB (2 ^ 20) c2.radius) :
    (⟨fl (fl (c1.center.x + c2.center.x) / 2), fl (fl (c1.center.y + c2.center.y) / 2)⟩ : Pt) = (c1.center + c2.center) / (2 : ℝ) ∧
    Inversion.swapPowerF k ((c1.center + c2.center) / (2 : ℝ)) c2.center c2.radius =
      |dot1_ ((c1.center + c2.center) / (2 : ℝ) - c2.center) - c2.radius * c2.radius| := by
  obtain ⟨⟨x1, hx1, bx1⟩, ⟨y1, hy1, by1⟩⟩ := h1
  obtain ⟨⟨x2, hx2, bx2⟩, ⟨y2, hy2, by2⟩⟩ := h2
  have mid : ∀ {u v : ℤ}, |u| ≤ (2 ^ 20 : ℕ) → |v| ≤ (2 ^ 20 : ℕ) → fl (fl ((u : ℝ) + v) / 2) = ((u : ℝ) + v) / 2 := by
    intro u v hu hv
    have b : |u + v| ≤ 2 ^ 53 := (abs_add_le u v).trans ((add_le_add hu hv).trans (by norm_num))
    have e := FSwap.fl_int (u + v) b
    have f := FSwap.half (u + v) b
    push_cast at e f
    rw [e, f]
  have hI : (⟨fl (fl (c1.center.x + c2.center.x) / 2), fl (fl (c1.center.y + c2.center.y) / 2)⟩ : Pt) = (c1.center + c2.center) / (2 : ℝ) := by
    rw [hx1, hx2, hy1, hy2, mid bx1 bx2, mid by1 by2, ← hx1, ← hx2, ← hy1, ← hy2]
    rfl
  have hP : Inversion.swapPowerF k ((c1.center + c2.center) / (2 : ℝ)) c2.center c2.radius =
      |dot1_ ((c1.center + c2.center) / (2 : ℝ) - c2.center) - c2.radius * c2.radius| := by
    have err : fl (c2.radius * c2.radius) = c2.radius * c2.radius := FI.fl (FI.mul hr2 hr2) (by norm_num)
    obtain ⟨r, hr0, br⟩ := hr2
    have dif : ∀ {u v : ℤ}, |u| ≤ (2 ^ 20 : ℕ) → |v| ≤ (2 ^ 20 : ℕ) → fl (((u : ℝ) + v) / 2 - v) = ((u - v : ℤ) : ℝ) / 2 ∧ |u - v| ≤ 2 ^ 21 := by
      intro u v hu hv
      have b : |u - v| ≤ 2 ^ 21 := (abs_sub u v).trans ((add_le_add hu hv).trans (by norm_num))
      refine ⟨?_, b⟩
      rw [show ((u : ℝ) + v) / 2 - v = ((u - v : ℤ) : ℝ) / 2 by push_cast; ring]
      exact FSwap.half _ (b.trans (by norm_num))
    obtain ⟨ex, bx⟩ := dif bx1 bx2
    obtain ⟨ey, by'⟩ := dif by1 by2
    have es : subF ((c1.center + c2.center) / (2 : ℝ)) c2.center = ⟨((x1 - x2 : ℤ) : ℝ) / 2, ((y1 - y2 : ℤ) : ℝ) / 2⟩ := by
      unfold subF
      change (⟨fl ((c1.center.x + c2.center.x) / 2 - c2.center.x), fl ((c1.center.y + c2.center.y) / 2 - c2.center.y)⟩ : Pt) = _
      rw [hx1, hx2, hy1, hy2, ex, ey]
    have ed : dot1_ ((c1.center + c2.center) / (2 : ℝ) - c2.center) = (((x1 - x2) * (x1 - x2) + (y1 - y2) * (y1 - y2) : ℤ) : ℝ) / 4 := by
      change ((c1.center.x + c2.center.x) / 2 - c2.center.x) * ((c1.center.x + c2.center.x) / 2 - c2.center.x) +
        ((c1.center.y + c2.center.y) / 2 - c2.center.y) * ((c1.center.y + c2.center.y) / 2 - c2.center.y) = _
      rw [hx1, hx2, hy1, hy2]
      push_cast
      ring
    generalize x1 - x2 = p at *
    generalize y1 - y2 = q at *
    have sqb : ∀ {u : ℤ}, |u| ≤ 2 ^ 21 → |u * u| ≤ 2 ^ 42 := by
      intro u hu
      rw [abs_mul]
      exact (mul_le_mul hu hu (abs_nonneg _) (by norm_num)).trans (by norm_num)
    have pq : |p * p + q * q| ≤ 2 ^ 43 := (abs_add_le _ _).trans ((add_le_add (sqb bx) (sqb by')).trans (by norm_num))
    have g1 : fl ((p : ℝ) / 2 * (p / 2)) = p / 2 * (p / 2) := by
      have := FSwap.quarter (p * p) ((sqb bx).trans (by norm_num))
      push_cast at this
      rwa [show (p : ℝ) / 2 * (p / 2) = p * p / 4 by ring]
    have g2 : fl ((q : ℝ) / 2 * (q / 2)) = q / 2 * (q / 2) := by
      have := FSwap.quarter (q * q) ((sqb by').trans (by norm_num))
      push_cast at this
      rwa [show (q : ℝ) / 2 * (q / 2) = q * q / 4 by ring]
    have g3 : fl ((p : ℝ) / 2 * (p / 2) + q / 2 * (q / 2)) = ((p * p + q * q : ℤ) : ℝ) / 4 := by
      rw [show (p : ℝ) / 2 * (p / 2) + q / 2 * (q / 2) = ((p * p + q * q : ℤ) : ℝ) / 4 by push_cast; ring]
      exact FSwap.quarter _ (pq.trans (by norm_num))
    have ev : vdotF k ⟨(p : ℝ) / 2, (q : ℝ) / 2⟩ ⟨(p : ℝ) / 2, (q : ℝ) / 2⟩ = ((p * p + q * q : ℤ) : ℝ) / 4 := by
      cases k <;> unfold vdotF <;> dsimp only <;> simp only [g1, g2, g3]
    unfold Inversion.swapPowerF
    rw [es, ev, err, ed, hr0]
    congr 1
    have rb : |r * r| ≤ 2 ^ 40 := by
      rw [abs_mul]
      exact (mul_le_mul br br (abs_nonneg _) (by norm_num)).trans (by norm_num)
    have fin : |p * p + q * q - 4 * (r * r)| ≤ 2 ^ 53 := by
      refine (abs_sub _ _).trans ?_
      rw [abs_mul]
      exact (add_le_add pq (mul_le_mul_of_nonneg_left rb (abs_nonneg _))).trans (by norm_num)
    have w := FSwap.quarter _ fin
    rw [show ((p * p + q * q : ℤ) : ℝ) / 4 - r * r = ((p * p + q * q - 4 * (r * r) : ℤ) : ℝ) / 4 by push_cast; ring]
    exact w
  exact ⟨hI, hP⟩

end FSwap

/-- **C143, equal radii.** For integer centers and equal integer radii up to `2 ^ 20`, `Inversion.from_swapping_two_circles` in double precision returns exactly
what it returns without rounding: the same pole and the same power, or `None` for touching circles. -/
theorem C143_equal (k : Fma) (c1 c2 : Circle) (h1 : IntPt (2 ^ 20) c1.center) (h2 : IntPt (2 ^ 20) c2.center) (hr : IntB (2 ^ 20) c1.radius)
    (he : c1.radius = c2.radius) (positive : Bool) : Inversion.from_swappingF k c1 c2 positive = Inversion.from_swapping_two_circles c1 c2 positive := by
  obtain ⟨d1, d2, -, -⟩ := FSwap.compare_distance k h1 h2 hr (t := c1.radius + c2.radius) (FI.mono (FI.add hr (he ▸ hr)) (by norm_num))
  have er : fl (c1.radius + c2.radius) = c1.radius + c2.radius := FI.fl (FI.add hr (he ▸ hr)) (by norm_num)
  unfold Inversion.from_swappingF Inversion.from_swapping_two_circles
  dsimp only
  rw [if_pos he, if_pos he, er]
  obtain ⟨hI, hP⟩ := FSwap.middle k h1 h2 (he ▸ hr : IntB (2 ^ 20) c2.radius)
  rw [hI, hP]
  simp only [d1, gt_iff_lt, d2]

-- Two circles of radius 5 with centers at distance 6: the inversion of pole `(3, 0)` and power 16.
example (k : Fma) : Inversion.from_swappingF k ⟨⟨0, 0⟩, 5⟩ ⟨⟨6, 0⟩, 5⟩ true = some ⟨⟨3, 0⟩, 16⟩ := by
  have z : IntB (2 ^ 20) 0 := ⟨0, by norm_num, by norm_num⟩
  have s : IntB (2 ^ 20) 6 := ⟨6, by norm_num, by norm_num⟩
  rw [C143_equal k ⟨⟨0, 0⟩, 5⟩ ⟨⟨6, 0⟩, 5⟩ ⟨z, z⟩ ⟨s, z⟩ ⟨5, by norm_num, by norm_num⟩ rfl]
  have d : distance_ ⟨0, 0⟩ ⟨6, 0⟩ = 6 := by
    rw [distance_eq]
    unfold Spec.dist sqDist
    rw [show ((0 : ℝ) - 6) ^ 2 + (0 - 0) ^ 2 = 6 ^ 2 by norm_num, Real.sqrt_sq (by norm_num)]
  unfold Inversion.from_swapping_two_circles
  dsimp only
  rw [if_pos rfl, d, if_pos (by norm_num)]
  congr 1
  ext
  · change ((0 : ℝ) + 6) / 2 = 3; norm_num
  · change ((0 : ℝ) + 0) / 2 = 0; norm_num
  · change |((0 + 6) / 2 - 6) * ((0 + 6) / 2 - 6) + ((0 + 0) / 2 - 0) * ((0 + 0) / 2 - 0) - 5 * 5| = (16 : ℝ)
    norm_num

namespace FSwap

theorem abs_apx {e m x' x : ℝ} (h : Apx e m x' x) : Apx e m |x'| |x| :=
  ⟨(abs_abs_sub_abs_le x' x).trans h.1, by rw [abs_abs]; exact h.2⟩

theorem apx_of_rel {α e m x' x : ℝ} (h : FH.Rel α x' x) (h0 : 0 ≤ x) (he : α ≤ e / 2 ^ 53) (he0 : 0 ≤ e) (hm : x ≤ m) : Apx e m x' x := by
  refine ⟨h.trans (mul_le_mul he hm h0 (by positivity)), by rw [abs_of_nonneg h0]; exact hm⟩

/-- The quotient of the radii. -/
theorem ratio {b r1 r2 : ℝ} (hb : b ≤ 2 ^ 7) (h1 : 1 ≤ r1) (h1' : r1 ≤ b) (h2 : 1 ≤ r2) (h2' : r2 ≤ b) :
    FH.Rel (13 / 10 / 2 ^ 53) (fl (r1 / r2)) (r1 / r2) ∧ r1 / r2 ≤ b ∧ 1 / 2 ^ 7 ≤ r1 / r2 := by
  have r0 : 0 < r2 := by linarith
  have lo : 1 / 2 ^ 7 ≤ r1 / r2 := by
    rw [div_le_div_iff₀ (by norm_num) r0]
    linarith
  refine ⟨?_, ?_, lo⟩
  · refine FH.Rel.fl (α := 0) ?_ (le_trans (by norm_num) lo) le_rfl (by norm_num) (by norm_num)
    unfold FH.Rel
    rw [sub_self, abs_zero, zero_mul]
  · rw [div_le_iff₀ r0]
    nlinarith

theorem inner {b r1 r2 : ℝ} (hb : b ≤ 2 ^ 7) (h1 : 1 ≤ r1) (h1' : r1 ≤ b) (h2 : 1 ≤ r2) (h2' : r2 ≤ b) :
    Apx (2 * b + 5) b (fl (fl (r1 / r2) / fl (1 + fl (r1 / r2)))) (r1 / r2 / (1 + r1 / r2)) := by
  obtain ⟨h, u, l⟩ := ratio hb h1 h1' h2 h2'
  generalize fl (r1 / r2) = a' at *
  generalize r1 / r2 = a at *
  have a0 : 0 < a := lt_of_lt_of_le (by norm_num) l
  have s : FH.Rel (13 / 10 / 2 ^ 53) (1 + a') (1 + a) := by
    unfold FH.Rel at *
    rw [show 1 + a' - (1 + a) = a' - a by ring]
    refine h.trans ?_
    norm_num
  have t := s.fl (γ := 26 / 10 / 2 ^ 53) (by norm_num; linarith) (by norm_num) (by norm_num) (by norm_num)
  have q := h.div (γ := 5 / 2 ^ 53) t a0.le (by linarith) (by norm_num) (by norm_num) (by norm_num) (by norm_num) (by norm_num)
  have lo : 1 / 2 ^ 9 ≤ a / (1 + a) := by
    rw [div_le_div_iff₀ (by norm_num) (by linarith)]
    norm_num at *
    linarith
  have w := q.fl (γ := 7 / 2 ^ 53) (le_trans (by norm_num) lo) (by norm_num) (by norm_num) (by norm_num)
  refine apx_of_rel w (by positivity) ?_ (by linarith) ?_
  · gcongr
    linarith
  · rw [div_le_iff₀ (by linarith)]
    nlinarith

/-- The other quotient, for a positive difference. -/
theorem outer_pos {b a a' D : ℝ} {x' : ℝ} (hb1 : 1 ≤ b) (hb : b ≤ 2 ^ 7) (h : FH.Rel (13 / 10 / 2 ^ 53) a' a) (l : 1 / 2 ^ 7 ≤ a) (hD : a ≤ b * D)
    (hx : |x' - D| ≤ |a' - a|) (hq : 1 / 2 ^ 8 ≤ a / D) : Apx (2 * b + 5) b (fl (a' / fl x')) (a / D) := by
  have a0 : 0 < a := lt_of_lt_of_le (by norm_num) l
  have D0 : 0 < D := by
    by_contra hc
    have : b * D ≤ 0 := mul_nonpos_of_nonneg_of_nonpos (by linarith) (not_lt.1 hc)
    linarith
  have Dl : 1 / 2 ^ 14 ≤ D := by
    by_contra hc
    have := mul_lt_mul' hb (not_le.1 hc) D0.le (by norm_num)
    norm_num at *
    linarith
  have s : FH.Rel (13 / 10 * b / 2 ^ 53) x' D := by
    unfold FH.Rel at *
    refine hx.trans (h.trans ?_)
    have := mul_le_mul_of_nonneg_left hD (show (0 : ℝ) ≤ 13 / 10 / 2 ^ 53 by norm_num)
    refine this.trans (le_of_eq ?_)
    ring
  have t := s.fl (γ := 13 / 10 * (b + 1) / 2 ^ 53) (le_trans (by norm_num) Dl) (by positivity) (by norm_num at *; linarith) (by norm_num; linarith)
  have q := h.div (γ := (17 / 10 * b + 31 / 10) / 2 ^ 53) t a0.le D0 (by norm_num) (by norm_num) (by positivity) (by norm_num at *; linarith) (by norm_num; linarith)
  have w := q.fl (γ := (17 / 10 * b + 45 / 10) / 2 ^ 53) (le_trans (by norm_num) hq) (by positivity) (by norm_num at *; linarith) (by norm_num; linarith)
  refine apx_of_rel w (by positivity) ?_ (by linarith) ?_
  · gcongr
    · linarith
    · linarith
  · rw [div_le_iff₀ D0]
    exact hD

theorem outer {b r1 r2 : ℝ} (hb1 : 1 ≤ b) (hb : b ≤ 2 ^ 7) (h1 : 1 ≤ r1) (h1' : r1 ≤ b) (h2 : 1 ≤ r2) (h2' : r2 ≤ b) (hd : 1 ≤ |r2 - r1|) :
    Apx (2 * b + 5) b (fl (fl (r1 / r2) / fl (1 - fl (r1 / r2)))) (r1 / r2 / (1 - r1 / r2)) := by
  obtain ⟨h, u, l⟩ := ratio hb h1 h1' h2 h2'
  have r0 : 0 < r2 := by linarith
  rcases le_abs.1 hd with d | d
  · refine outer_pos hb1 hb h l ?_ ?_ ?_
    · rw [div_le_iff₀ r0, mul_assoc, sub_mul, div_mul_cancel₀ _ r0.ne', one_mul]
      nlinarith
    · rw [show 1 - fl (r1 / r2) - (1 - r1 / r2) = -(fl (r1 / r2) - r1 / r2) by ring, abs_neg]
    · rw [show r1 / r2 / (1 - r1 / r2) = r1 / (r2 - r1) by field_simp, div_le_div_iff₀ (by norm_num) (by linarith)]
      norm_num at *
      linarith
  · have := outer_pos (x' := fl (r1 / r2) - 1) (D := r1 / r2 - 1) hb1 hb h l ?_ ?_ ?_
    · have := this.neg
      rw [← fl_neg, ← div_neg, ← div_neg, ← fl_neg, neg_sub, neg_sub] at this
      exact this
    · rw [div_le_iff₀ r0, mul_assoc, sub_mul, div_mul_cancel₀ _ r0.ne', one_mul]
      nlinarith
    · rw [show fl (r1 / r2) - 1 - (r1 / r2 - 1) = fl (r1 / r2) - r1 / r2 by ring]
    · rw [show r1 / r2 / (r1 / r2 - 1) = r1 / (r1 - r2) by field_simp, div_le_div_iff₀ (by norm_num) (by linarith)]
      norm_num at *
      linarith

/-- A coordinate of the pole. -/
theorem pole {b q' q x y : ℝ} {B : ℕ} (hB : (B : ℝ) = b) (hb1 : 1 ≤ b) (hb : b ≤ 2 ^ 7) (hq : Apx (2 * b + 5) b q' q) (hx : IntB B x) (hy : IntB B y) :
    Apx (2 * b + 7.2) (3 * b ^ 2) (fl (x + fl (q' * fl (y - x)))) (x + q * (y - x)) ∧
    Apx (2 * b + 7.2) (3 * b ^ 2) (fl (x - fl (q' * fl (y - x)))) (x - q * (y - x)) := by
  have hB' : B ≤ 2 ^ 7 := by rw [← hB] at hb; exact_mod_cast hb
  have e : fl (y - x) = y - x := FI.fl (FI.sub hy hx) (by omega)
  have bx : |x| ≤ b := by rw [← hB]; exact FI.abs_le hx
  have bd : |y - x| ≤ 2 * b := by
    have := FI.abs_le (FI.sub hy hx)
    push_cast at this
    rw [← hB]
    linarith
  rw [e]
  have t := FEll.fmul (e3 := 2 * b + 6.1) hq (Apx.exact bd) (by linarith) le_rfl (by norm_num at *; linarith) (by norm_num; linarith) (by nlinarith)
  constructor
  · refine (FEll.fadd (e3 := 2 * b + 7.2) (Apx.exact bx) t le_rfl (by linarith) (by norm_num at *; linarith) (by norm_num; linarith) (by norm_num; linarith) (by nlinarith)).mono
      le_rfl (by linarith) (by nlinarith)
  · refine (FEll.fsub (e3 := 2 * b + 7.2) (Apx.exact bx) t le_rfl (by linarith) (by norm_num at *; linarith) (by norm_num; linarith) (by norm_num; linarith) (by nlinarith)).mono
      le_rfl (by linarith) (by nlinarith)

/-- The power. -/
theorem power (k : Fma) {b a' a r2 : ℝ} {O' O c2 : Pt} {B : ℕ} (hB : (B : ℝ) = b) (hb1 : 1 ≤ b) (hb : b ≤ 2 ^ 7) (ha : Apx 1.3 b a' a)
    (hx : Apx (2 * b + 7.2) (3 * b ^ 2) O'.x O.x) (hy : Apx (2 * b + 7.2) (3 * b ^ 2) O'.y O.y) (hc : IntPt B c2) (hr : |r2| ≤ b) :
    Apx (4 * b + 22.3) (b * (33 * b ^ 4)) (fl (a' * Inversion.swapPowerF k O' c2 r2)) (a * |dot1_ (O - c2) - r2 * r2|) := by
  have cx : |c2.x| ≤ b := by rw [← hB]; exact FI.abs_le hc.1
  have cy : |c2.y| ≤ b := by rw [← hB]; exact FI.abs_le hc.2
  have b2 : 1 ≤ b ^ 2 := by nlinarith
  have b3 : b ≤ b ^ 2 := by nlinarith
  have b4 : b ^ 2 ≤ b ^ 4 := by nlinarith
  have dx := (FEll.fsub (e3 := 2 * b + 8.3) hx (Apx.exact cx) (by linarith) le_rfl (by norm_num at *; linarith) (by norm_num; linarith) (by norm_num; linarith)
    (by norm_num at *; linarith)).mono (m' := 4 * b ^ 2) le_rfl (by linarith) (by linarith)
  have dy := (FEll.fsub (e3 := 2 * b + 8.3) hy (Apx.exact cy) (by linarith) le_rfl (by norm_num at *; linarith) (by norm_num; linarith) (by norm_num; linarith)
    (by norm_num at *; linarith)).mono (m' := 4 * b ^ 2) le_rfl (by linarith) (by linarith)
  have sx := dx.mul (e3 := 4 * b + 16.7) dx (by linarith) (by norm_num at *; linarith) (by norm_num at *; linarith) (by linarith) (by norm_num; linarith)
  have sy := dy.mul (e3 := 4 * b + 16.7) dy (by linarith) (by norm_num at *; linarith) (by norm_num at *; linarith) (by linarith) (by norm_num; linarith)
  have m16 : 1 / 2 ^ 60 ≤ 4 * b ^ 2 * (4 * b ^ 2) := by nlinarith
  have v := Apx.vdot k (p := subF O' c2) (q := subF O' c2) sx sy (by linarith) (by norm_num at *; linarith) m16 m16
  have rr := FEll.fmul (e3 := 1.1) (Apx.exact hr) (Apx.exact hr) le_rfl le_rfl (by norm_num) (by norm_num) (by nlinarith)
  have d := FEll.fsub (e3 := 4 * b + 19.9) v rr (by linarith) (by norm_num) (by norm_num at *; linarith) (by norm_num; linarith) (by norm_num; linarith) (by nlinarith)
  have p := abs_apx (d.mono (m' := 33 * b ^ 4) le_rfl (by linarith) (by nlinarith))
  exact FEll.fmul (e3 := 4 * b + 22.3) ha p (by norm_num) (by linarith) (by norm_num at *; linarith) (by norm_num; linarith) (by nlinarith)

end FSwap

/-- **C143, different radii.** For integer centers and different positive integer radii up to `B ≤ 2 ^ 7`, `Inversion.from_swapping_two_circles` in double precision
takes the same decisions as without rounding; the coordinates of its pole have an error of at most `28 B ^ 3 / 2 ^ 53` and its power, which does not have the opposite
sign, an error of at most `B ^ 6 / 2 ^ 43`. -/
theorem C143_unequal (k : Fma) (c1 c2 : Circle) {B : ℕ} (hB : B ≤ 2 ^ 7) (h1 : IntPt B c1.center) (h2 : IntPt B c2.center) (g1 : IntB B c1.radius)
    (g2 : IntB B c2.radius) (p1 : 0 < c1.radius) (p2 : 0 < c2.radius) (hne : c1.radius ≠ c2.radius) (positive : Bool) :
    ∃ i j : Inversion, Inversion.from_swappingF k c1 c2 positive = some i ∧ Inversion.from_swapping_two_circles c1 c2 positive = some j ∧
      |i.pole.x - j.pole.x| ≤ 28 * B ^ 3 / 2 ^ 53 ∧ |i.pole.y - j.pole.y| ≤ 28 * B ^ 3 / 2 ^ 53 ∧ |i.power - j.power| ≤ B ^ 6 / 2 ^ 43 ∧ 0 ≤ i.power * j.power := by
  have up : ∀ {x : ℝ}, IntB B x → IntB (2 ^ 20) x := fun h => FI.mono h (hB.trans (by norm_num))
  have hmin : IntB (2 ^ 20) (min c1.radius c2.radius) := by
    rcases min_choice c1.radius c2.radius with h | h <;> rw [h]
    · exact up g1
    · exact up g2
  have hmax : IntB (2 ^ 21) (max c1.radius c2.radius) := by
    rcases max_choice c1.radius c2.radius with h | h <;> rw [h]
    · exact FI.mono (up g1) (by norm_num)
    · exact FI.mono (up g2) (by norm_num)
  obtain ⟨-, -, d3, d4⟩ := FSwap.compare_distance k (P := c1.center) (Q := c2.center) ⟨up h1.1, up h1.2⟩ ⟨up h2.1, up h2.2⟩ hmin hmax
  obtain ⟨-, d2, -, -⟩ := FSwap.compare_distance k (P := c1.center) (Q := c2.center) ⟨up h1.1, up h1.2⟩ ⟨up h2.1, up h2.2⟩ hmin (t := c1.radius + c2.radius)
    (FI.mono (FI.add (up g1) (up g2)) (by norm_num))
  have er : fl (c1.radius + c2.radius) = c1.radius + c2.radius := FI.fl (FI.add (up g1) (up g2)) (by norm_num)
  have d2' : distanceF k c1.center c2.center ≤ c1.radius + c2.radius ↔ distance_ c1.center c2.center ≤ c1.radius + c2.radius := by
    rw [← not_lt, ← not_lt, d2]
  have one : ∀ {x : ℝ}, IntB B x → 0 < x → 1 ≤ x := by
    rintro x ⟨n, rfl, -⟩ hx
    have : 0 < n := by exact_mod_cast hx
    exact_mod_cast this
  have q1 := one g1 p1
  have q2 := one g2 p2
  have u1 : c1.radius ≤ B := (le_abs_self _).trans (FI.abs_le g1)
  have u2 : c2.radius ≤ B := (le_abs_self _).trans (FI.abs_le g2)
  have hb1 : (1 : ℝ) ≤ B := q1.trans u1
  have hb : (B : ℝ) ≤ 2 ^ 7 := by exact_mod_cast hB
  have hd : 1 ≤ |c2.radius - c1.radius| := FI.one_le_abs (FI.sub g2 g1) (sub_ne_zero.2 hne.symm)
  have In := FSwap.inner hb q1 u1 q2 u2
  have Ou := FSwap.outer hb1 hb q1 u1 q2 u2 hd
  obtain ⟨ra, ra1, ra2⟩ := FSwap.ratio hb q1 u1 q2 u2
  have a0 : 0 ≤ c1.radius / c2.radius := by positivity
  have ha := FSwap.apx_of_rel (e := 1.3) ra a0 (by norm_num) (by norm_num) ra1
  have ha0 : 0 ≤ fl (c1.radius / c2.radius) := fl_nonneg a0
  have r2 : |c2.radius| ≤ B := FI.abs_le g2
  -- the two poles
  have PI : Apx (2 * (B : ℝ) + 7.2) (3 * (B : ℝ) ^ 2) (Inversion.swapInnerF c1.center c2.center (fl (c1.radius / c2.radius))).x
      (c1.center + (c1.radius / c2.radius / (1 + c1.radius / c2.radius)) • (c2.center - c1.center)).x ∧
      Apx (2 * (B : ℝ) + 7.2) (3 * (B : ℝ) ^ 2) (Inversion.swapInnerF c1.center c2.center (fl (c1.radius / c2.radius))).y
      (c1.center + (c1.radius / c2.radius / (1 + c1.radius / c2.radius)) • (c2.center - c1.center)).y :=
    ⟨(FSwap.pole rfl hb1 hb In h1.1 h2.1).1, (FSwap.pole rfl hb1 hb In h1.2 h2.2).1⟩
  have PO : Apx (2 * (B : ℝ) + 7.2) (3 * (B : ℝ) ^ 2) (Inversion.swapOuterF c1.center c2.center (fl (c1.radius / c2.radius))).x
      (c1.center - (c1.radius / c2.radius / (1 - c1.radius / c2.radius)) • (c2.center - c1.center)).x ∧
      Apx (2 * (B : ℝ) + 7.2) (3 * (B : ℝ) ^ 2) (Inversion.swapOuterF c1.center c2.center (fl (c1.radius / c2.radius))).y
      (c1.center - (c1.radius / c2.radius / (1 - c1.radius / c2.radius)) • (c2.center - c1.center)).y :=
    ⟨(FSwap.pole rfl hb1 hb Ou h1.1 h2.1).2, (FSwap.pole rfl hb1 hb Ou h1.2 h2.2).2⟩
  have fin : ∀ (O' O : Pt), Apx (2 * (B : ℝ) + 7.2) (3 * (B : ℝ) ^ 2) O'.x O.x ∧ Apx (2 * (B : ℝ) + 7.2) (3 * (B : ℝ) ^ 2) O'.y O.y →
      |O'.x - O.x| ≤ 28 * B ^ 3 / 2 ^ 53 ∧ |O'.y - O.y| ≤ 28 * B ^ 3 / 2 ^ 53 ∧
      |fl (fl (c1.radius / c2.radius) * Inversion.swapPowerF k O' c2.center c2.radius) -
        c1.radius / c2.radius * (|dot1_ (O - c2.center) - c2.radius * c2.radius|)| ≤ B ^ 6 / 2 ^ 43 ∧
      0 ≤ fl (fl (c1.radius / c2.radius) * Inversion.swapPowerF k O' c2.center c2.radius) *
        (c1.radius / c2.radius * |dot1_ (O - c2.center) - c2.radius * c2.radius|) := by
    rintro O' O ⟨hx, hy⟩
    have hp := FSwap.power k rfl hb1 hb ha hx hy h2 r2
    have e1 : (2 * (B : ℝ) + 7.2) / 2 ^ 53 * (3 * (B : ℝ) ^ 2) ≤ 28 * B ^ 3 / 2 ^ 53 := by
      rw [div_mul_eq_mul_div]
      gcongr ?_ / _
      have := mul_nonneg (sq_nonneg (B : ℝ)) (show (0 : ℝ) ≤ B - 1 by linarith)
      norm_num
      nlinarith
    refine ⟨hx.1.trans e1, hy.1.trans e1, hp.1.trans ?_, ?_⟩
    · have b5 : (0 : ℝ) ≤ (B : ℝ) ^ 5 := by positivity
      have := mul_nonneg b5 (show (0 : ℝ) ≤ B - 1 by linarith)
      norm_num
      nlinarith
    · refine mul_nonneg (fl_nonneg (mul_nonneg ha0 ?_)) (mul_nonneg a0 (abs_nonneg _))
      unfold Inversion.swapPowerF
      exact abs_nonneg _
  have finN : ∀ (O' O : Pt), Apx (2 * (B : ℝ) + 7.2) (3 * (B : ℝ) ^ 2) O'.x O.x ∧ Apx (2 * (B : ℝ) + 7.2) (3 * (B : ℝ) ^ 2) O'.y O.y →
      |O'.x - O.x| ≤ 28 * B ^ 3 / 2 ^ 53 ∧ |O'.y - O.y| ≤ 28 * B ^ 3 / 2 ^ 53 ∧
      |fl (-fl (c1.radius / c2.radius) * Inversion.swapPowerF k O' c2.center c2.radius) -
        -(c1.radius / c2.radius) * (|dot1_ (O - c2.center) - c2.radius * c2.radius|)| ≤ B ^ 6 / 2 ^ 43 ∧
      0 ≤ fl (-fl (c1.radius / c2.radius) * Inversion.swapPowerF k O' c2.center c2.radius) *
        (-(c1.radius / c2.radius) * |dot1_ (O - c2.center) - c2.radius * c2.radius|) := by
    intro O' O h
    obtain ⟨w1, w2, w3, w4⟩ := fin O' O h
    rw [neg_mul, fl_neg, neg_mul, neg_mul_neg, neg_sub_neg]
    exact ⟨w1, w2, by rw [abs_sub_comm]; exact w3, w4⟩
  unfold Inversion.from_swappingF Inversion.from_swapping_two_circles
  dsimp only
  rw [if_neg hne, if_neg hne, er]
  simp only [ge_iff_le, d3, d4, d2']
  by_cases hi : distance_ c1.center c2.center + min c1.radius c2.radius ≤ max c1.radius c2.radius
  · simp only [hi, if_true, not_true, false_or, true_and]
    split_ifs
    · exact ⟨_, _, rfl, rfl, fin _ _ PI⟩
    · exact ⟨_, _, rfl, rfl, finN _ _ PO⟩
  · simp only [hi, if_false, not_false_iff, true_or, true_and]
    split_ifs
    · exact ⟨_, _, rfl, rfl, fin _ _ PO⟩
    · exact ⟨_, _, rfl, rfl, finN _ _ PI⟩

-- Circles of radii 1 and 3 around the origin and `(10, 0)`: the pole of the positive inversion is `(-5, 0)` with the stated error, and its power is near 72.
example (k : Fma) : ∃ i, Inversion.from_swappingF k ⟨⟨0, 0⟩, 1⟩ ⟨⟨10, 0⟩, 3⟩ true = some i ∧ |i.pole.x - (-5)| ≤ 28 * 10 ^ 3 / 2 ^ 53 ∧
    |i.power - 72| ≤ 10 ^ 6 / 2 ^ 43 := by
  have z : IntB 10 0 := ⟨0, by norm_num, by norm_num⟩
  have s : IntB 10 10 := ⟨10, by norm_num, by norm_num⟩
  obtain ⟨i, j, h1, h2, h3, -, h5, -⟩ := C143_unequal k ⟨⟨0, 0⟩, 1⟩ ⟨⟨10, 0⟩, 3⟩ (B := 10) (by norm_num) ⟨z, z⟩ ⟨s, z⟩ ⟨1, by norm_num, by norm_num⟩
    ⟨3, by norm_num, by norm_num⟩ (by norm_num) (by norm_num) (by norm_num) true
  have d : distance_ ⟨0, 0⟩ ⟨10, 0⟩ = 10 := by
    rw [distance_eq]
    unfold Spec.dist sqDist
    rw [show ((0 : ℝ) - 10) ^ 2 + (0 - 0) ^ 2 = 10 ^ 2 by norm_num, Real.sqrt_sq (by norm_num)]
  have e : Inversion.from_swapping_two_circles ⟨⟨0, 0⟩, 1⟩ ⟨⟨10, 0⟩, 3⟩ true = some ⟨⟨-5, 0⟩, 72⟩ := by
    unfold Inversion.from_swapping_two_circles
    dsimp only
    rw [if_neg (by norm_num), d, if_pos (Or.inl rfl), if_neg (by norm_num)]
    congr 1
    have hO : (⟨0, 0⟩ : Pt) - ((1 : ℝ) / 3 / (1 - 1 / 3)) • ((⟨10, 0⟩ : Pt) - ⟨0, 0⟩) = ⟨-5, 0⟩ := by
      ext
      · change (0 : ℝ) - 1 / 3 / (1 - 1 / 3) * (10 - 0) = -5; norm_num
      · change (0 : ℝ) - 1 / 3 / (1 - 1 / 3) * (0 - 0) = 0; norm_num
    rw [hO]
    congr 1
    change (1 : ℝ) / 3 * |(-5 - 10) * (-5 - 10) + (0 - 0) * (0 - 0) - 3 * 3| = 72
    norm_num
  rw [e, Option.some.injEq] at h2
  subst h2
  exact ⟨i, h1, by exact_mod_cast h3, by exact_mod_cast h5⟩
