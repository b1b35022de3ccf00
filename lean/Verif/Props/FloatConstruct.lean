import Verif.Model.FloatConstruct
import Verif.Props.FloatReflection
import Verif.Props.FloatIncludes

/-!
# C122: circles built from points in double precision
-/

open Spec Real Classical FG FT

namespace FC

/-- The tolerance of `math.isclose`, from below. -/
theorem tol_below (b : ℝ) (hb : 1 / 2 ^ 100 ≤ |b|) : 98 / 10 ^ 11 * |b| ≤ |fl (fl (1 / 10 ^ 9) * b)| := by
  have ht := FI.tiny_small
  have h1 := fl_err' (1 / 10 ^ 9)
  have h2 := fl_err' (fl (1 / 10 ^ 9) * b)
  have h5 : |fl (1 / 10 ^ 9) * b| = fl (1 / 10 ^ 9) * |b| := by
    rw [abs_mul, abs_of_nonneg (fl_nonneg (by norm_num))]
  have h6 : |fl (1 / 10 ^ 9) * b| - |fl (fl (1 / 10 ^ 9) * b)| ≤ |fl (fl (1 / 10 ^ 9) * b) - fl (1 / 10 ^ 9) * b| := by
    rw [abs_sub_comm]; exact abs_sub_abs_le_abs_sub _ _
  have h7 : 99 / 10 ^ 11 ≤ fl (1 / 10 ^ 9) := by
    rw [abs_of_nonneg (by norm_num : (0 : ℝ) ≤ 1 / 10 ^ 9), abs_le] at h1
    norm_num at *
    linarith
  have h8 : 99 / 10 ^ 11 * |b| ≤ fl (1 / 10 ^ 9) * |b| := by gcongr
  rw [h5] at h2 h6
  generalize fl (1 / 10 ^ 9) * |b| = m at *
  generalize |fl (fl (1 / 10 ^ 9) * b)| = n at *
  generalize |b| = c at *
  norm_num at *
  linarith

/-- Numbers that are relatively close pass `approx_equal_`. -/
theorem approx_of_rel {a b : ℝ} (hb : 1 / 2 ^ 100 ≤ |b|) (h : |a - b| ≤ 9 / 10 ^ 10 * |b|) : approx_equalF a b := by
  refine Or.inl (Or.inr (Or.inl ((?_ : _ ≤ 98 / 10 ^ 11 * |b|).trans (tol_below b hb))))
  have ht := FI.tiny_small
  have h1 := fl_err' (b - a)
  have h2 : |fl (b - a)| - |b - a| ≤ |fl (b - a) - (b - a)| := abs_sub_abs_le_abs_sub _ _
  rw [abs_sub_comm a b] at h
  generalize |b - a| = m at *
  generalize |fl (b - a)| = n at *
  generalize |b| = c at *
  norm_num at *
  linarith

/-- The distance of points that are not close. -/
theorem dist_factor (k : Fma) {O A : Pt} (hO : DoublePt O) (hA : DoublePt A) (h : ¬ allclose64 O A) :
    |distanceF k O A - Spec.dist O A| ≤ Spec.dist O A / 2 ^ 50 ∧ 1 / 10 ^ 9 ≤ Spec.dist O A := by
  have h1 := far_sq hO hA h
  have h2 : 1 / 10 ^ 9 ≤ Spec.dist O A := by
    unfold Spec.dist
    rw [Real.le_sqrt' (by norm_num)]
    norm_num at h1 ⊢
    exact h1
  refine ⟨(C88_distance_error k O A hO hA).trans ?_, h2⟩
  have h3 : (2 : ℝ) ^ (-535 : ℤ) ≤ 1 / 2 ^ 200 := by
    calc (2 : ℝ) ^ (-535 : ℤ) ≤ 2 ^ (-200 : ℤ) := zpow_le_zpow_right₀ (by norm_num) (by norm_num)
      _ = _ := by norm_num [zpow_neg]
  generalize (2 : ℝ) ^ (-535 : ℤ) = w at *
  norm_num at *
  linarith

/-- A computed square, close to a computed squared distance. -/
theorem includes_of {k : Fma} {c : Circle} {P : Pt} {d : ℝ} (hd : 1 / 10 ^ 10 ≤ d) (hr : |c.radius - d| ≤ d / 2 ^ 49)
    (hv : |vdotF k (subF P c.center) (subF P c.center) - d ^ 2| ≤ d ^ 2 * (8 / 10 ^ 10)) : c.includesF k P := by
  unfold Circle.includesF
  have ht := FI.tiny_small
  obtain ⟨r, hre⟩ : ∃ r, r = c.radius := ⟨_, rfl⟩
  rw [← hre] at hr ⊢
  have h1 := fl_err' (r * r)
  have hd2 : (1 / 10 ^ 10) ^ 2 ≤ d ^ 2 := pow_le_pow_left₀ (by norm_num) hd 2
  have h2 : |r * r - d ^ 2| ≤ d ^ 2 * (1 / 2 ^ 47) := by
    have : r * r - d ^ 2 = (r - d) * (r - d) + 2 * d * (r - d) := by ring
    rw [this]
    refine (abs_add_le _ _).trans ?_
    rw [abs_mul, abs_mul, abs_of_nonneg (by linarith : 0 ≤ 2 * d)]
    have e1 : |r - d| * |r - d| ≤ (d / 2 ^ 49) * (d / 2 ^ 49) := mul_le_mul hr hr (abs_nonneg _) (by positivity)
    have e2 : 2 * d * |r - d| ≤ 2 * d * (d / 2 ^ 49) := by gcongr
    have e3 : 0 ≤ d ^ 2 := sq_nonneg d
    have e4 : (d / 2 ^ 49) * (d / 2 ^ 49) = d ^ 2 * (1 / 2 ^ 98) := by ring
    have e5 : 2 * d * (d / 2 ^ 49) = d ^ 2 * (1 / 2 ^ 48) := by ring
    rw [e4] at e1
    rw [e5] at e2
    norm_num at *
    linarith
  rw [abs_of_nonneg (mul_self_nonneg r)] at h1
  obtain ⟨V, hV⟩ : ∃ V, V = vdotF k (subF P c.center) (subF P c.center) := ⟨_, rfl⟩
  rw [← hV] at hv ⊢
  obtain ⟨R, hR⟩ : ∃ R, R = fl (r * r) := ⟨_, rfl⟩
  rw [← hR] at h1 ⊢
  have hR0 : 0 ≤ R := by rw [hR]; exact fl_nonneg (mul_self_nonneg r)
  generalize r * r = q at *
  generalize d ^ 2 = D at *
  rw [abs_le] at h1 h2 hv
  apply approx_of_rel
  · rw [abs_of_nonneg hR0]
    norm_num at *
    linarith
  · rw [abs_of_nonneg hR0, abs_le]
    norm_num at *
    constructor <;> linarith

end FC

open FC

/-- C122: `circleOA` in double precision raises exactly when the points are close, and otherwise keeps the centre. -/
theorem C122_circleOA (k : Fma) (O A : Pt) (hO : DoublePt O) (hA : DoublePt A) :
    circleOAF k O A = if allclose64 O A then .error (.valueError "`O` and `A` are not distinct.")
      else .ok ⟨O, distanceF k O A⟩ := by
  unfold circleOAF
  split_ifs with h
  · rfl
  · obtain ⟨h1, h2⟩ := dist_factor k hO hA h
    unfold mkCircleF
    rw [if_neg]
    rw [abs_le] at h1
    generalize Spec.dist O A = d at *
    norm_num at *
    linarith

/-- C122: the circle built from its centre and a point includes the point, for all doubles and whatever the BLAS routine fuses. -/
theorem C122_circleOA_includes (k k' : Fma) (O A : Pt) (hO : DoublePt O) (hA : DoublePt A) (c : Circle) (h : circleOAF k O A = .ok c) :
    c.center = O ∧ c.includesF k' A := by
  rw [C122_circleOA k O A hO hA] at h
  split_ifs at h with hc
  cases h
  refine ⟨rfl, ?_⟩
  obtain ⟨h1, h2⟩ := dist_factor k hO hA hc
  obtain ⟨d, hd, hv⟩ := sq_factor k' hO hA hc
  have hs : Spec.dist O A ^ 2 = sqDist O A := Real.sq_sqrt (sqDist_nonneg O A)
  have h0 : 0 ≤ sqDist O A := sqDist_nonneg O A
  refine includes_of (d := Spec.dist O A) (by norm_num at *; linarith) ?_ ?_
  · refine h1.trans ?_
    have : 0 ≤ Spec.dist O A := Real.sqrt_nonneg _
    generalize Spec.dist O A = d at *
    norm_num
    linarith
  · rw [hs]
    show |vdotF k' (subF A O) (subF A O) - sqDist O A| ≤ _
    rw [hv, show sqDist O A * (1 + d) - sqDist O A = sqDist O A * d by ring, abs_mul, abs_of_nonneg h0]
    gcongr
    refine hd.trans ?_
    norm_num

/-- C122: the radius of `circleOA` has a relative error of at most 2^-50. -/
theorem C122_circleOA_radius (k : Fma) (O A : Pt) (hO : DoublePt O) (hA : DoublePt A) (c : Circle) (h : circleOAF k O A = .ok c) :
    |c.radius - Spec.dist O A| ≤ Spec.dist O A / 2 ^ 50 := by
  rw [C122_circleOA k O A hO hA] at h
  split_ifs at h with hc
  cases h
  exact (dist_factor k hO hA hc).1

namespace FC

/-- The midpoint of two doubles. -/
theorem mid_err {a b : ℝ} (ha : IsDouble a) (hb : IsDouble b) :
    |fl (fl (a + b) / 2) - (a + b) / 2| ≤ |a + b| * (65 / 64 / 2 ^ 53) + tiny := by
  have h1 := fl_add_err ha hb
  have h2 := fl_err' (fl (a + b) / 2)
  have h3 : |fl (a + b) / 2| = |fl (a + b)| / 2 := by rw [abs_div]; norm_num
  have h4 : |fl (a + b)| - |a + b| ≤ |fl (a + b) - (a + b)| := abs_sub_abs_le_abs_sub _ _
  have h5 : |fl (fl (a + b) / 2) - (a + b) / 2| ≤ |fl (fl (a + b) / 2) - fl (a + b) / 2| + |fl (a + b) - (a + b)| / 2 := by
    have e : fl (fl (a + b) / 2) - (a + b) / 2 = (fl (fl (a + b) / 2) - fl (a + b) / 2) + (fl (a + b) - (a + b)) / 2 := by ring
    rw [e]
    refine (abs_add_le _ _).trans ?_
    rw [abs_div (fl (a + b) - (a + b)) 2]
    norm_num
  rw [h3] at h2
  have h6 := abs_nonneg (a + b)
  generalize |fl (a + b) - (a + b)| = m at *
  generalize |fl (fl (a + b) / 2) - fl (a + b) / 2| = n at *
  generalize |fl (fl (a + b) / 2) - (a + b) / 2| = q at *
  generalize |fl (a + b)| = s at *
  generalize |a + b| = t at *
  norm_num at *
  linarith

/-- The half of a computed distance. -/
theorem half_err {x d : ℝ} (hd : 1 / 10 ^ 9 ≤ d) (h : |x - d| ≤ d / 2 ^ 50) : |fl (x / 2) - d / 2| ≤ d / 2 / 2 ^ 49 := by
  have ht := FI.tiny_small
  have h1 := fl_err' (x / 2)
  rw [abs_le] at h
  have hx : 0 ≤ x / 2 := by norm_num at *; linarith
  rw [abs_of_nonneg hx, abs_le] at h1
  rw [abs_le]
  norm_num at *
  constructor <;> linarith

/-- A point at the end of a diameter, for a centre close to the middle. -/
theorem end_of {k : Fma} {C A B : Pt} {r : ℝ} (hC : DoublePt C) (hA : DoublePt A) (hd : 1 / 10 ^ 9 ≤ Spec.dist A B)
    (hr : |r - Spec.dist A B / 2| ≤ Spec.dist A B / 2 / 2 ^ 49)
    (hx : |C.x - (A.x + B.x) / 2| ≤ Spec.dist A B * (33 / 32 / 2 ^ 33)) (hy : |C.y - (A.y + B.y) / 2| ≤ Spec.dist A B * (33 / 32 / 2 ^ 33)) :
    (⟨C, r⟩ : Circle).includesF k A := by
  refine includes_of (d := Spec.dist A B / 2) (by norm_num at *; linarith) hr ?_
  show |vdotF k (subF A C) (subF A C) - _| ≤ _
  have ht := FI.tiny_small
  obtain ⟨h1, h2⟩ := sqDist_err k hA hC
  have hs : Spec.dist A B ^ 2 = (B.x - A.x) ^ 2 + (B.y - A.y) ^ 2 :=
    (Real.sq_sqrt (sqDist_nonneg A B)).trans (by unfold sqDist; ring)
  obtain ⟨e, he⟩ : ∃ e, e = C.x - (A.x + B.x) / 2 := ⟨_, rfl⟩
  obtain ⟨f, hf⟩ : ∃ f, f = C.y - (A.y + B.y) / 2 := ⟨_, rfl⟩
  rw [← he] at hx
  rw [← hf] at hy
  obtain ⟨u, hu⟩ : ∃ u, u = B.x - A.x := ⟨_, rfl⟩
  obtain ⟨v, hv⟩ : ∃ v, v = B.y - A.y := ⟨_, rfl⟩
  have hS : sqDist C A = (u / 2 + e) ^ 2 + (v / 2 + f) ^ 2 := by
    unfold sqDist; rw [he, hf, hu, hv]; ring
  rw [← hu, ← hv] at hs
  rw [hS] at h1 h2
  generalize vdotF k (subF A C) (subF A C) = V at *
  obtain ⟨D, hD⟩ : ∃ D, D = Spec.dist A B := ⟨_, rfl⟩
  rw [← hD] at hs hx hy hd ⊢
  have hD0 : 0 ≤ D := le_trans (by norm_num) hd
  have hD2 : (1 / 10 ^ 9) ^ 2 ≤ D ^ 2 := pow_le_pow_left₀ (by norm_num) hd 2
  have e2 : e ^ 2 ≤ (D * (33 / 32 / 2 ^ 33)) ^ 2 := by rw [← sq_abs]; exact pow_le_pow_left₀ (abs_nonneg _) hx 2
  have f2 : f ^ 2 ≤ (D * (33 / 32 / 2 ^ 33)) ^ 2 := by rw [← sq_abs]; exact pow_le_pow_left₀ (abs_nonneg _) hy 2
  have huv : |u| + |v| ≤ D * (71 / 50) := by
    have : (|u| + |v|) ^ 2 ≤ (D * (71 / 50)) ^ 2 := by
      have h1 := sq_abs u
      have h2 := sq_abs v
      nlinarith [sq_nonneg (|u| - |v|)]
    exact (pow_le_pow_iff_left₀ (by positivity) (by positivity) (by norm_num)).1 this
  have hc : |u * e + v * f| ≤ D ^ 2 * (2343 / 1600 / 2 ^ 33) := by
    refine (abs_add_le _ _).trans ?_
    rw [abs_mul, abs_mul]
    have a1 : |u| * |e| ≤ |u| * (D * (33 / 32 / 2 ^ 33)) := by gcongr
    have a2 : |v| * |f| ≤ |v| * (D * (33 / 32 / 2 ^ 33)) := by gcongr
    have a3 : (|u| + |v|) * (D * (33 / 32 / 2 ^ 33)) ≤ (D * (71 / 50)) * (D * (33 / 32 / 2 ^ 33)) := by gcongr
    have a4 : (D * (71 / 50)) * (D * (33 / 32 / 2 ^ 33)) = D ^ 2 * (2343 / 1600 / 2 ^ 33) := by ring
    have a5 : (|u| + |v|) * (D * (33 / 32 / 2 ^ 33)) = |u| * (D * (33 / 32 / 2 ^ 33)) + |v| * (D * (33 / 32 / 2 ^ 33)) := by ring
    linarith
  have eS : (u / 2 + e) ^ 2 + (v / 2 + f) ^ 2 = D ^ 2 / 4 + (u * e + v * f) + (e ^ 2 + f ^ 2) := by rw [hs]; ring
  rw [eS] at h1 h2
  have eq1 : (D * (33 / 32 / 2 ^ 33)) ^ 2 = D ^ 2 * (1089 / 1024 / 2 ^ 66) := by ring
  rw [eq1] at e2 f2
  have eq2 : (D / 2) ^ 2 = D ^ 2 / 4 := by ring
  rw [eq2]
  have p1 := sq_nonneg e
  have p2 := sq_nonneg f
  rw [abs_le] at hc ⊢
  clear hs hD eS hS he hf hu hv eq1 eq2 huv hx hy hr hd
  generalize u * e + v * f = m at *
  generalize e ^ 2 = e' at *
  generalize f ^ 2 = f' at *
  generalize D ^ 2 = Q at *
  norm_num at *
  constructor <;> linarith

end FC

open FC

/-- C122: `circleAB` in double precision raises exactly when the points are close. -/
theorem C122_circleAB (k : Fma) (A B : Pt) (hA : DoublePt A) (hB : DoublePt B) :
    circleABF k A B = if allclose64 A B then .error (.valueError "`A` and `B` are not distinct.")
      else .ok ⟨⟨fl (fl (A.x + B.x) / 2), fl (fl (A.y + B.y) / 2)⟩, fl (distanceF k A B / 2)⟩ := by
  unfold circleABF
  split_ifs with h
  · rfl
  · obtain ⟨h1, h2⟩ := dist_factor k hA hB h
    have h3 := half_err h2 h1
    unfold mkCircleF
    rw [if_neg]
    rw [abs_le] at h3
    generalize Spec.dist A B = d at *
    norm_num at *
    linarith

/-- C122: the circle with a given diameter includes both ends when the middle is at most 2^19 diameters away from the axes. -/
theorem C122_circleAB_includes (k k' : Fma) (A B : Pt) (hA : DoublePt A) (hB : DoublePt B) (c : Circle) (h : circleABF k A B = .ok c)
    (hx : |A.x + B.x| ≤ 2 ^ 20 * Spec.dist A B) (hy : |A.y + B.y| ≤ 2 ^ 20 * Spec.dist A B) :
    c.includesF k' A ∧ c.includesF k' B := by
  rw [C122_circleAB k A B hA hB] at h
  split_ifs at h with hc
  cases h
  obtain ⟨h1, h2⟩ := dist_factor k hA hB hc
  have h3 := half_err h2 h1
  have ht := FI.tiny_small
  have mx := mid_err hA.1 hB.1
  have my := mid_err hA.2 hB.2
  have bx : |fl (fl (A.x + B.x) / 2) - (A.x + B.x) / 2| ≤ Spec.dist A B * (33 / 32 / 2 ^ 33) := by
    refine mx.trans ?_
    generalize Spec.dist A B = d at *
    generalize |A.x + B.x| = t at *
    norm_num at *
    linarith
  have by' : |fl (fl (A.y + B.y) / 2) - (A.y + B.y) / 2| ≤ Spec.dist A B * (33 / 32 / 2 ^ 33) := by
    refine my.trans ?_
    generalize Spec.dist A B = d at *
    generalize |A.y + B.y| = t at *
    norm_num at *
    linarith
  have hsym : Spec.dist B A = Spec.dist A B := by unfold Spec.dist sqDist; congr 1; ring
  refine ⟨end_of ⟨fl_isDouble _, fl_isDouble _⟩ hA h2 h3 bx by', ?_⟩
  refine end_of (B := A) ⟨fl_isDouble _, fl_isDouble _⟩ hB (by rw [hsym]; exact h2) (by rw [hsym]; exact h3) ?_ ?_
  · rw [hsym, add_comm B.x]; exact bx
  · rw [hsym, add_comm B.y]; exact by'

namespace FC

/-- The middle of two integers is computed exactly. -/
theorem mid_int {a b : ℝ} (ha : IntB (2 ^ 52) a) (hb : IntB (2 ^ 52) b) : fl (fl (a + b) / 2) = (a + b) / 2 := by
  have h := FI.add ha hb
  rw [FI.fl h (by norm_num)]
  obtain ⟨n, he, hn⟩ := h
  apply fl_double
  refine ⟨n, -1, by norm_num, ?_, ?_⟩
  · norm_num at hn ⊢
    exact hn
  · rw [he]; norm_num [zpow_neg]; ring

end FC

/-- C122: for integer coordinates up to 2^52, the centre computed by `circleAB` is exact and the circle includes both ends. -/
theorem C122_circleAB_integer (k k' : Fma) (A B : Pt) (hA : IntPt (2 ^ 52) A) (hB : IntPt (2 ^ 52) B) (c : Circle)
    (h : circleABF k A B = .ok c) :
    c.center = ⟨(A.x + B.x) / 2, (A.y + B.y) / 2⟩ ∧ c.includesF k' A ∧ c.includesF k' B := by
  have dA : DoublePt A := ⟨FI.isDouble hA.1 (by norm_num), FI.isDouble hA.2 (by norm_num)⟩
  have dB : DoublePt B := ⟨FI.isDouble hB.1 (by norm_num), FI.isDouble hB.2 (by norm_num)⟩
  rw [C122_circleAB k A B dA dB] at h
  split_ifs at h with hc
  cases h
  obtain ⟨h1, h2⟩ := dist_factor k dA dB hc
  have h3 := half_err h2 h1
  have mx := mid_int hA.1 hB.1
  have my := mid_int hA.2 hB.2
  have hsym : Spec.dist B A = Spec.dist A B := by unfold Spec.dist sqDist; congr 1; ring
  have h0 : 0 ≤ Spec.dist A B * (33 / 32 / 2 ^ 33) := mul_nonneg (le_trans (by norm_num) h2) (by norm_num)
  refine ⟨by rw [mx, my], end_of ⟨fl_isDouble _, fl_isDouble _⟩ dA h2 h3 ?_ ?_, ?_⟩
  · rw [mx, sub_self, abs_zero]; exact h0
  · rw [my, sub_self, abs_zero]; exact h0
  · refine end_of (B := A) ⟨fl_isDouble _, fl_isDouble _⟩ dB (by rw [hsym]; exact h2) (by rw [hsym]; exact h3) ?_ ?_
    · rw [hsym, mx, add_comm B.x, sub_self, abs_zero]; exact h0
    · rw [hsym, my, add_comm B.y, sub_self, abs_zero]; exact h0

/-- C122: for integer coordinates up to 2^25 and a distance that is an integer, `circleOA` is exact and the circle contains the point. -/
theorem C122_circleOA_contains (k k' : Fma) (O A : Pt) (hO : IntPt (2 ^ 25) O) (hA : IntPt (2 ^ 25) A) (c : Circle)
    (h : circleOAF k O A = .ok c) (m : ℕ) (hm : sqDist O A = m ^ 2) : c.radius = m ∧ c.containsF k' A := by
  have dO : DoublePt O := ⟨FI.isDouble hO.1 (by norm_num), FI.isDouble hO.2 (by norm_num)⟩
  have dA : DoublePt A := ⟨FI.isDouble hA.1 (by norm_num), FI.isDouble hA.2 (by norm_num)⟩
  rw [C122_circleOA k O A dO dA] at h
  split_ifs at h with hc
  cases h
  obtain ⟨hs, hb⟩ := FI.subPt hA hO (by norm_num)
  have hv : ∀ k, vdotF k (subF A O) (subF A O) = sqDist O A := by
    intro k
    rw [hs, FI.vdot k hb hb (by norm_num)]
    unfold sqDist
    simp only [Pt.sub_x, Pt.sub_y]
    ring
  have hm2 : (m : ℝ) ^ 2 ≤ 2 ^ 53 := by
    have e : (m : ℝ) ^ 2 = (A - O).x * (A - O).x + (A - O).y * (A - O).y := by
      rw [← hm, ← hv k, hs, FI.vdot k hb hb (by norm_num)]
    rw [e]
    have := FI.abs_le (FI.add (FI.mul hb.1 hb.1) (FI.mul hb.2 hb.2))
    refine (le_abs_self _).trans (this.trans ?_)
    norm_num
  have hmn : m ^ 2 ≤ 2 ^ 53 := by exact_mod_cast hm2
  have hml : m ≤ 2 ^ 53 := (Nat.le_self_pow (by norm_num) m).trans hmn
  have e1 : distanceF k O A = m := by
    unfold distanceF
    rw [hv, hm, Real.sqrt_sq (Nat.cast_nonneg m)]
    exact FI.fl (A := 2 ^ 53) ⟨m, by simp, by rw [abs_of_nonneg (by positivity)]; exact_mod_cast hml⟩ le_rfl
  refine ⟨e1, ?_⟩
  unfold Circle.containsF
  dsimp only
  rw [e1, hv, hm, ← sq]
  refine le_of_eq (FI.fl (A := 2 ^ 53) ⟨(m : ℤ) ^ 2, by push_cast; rfl, ?_⟩ le_rfl).symm
  rw [abs_of_nonneg (by positivity)]; exact_mod_cast hmn

namespace FC

/-- The rounded square root of 13. -/
theorem sqrt13 : fl √13 = ((8118979690322419 : ℤ) : ℝ) * 2 ^ (-51 : ℤ) := by
  have h1 : ((8118979690322419 : ℝ) - 1 / 4) / 2 ^ 51 < √13 := by
    rw [Real.lt_sqrt (by norm_num)]; norm_num
  have h2 : √13 < ((8118979690322419 : ℝ) + 49 / 100) / 2 ^ 51 := by
    rw [Real.sqrt_lt' (by norm_num)]; norm_num
  have h0 : 0 ≤ √(13 : ℝ) := Real.sqrt_nonneg _
  apply fl_eval (by norm_num)
  · rw [abs_of_nonneg h0]; norm_num at h1 ⊢; linarith
  · rw [abs_of_nonneg h0]; norm_num at h2 ⊢; linarith
  · rw [abs_lt]
    have e : √(13 : ℝ) / 2 ^ (-51 : ℤ) = √13 * 2 ^ 51 := by norm_num [zpow_neg]; ring
    rw [e]
    push_cast
    norm_num at h1 h2 ⊢
    constructor <;> linarith

/-- The rounded square of the rounded square root of 13. -/
theorem sq13 : fl (fl √13 * fl √13) < 13 := by
  rw [sqrt13]
  have : fl (((8118979690322419 : ℤ) : ℝ) * 2 ^ (-51 : ℤ) * (((8118979690322419 : ℤ) : ℝ) * 2 ^ (-51 : ℤ))) =
      ((13 * 2 ^ 49 - 1 : ℤ) : ℝ) * 2 ^ (-49 : ℤ) := by
    apply fl_eval (by norm_num)
    · norm_num [abs_of_nonneg]
    · norm_num [abs_of_nonneg]
    · norm_num [abs_lt]
  rw [this]
  norm_num

/-- Differences of small integers. -/
theorem sub_small (O A : Pt) (hO : IntPt (2 ^ 25) O) (hA : IntPt (2 ^ 25) A) (k : Fma) :
    vdotF k (subF A O) (subF A O) = sqDist O A := by
  obtain ⟨hs, hb⟩ := FI.subPt hA hO (by norm_num)
  rw [hs, FI.vdot k hb hb (by norm_num)]
  unfold sqDist
  simp only [Pt.sub_x, Pt.sub_y]
  ring

/-- A natural number as a coordinate. -/
theorem intB_nat (n B : ℕ) (h : n ≤ B) : IntB B (n : ℝ) := ⟨n, by simp, by simpa using h⟩

end FC

/-- C122: the circle of centre (0,0) through (2,3) does not contain (2,3) in double precision, although it includes it. -/
theorem C122_contains_counterexample (k k' : Fma) :
    ∃ c, circleOAF k ⟨0, 0⟩ ⟨2, 3⟩ = .ok c ∧ ¬ c.containsF k' ⟨2, 3⟩ ∧ c.includesF k' ⟨2, 3⟩ := by
  have i0 : IntPt (2 ^ 25) ⟨0, 0⟩ := ⟨⟨0, by simp, by norm_num⟩, ⟨0, by simp, by norm_num⟩⟩
  have i1 : IntPt (2 ^ 25) ⟨2, 3⟩ := ⟨⟨2, by simp, by norm_num⟩, ⟨3, by simp, by norm_num⟩⟩
  have j0 : IntPt 90000 ⟨0, 0⟩ := ⟨⟨0, by simp, by norm_num⟩, ⟨0, by simp, by norm_num⟩⟩
  have j1 : IntPt 90000 ⟨2, 3⟩ := ⟨⟨2, by simp, by norm_num⟩, ⟨3, by simp, by norm_num⟩⟩
  have d0 : DoublePt ⟨0, 0⟩ := ⟨FI.isDouble i0.1 (by norm_num), FI.isDouble i0.2 (by norm_num)⟩
  have d1 : DoublePt ⟨2, 3⟩ := ⟨FI.isDouble i1.1 (by norm_num), FI.isDouble i1.2 (by norm_num)⟩
  have hne : ¬ allclose64 ⟨0, 0⟩ ⟨2, 3⟩ := by
    rw [FI.allclose j0 j1]
    intro h
    have := congrArg Pt.x h
    norm_num at this
  have hok : circleOAF k ⟨0, 0⟩ ⟨2, 3⟩ = .ok ⟨⟨0, 0⟩, distanceF k ⟨0, 0⟩ ⟨2, 3⟩⟩ := by
    rw [C122_circleOA k _ _ d0 d1, if_neg hne]
  have h13 : sqDist ⟨0, 0⟩ ⟨2, 3⟩ = 13 := by unfold sqDist; norm_num
  refine ⟨_, hok, ?_, (C122_circleOA_includes k k' _ _ d0 d1 _ hok).2⟩
  unfold Circle.containsF distanceF
  dsimp only
  rw [sub_small _ _ i0 i1, sub_small _ _ i0 i1, h13]
  exact not_le.2 sq13

namespace FC

/-- Numbers that are not close. -/
theorem not_approx {a b : ℝ} (ha : |a| ≤ 100) (hb : |b| ≤ 100) (hab : 1 / 4 ≤ |b - a|) : ¬ approx_equalF a b := by
  have ht := FI.tiny_small
  have key : ∀ x y : ℝ, |x| ≤ 102 → |y| ≤ 102 → 1 / 5 ≤ |y - x| → ¬ iscloseF x y := by
    intro x y hx hy hxy hc
    have h1 := FI.tol_mul x
    have h2 := FI.tol_mul y
    have h3 := fl_err' (y - x)
    have h4 : |y - x| - |fl (y - x)| ≤ |fl (y - x) - (y - x)| := by rw [abs_sub_comm (fl (y - x))]; exact abs_sub_abs_le_abs_sub _ _
    rcases hc with hc | hc | hc
    · rw [hc] at hxy; norm_num at hxy
    · generalize |fl (y - x)| = m at *
      generalize |y - x| = n at *
      generalize |fl (fl (1 / 10 ^ 9) * y)| = q at *
      norm_num at *
      linarith
    · generalize |fl (y - x)| = m at *
      generalize |y - x| = n at *
      generalize |fl (fl (1 / 10 ^ 9) * x)| = q at *
      norm_num at *
      linarith
  rintro (h | h)
  · exact key a b (by linarith) (by linarith) (by linarith) h
  · have h1 := fl_err' (a + 1)
    have h2 := fl_err' (b + 1)
    have h3 : |a + 1| ≤ 101 := (abs_add_le _ _).trans (by norm_num; linarith)
    have h4 : |b + 1| ≤ 101 := (abs_add_le _ _).trans (by norm_num; linarith)
    rw [abs_le] at h1 h2 h3 h4
    have h1' : |a + 1| ≤ 101 := abs_le.2 h3
    have h2' : |b + 1| ≤ 101 := abs_le.2 h4
    refine key _ _ ?_ ?_ ?_ h
    · rw [abs_le]; norm_num at *; constructor <;> linarith
    · rw [abs_le]; norm_num at *; constructor <;> linarith
    · rcases le_abs.1 hab with g | g
      · refine le_trans ?_ (le_abs_self _)
        norm_num at *
        linarith
      · refine le_trans ?_ (neg_le_abs _)
        norm_num at *
        linarith

end FC

namespace FC

theorem dbl_half (n : ℤ) (h : |n| ≤ 2 ^ 53) : fl ((n : ℝ) / 2) = (n : ℝ) / 2 :=
  fl_double ⟨n, -1, by norm_num, h, by norm_num [zpow_neg]; ring⟩

theorem dbl_quarter (n : ℤ) (h : |n| ≤ 2 ^ 53) : fl ((n : ℝ) / 4) = (n : ℝ) / 4 :=
  fl_double ⟨n, -2, by norm_num, h, by norm_num [zpow_neg]; ring⟩

theorem dbl_int (n : ℤ) (h : |n| ≤ 2 ^ 53) : fl (n : ℝ) = n :=
  fl_double ⟨n, 0, by norm_num, h, by norm_num⟩

theorem far_sum : fl (2 ^ 53 - 1 + (2 ^ 53 + 2)) = 2 ^ 54 := by
  have : fl (2 ^ 53 - 1 + (2 ^ 53 + 2)) = ((2 ^ 52 : ℤ) : ℝ) * 2 ^ (2 : ℤ) := by
    apply fl_eval (by norm_num)
    · norm_num [abs_of_nonneg]
    · norm_num [abs_of_nonneg]
    · norm_num [abs_lt]
  rw [this]
  norm_num

/-- The scalar square of a vector of halves of small integers. -/
theorem vdot_half (k : Fma) (a b : ℤ) (ha : |a| ≤ 2 ^ 25) (hb : |b| ≤ 2 ^ 25) :
    vdotF k ⟨(a : ℝ) / 2, (b : ℝ) / 2⟩ ⟨(a : ℝ) / 2, (b : ℝ) / 2⟩ = ((a : ℝ) ^ 2 + (b : ℝ) ^ 2) / 4 := by
  have h1 : a ^ 2 ≤ (2 ^ 25) ^ 2 := by rw [← sq_abs]; exact pow_le_pow_left₀ (abs_nonneg _) ha 2
  have h2 : b ^ 2 ≤ (2 ^ 25) ^ 2 := by rw [← sq_abs]; exact pow_le_pow_left₀ (abs_nonneg _) hb 2
  have p1 := sq_nonneg a
  have p2 := sq_nonneg b
  have e1 := dbl_quarter (a ^ 2) (by rw [abs_of_nonneg p1]; norm_num at *; omega)
  have e2 := dbl_quarter (b ^ 2) (by rw [abs_of_nonneg p2]; norm_num at *; omega)
  have e3 := dbl_quarter (a ^ 2 + b ^ 2) (by rw [abs_of_nonneg (by positivity)]; norm_num at *; omega)
  have q1 : (a : ℝ) / 2 * (a / 2) = ((a ^ 2 : ℤ) : ℝ) / 4 := by push_cast; ring
  have q2 : (b : ℝ) / 2 * (b / 2) = ((b ^ 2 : ℤ) : ℝ) / 4 := by push_cast; ring
  have q3 : ((a ^ 2 : ℤ) : ℝ) / 4 + ((b ^ 2 : ℤ) : ℝ) / 4 = ((a ^ 2 + b ^ 2 : ℤ) : ℝ) / 4 := by push_cast; ring
  unfold vdotF
  cases k <;> simp only [q1, q2, e1, e2, q3, e3] <;> push_cast <;> ring

end FC

/-- C122: far from the origin the circle with a given diameter may include neither end. -/
theorem C122_circleAB_counterexample (k k' : Fma) :
    ∃ c, circleABF k ⟨2 ^ 53 - 1, 0⟩ ⟨2 ^ 53 + 2, 1⟩ = .ok c ∧ ¬ c.includesF k' ⟨2 ^ 53 - 1, 0⟩ ∧ ¬ c.includesF k' ⟨2 ^ 53 + 2, 1⟩ := by
  have dA : DoublePt ⟨2 ^ 53 - 1, 0⟩ :=
    ⟨⟨2 ^ 53 - 1, 0, by norm_num, by norm_num, by norm_num⟩, ⟨0, 0, by norm_num, by norm_num, by norm_num⟩⟩
  have dB : DoublePt ⟨2 ^ 53 + 2, 1⟩ :=
    ⟨⟨2 ^ 52 + 1, 1, by norm_num, by norm_num, by norm_num⟩, ⟨1, 0, by norm_num, by norm_num, by norm_num⟩⟩
  have hne : ¬ allclose64 ⟨2 ^ 53 - 1, 0⟩ ⟨2 ^ 53 + 2, 1⟩ := by
    rintro ⟨-, h⟩
    have := (FI.npClose (a := 0) (b := 1) ⟨0, by simp, by norm_num⟩ ⟨1, by simp, by norm_num⟩).1 h
    norm_num at this
  have hd : Spec.dist ⟨2 ^ 53 - 1, 0⟩ ⟨2 ^ 53 + 2, 1⟩ = √10 := by
    unfold Spec.dist sqDist; congr 1; norm_num
  obtain ⟨h1, h2⟩ := dist_factor k dA dB hne
  have h3 := half_err h2 h1
  have cx : fl (fl ((2 ^ 53 - 1 : ℝ) + (2 ^ 53 + 2)) / 2) = 2 ^ 53 := by
    rw [far_sum]
    have := dbl_int (2 ^ 53) (by norm_num)
    push_cast at this
    norm_num at this ⊢
    exact this
  have cy : fl (fl ((0 : ℝ) + 1) / 2) = 1 / 2 := by
    have e1 := dbl_int 1 (by norm_num)
    have e2 := dbl_half 1 (by norm_num)
    push_cast at e1 e2
    rw [zero_add, e1, e2]
  refine ⟨_, by rw [C122_circleAB k _ _ dA dB, if_neg hne], ?_⟩
  dsimp only
  rw [cx, cy]
  rw [hd] at h3
  generalize fl (distanceF k ⟨2 ^ 53 - 1, 0⟩ ⟨2 ^ 53 + 2, 1⟩ / 2) = r at *
  have s10 : √(10 : ℝ) ^ 2 = 10 := Real.sq_sqrt (by norm_num)
  have l10 : 3.16 ≤ √(10 : ℝ) := Real.le_sqrt_of_sq_le (by norm_num)
  have u10 : √(10 : ℝ) ≤ 3.17 := Real.sqrt_le_iff.2 (by norm_num)
  rw [abs_le] at h3
  have rl : 1.57 ≤ r := by norm_num at *; linarith
  have ru : r ≤ 1.59 := by norm_num at *; linarith
  have r2l : (1.57 : ℝ) * 1.57 ≤ r * r := by gcongr
  have r2u : r * r ≤ 1.59 * 1.59 := by gcongr
  have hf := fl_err' (r * r)
  have ht := FI.tiny_small
  rw [abs_of_nonneg (mul_self_nonneg r), abs_le] at hf
  have Rl : 2.4 ≤ fl (r * r) := by generalize r * r = q at *; norm_num at *; linarith
  have Ru : fl (r * r) ≤ 2.6 := by generalize r * r = q at *; norm_num at *; linarith
  unfold Circle.includesF
  dsimp only
  generalize fl (r * r) = R at *
  have sA : subF ⟨2 ^ 53 - 1, 0⟩ ⟨2 ^ 53, 1 / 2⟩ = ⟨((-2 : ℤ) : ℝ) / 2, ((-1 : ℤ) : ℝ) / 2⟩ := by
    have e1 := dbl_half (-2) (by norm_num)
    have e2 := dbl_half (-1) (by norm_num)
    unfold subF
    dsimp only
    rw [show ((2 : ℝ) ^ 53 - 1 - 2 ^ 53) = ((-2 : ℤ) : ℝ) / 2 by norm_num, show ((0 : ℝ) - 1 / 2) = ((-1 : ℤ) : ℝ) / 2 by norm_num, e1, e2]
  have sB : subF ⟨2 ^ 53 + 2, 1⟩ ⟨2 ^ 53, 1 / 2⟩ = ⟨((4 : ℤ) : ℝ) / 2, ((1 : ℤ) : ℝ) / 2⟩ := by
    have e1 := dbl_half 4 (by norm_num)
    have e2 := dbl_half 1 (by norm_num)
    unfold subF
    dsimp only
    rw [show ((2 : ℝ) ^ 53 + 2 - 2 ^ 53) = ((4 : ℤ) : ℝ) / 2 by norm_num, show ((1 : ℝ) - 1 / 2) = ((1 : ℤ) : ℝ) / 2 by norm_num, e1, e2]
  rw [sA, sB, vdot_half k' (-2) (-1) (by norm_num) (by norm_num), vdot_half k' 4 1 (by norm_num) (by norm_num)]
  constructor
  · apply not_approx
    · norm_num [abs_of_nonneg]
    · rw [abs_le]; constructor <;> norm_num at * <;> linarith
    · refine le_trans ?_ (le_abs_self _)
      push_cast
      norm_num at *
      linarith
  · apply not_approx
    · norm_num [abs_of_nonneg]
    · rw [abs_le]; constructor <;> norm_num at * <;> linarith
    · refine le_trans ?_ (neg_le_abs _)
      push_cast
      norm_num at *
      linarith

/-- The hypotheses of C122 hold for the circle with diameter from (1,2) to (4,6): the centre is (5/2, 4), the radius 5/2. -/
example : ∃ c, circleABF .first ⟨1, 2⟩ ⟨4, 6⟩ = .ok c ∧ c.center = ⟨5 / 2, 4⟩ ∧ c.includesF .none ⟨1, 2⟩ ∧ c.includesF .second ⟨4, 6⟩ := by
  have j0 : IntPt 90000 ⟨1, 2⟩ := ⟨⟨1, by simp, by norm_num⟩, ⟨2, by simp, by norm_num⟩⟩
  have j1 : IntPt 90000 ⟨4, 6⟩ := ⟨⟨4, by simp, by norm_num⟩, ⟨6, by simp, by norm_num⟩⟩
  have i0 : IntPt (2 ^ 52) ⟨1, 2⟩ := ⟨FI.mono j0.1 (by norm_num), FI.mono j0.2 (by norm_num)⟩
  have i1 : IntPt (2 ^ 52) ⟨4, 6⟩ := ⟨FI.mono j1.1 (by norm_num), FI.mono j1.2 (by norm_num)⟩
  have d0 : DoublePt ⟨1, 2⟩ := ⟨FI.isDouble j0.1 (by norm_num), FI.isDouble j0.2 (by norm_num)⟩
  have d1 : DoublePt ⟨4, 6⟩ := ⟨FI.isDouble j1.1 (by norm_num), FI.isDouble j1.2 (by norm_num)⟩
  have hok := C122_circleAB .first _ _ d0 d1
  rw [if_neg (by
    rw [FI.allclose j0 j1]
    intro h
    have := congrArg Pt.x h
    norm_num at this)] at hok
  refine ⟨_, hok, ?_, (C122_circleAB_integer _ .none _ _ i0 i1 _ hok).2.1, (C122_circleAB_integer _ .second _ _ i0 i1 _ hok).2.2⟩
  rw [(C122_circleAB_integer _ .none _ _ i0 i1 _ hok).1]
  norm_num

/-- The circle of centre (1,1) through (4,5) has radius 5 and contains (4,5). -/
example : ∃ c, circleOAF .none ⟨1, 1⟩ ⟨4, 5⟩ = .ok c ∧ c.radius = 5 ∧ c.containsF .first ⟨4, 5⟩ := by
  have j0 : IntPt 90000 ⟨1, 1⟩ := ⟨⟨1, by simp, by norm_num⟩, ⟨1, by simp, by norm_num⟩⟩
  have j1 : IntPt 90000 ⟨4, 5⟩ := ⟨⟨4, by simp, by norm_num⟩, ⟨5, by simp, by norm_num⟩⟩
  have i0 : IntPt (2 ^ 25) ⟨1, 1⟩ := ⟨FI.mono j0.1 (by norm_num), FI.mono j0.2 (by norm_num)⟩
  have i1 : IntPt (2 ^ 25) ⟨4, 5⟩ := ⟨FI.mono j1.1 (by norm_num), FI.mono j1.2 (by norm_num)⟩
  have d0 : DoublePt ⟨1, 1⟩ := ⟨FI.isDouble j0.1 (by norm_num), FI.isDouble j0.2 (by norm_num)⟩
  have d1 : DoublePt ⟨4, 5⟩ := ⟨FI.isDouble j1.1 (by norm_num), FI.isDouble j1.2 (by norm_num)⟩
  have hok := C122_circleOA .none _ _ d0 d1
  rw [if_neg (by
    rw [FI.allclose j0 j1]
    intro h
    have := congrArg Pt.x h
    norm_num at this)] at hok
  have := C122_circleOA_contains _ .first _ _ i0 i1 _ hok 5 (by unfold sqDist; norm_num)
  exact ⟨_, hok, by rw [this.1]; norm_num, this.2⟩

/-- The circle of centre (1,1) through (2,3): the point is reported to be on the circle, and the radius is close to √5; likewise the
ends of a diameter. -/
example (k k' : Fma) (c d : Circle) (h : circleOAF k ⟨1, 1⟩ ⟨2, 3⟩ = .ok c) (hd : circleABF k ⟨1, 1⟩ ⟨2, 3⟩ = .ok d) :
    c.includesF k' ⟨2, 3⟩ ∧ |c.radius - √5| ≤ √5 / 2 ^ 50 ∧ d.includesF k' ⟨1, 1⟩ ∧ d.includesF k' ⟨2, 3⟩ := by
  have h1 : DoublePt ⟨1, 1⟩ := by simpa using Ex.dbl 1 1 (by norm_num) (by norm_num)
  have h2 : DoublePt ⟨2, 3⟩ := by simpa using Ex.dbl 2 3 (by norm_num) (by norm_num)
  have e : Spec.dist (⟨1, 1⟩ : Pt) ⟨2, 3⟩ = √5 := by unfold Spec.dist sqDist; norm_num
  have h5 : (1 : ℝ) ≤ √5 := by rw [Real.one_le_sqrt]; norm_num
  have := C122_circleOA_radius k _ _ h1 h2 c h
  rw [e] at this
  exact ⟨(C122_circleOA_includes k k' _ _ h1 h2 c h).2, this, C122_circleAB_includes k k' _ _ h1 h2 d hd
    (by rw [e]; norm_num [abs_of_pos]; linarith) (by rw [e]; norm_num [abs_of_pos]; linarith)⟩
