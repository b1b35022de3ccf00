import Verif.Spec.Chains
import Verif.Props.CircularGasket

/-!
# Closed chains of circles, of balls and of their images
-/

open Spec Real Classical

namespace EllipticalChains

/-! ### Two balls -/

/-- Two balls with the distance of the centers at least the sum of the radii. -/
theorem stewart (P a b : Pt) (r s w : ℝ) (hr : 0 < r) (hs : 0 < s) :
    s * (sqDist P a + w) + r * (sqDist P b + w) =
      (r + s) * (sqDist P ((s / (r + s)) • a + (r / (r + s)) • b) + w) + r * s / (r + s) * sqDist a b := by
  have h : r + s ≠ 0 := by positivity
  unfold sqDist
  simp only [Pt.add_x, Pt.add_y, Pt.smul_x, Pt.smul_y]
  field_simp
  ring

theorem sqDist_pos_of_ne {P Q : Pt} (h : P ≠ Q) : 0 < sqDist P Q := by
  unfold sqDist
  rcases lt_or_eq_of_le (show 0 ≤ (P.x - Q.x) ^ 2 + (P.y - Q.y) ^ 2 by positivity) with h1 | h1
  · exact h1
  · exfalso
    apply h
    have e1 : P.x - Q.x = 0 := by nlinarith [sq_nonneg (P.x - Q.x), sq_nonneg (P.y - Q.y)]
    have e2 : P.y - Q.y = 0 := by nlinarith [sq_nonneg (P.x - Q.x), sq_nonneg (P.y - Q.y)]
    ext <;> linarith

theorem sqDist_nonneg' (P Q : Pt) : 0 ≤ sqDist P Q := by unfold sqDist; positivity

/-- The common points of two tangent balls. -/
theorem tangent_unique {P a b : Pt} {r s w : ℝ} (hr : 0 < r) (hs : 0 < s) (hw : 0 ≤ w) (h : sqDist a b = (r + s) ^ 2)
    (h1 : sqDist P a + w ≤ r ^ 2) (h2 : sqDist P b + w ≤ s ^ 2) : P = (s / (r + s)) • a + (r / (r + s)) • b ∧ w = 0 := by
  have e := stewart P a b r s w hr hs
  rw [h] at e
  have e2 : r * s / (r + s) * (r + s) ^ 2 = r * s * (r + s) := by field_simp
  rw [e2] at e
  obtain ⟨T, hT⟩ : ∃ T, T = (s / (r + s)) • a + (r / (r + s)) • b := ⟨_, rfl⟩
  rw [← hT] at e ⊢
  have h3 : (r + s) * (sqDist P T + w) ≤ 0 := by nlinarith
  have h4 : sqDist P T + w ≤ 0 := by
    by_contra hc
    push Not at hc
    nlinarith
  have h5 := sqDist_nonneg' P T
  refine ⟨?_, by linarith⟩
  by_contra hne
  have := sqDist_pos_of_ne hne
  linarith

theorem tangent_point {a b : Pt} {r s : ℝ} (hr : 0 < r) (hs : 0 < s) (h : sqDist a b = (r + s) ^ 2) :
    sqDist ((s / (r + s)) • a + (r / (r + s)) • b) a = r ^ 2 ∧ sqDist ((s / (r + s)) • a + (r / (r + s)) • b) b = s ^ 2 := by
  have hrs : r + s ≠ 0 := by positivity
  have e1 : sqDist ((s / (r + s)) • a + (r / (r + s)) • b) a = (r / (r + s)) ^ 2 * sqDist a b := by
    unfold sqDist
    simp only [Pt.add_x, Pt.add_y, Pt.smul_x, Pt.smul_y]
    field_simp
    ring
  have e2 : sqDist ((s / (r + s)) • a + (r / (r + s)) • b) b = (s / (r + s)) ^ 2 * sqDist a b := by
    unfold sqDist
    simp only [Pt.add_x, Pt.add_y, Pt.smul_x, Pt.smul_y]
    field_simp
    ring
  rw [e1, e2, h]
  constructor <;> field_simp

theorem balls_apart {P a b : Pt} {r s w : ℝ} (hr : 0 < r) (hs : 0 < s) (hw : 0 ≤ w) (h : (r + s) ^ 2 ≤ sqDist a b)
    (h1 : sqDist P a + w < r ^ 2) (h2 : sqDist P b + w < s ^ 2) : False := by
  have e := stewart P a b r s w hr hs
  have e2 : r * s / (r + s) * (r + s) ^ 2 = r * s * (r + s) := by field_simp
  have h3 : r * s / (r + s) * (r + s) ^ 2 ≤ r * s / (r + s) * sqDist a b := mul_le_mul_of_nonneg_left h (by positivity)
  rw [e2] at h3
  have h4 : 0 ≤ (r + s) * (sqDist P ((s / (r + s)) • a + (r / (r + s)) • b) + w) :=
    mul_nonneg (by positivity) (by linarith [sqDist_nonneg' P ((s / (r + s)) • a + (r / (r + s)) • b)])
  nlinarith

theorem balls_far {P a b : Pt} {r s w : ℝ} (hr : 0 < r) (hs : 0 < s) (hw : 0 ≤ w) (h : (r + s) ^ 2 < sqDist a b)
    (h1 : sqDist P a + w ≤ r ^ 2) (h2 : sqDist P b + w ≤ s ^ 2) : False := by
  have e := stewart P a b r s w hr hs
  have e2 : r * s / (r + s) * (r + s) ^ 2 = r * s * (r + s) := by field_simp
  have h3 : r * s / (r + s) * (r + s) ^ 2 < r * s / (r + s) * sqDist a b := mul_lt_mul_of_pos_left h (by positivity)
  rw [e2] at h3
  have h4 : 0 ≤ (r + s) * (sqDist P ((s / (r + s)) • a + (r / (r + s)) • b) + w) :=
    mul_nonneg (by positivity) (by linarith [sqDist_nonneg' P ((s / (r + s)) • a + (r / (r + s)) • b)])
  nlinarith

/-- Two balls, one inside the other. -/
theorem ball_inside {P a O : Pt} {r R d w : ℝ} (hr : 0 < r) (hd : 0 ≤ d) (hR : r + d ≤ R) (hw : 0 ≤ w) (h : sqDist a O ≤ d ^ 2)
    (h1 : sqDist P a + w ≤ r ^ 2) : sqDist P O + w ≤ (r + d) ^ 2 := by
  obtain ⟨t, ht⟩ : ∃ t, t = (P.x - a.x) * (a.x - O.x) + (P.y - a.y) * (a.y - O.y) := ⟨_, rfl⟩
  have e : sqDist P O = sqDist P a + 2 * t + sqDist a O := by rw [ht]; unfold sqDist; ring
  have hcs : t ^ 2 ≤ sqDist P a * sqDist a O := by
    rw [ht]; unfold sqDist
    nlinarith [sq_nonneg ((P.x - a.x) * (a.y - O.y) - (P.y - a.y) * (a.x - O.x))]
  have h2 : sqDist P a * sqDist a O ≤ r ^ 2 * d ^ 2 :=
    mul_le_mul (by linarith) h (sqDist_nonneg' _ _) (by positivity)
  have h3 : t ≤ r * d := by
    have : t ^ 2 ≤ (r * d) ^ 2 := by rw [mul_pow]; linarith
    exact le_trans (le_abs_self t) (abs_le_of_sq_le_sq this (by positivity))
  nlinarith

/-- The points of a ball on the sphere that it touches from the inside. -/
theorem inner_unique {P a O : Pt} {r R w : ℝ} (hr : 0 < r) (hR : r < R) (hw : 0 ≤ w) (h : sqDist a O = (R - r) ^ 2)
    (h1 : sqDist P a + w ≤ r ^ 2) (h2 : sqDist P O + w = R ^ 2) : P = O + (R / (R - r)) • (a - O) ∧ w = 0 := by
  have hRr : R - r ≠ 0 := by linarith
  obtain ⟨T, hT⟩ : ∃ T, T = O + (R / (R - r)) • (a - O) := ⟨_, rfl⟩
  have e : R * (sqDist P a + w) = r * (sqDist P O + w) + (R - r) * (sqDist P T + w) - r * R / (R - r) * sqDist a O := by
    rw [hT]
    unfold sqDist
    simp only [Pt.add_x, Pt.add_y, Pt.smul_x, Pt.smul_y, Pt.sub_x, Pt.sub_y]
    field_simp
    ring
  have e2 : r * R / (R - r) * (R - r) ^ 2 = r * R * (R - r) := by field_simp
  rw [h, h2, e2] at e
  rw [← hT]
  have h3 : (R - r) * (sqDist P T + w) ≤ 0 := by nlinarith
  have h4 : sqDist P T + w ≤ 0 := by
    by_contra hc
    push Not at hc
    nlinarith
  have h5 := sqDist_nonneg' P T
  refine ⟨?_, by linarith⟩
  by_contra hne
  have := sqDist_pos_of_ne hne
  linarith

theorem inner_point {a O : Pt} {r R : ℝ} (hR : r < R) (h : sqDist a O = (R - r) ^ 2) :
    sqDist (O + (R / (R - r)) • (a - O)) a = r ^ 2 ∧ sqDist (O + (R / (R - r)) • (a - O)) O = R ^ 2 := by
  have hRr : R - r ≠ 0 := by linarith
  have e1 : sqDist (O + (R / (R - r)) • (a - O)) a = (r / (R - r)) ^ 2 * sqDist a O := by
    unfold sqDist
    simp only [Pt.add_x, Pt.add_y, Pt.smul_x, Pt.smul_y, Pt.sub_x, Pt.sub_y]
    field_simp
    ring
  have e2 : sqDist (O + (R / (R - r)) • (a - O)) O = (R / (R - r)) ^ 2 * sqDist a O := by
    unfold sqDist
    simp only [Pt.add_x, Pt.add_y, Pt.smul_x, Pt.smul_y, Pt.sub_x, Pt.sub_y]
    ring
  rw [e1, e2, h]
  constructor <;> field_simp

/-- A ball inside a sphere that it does not touch. -/
theorem inner_free {P a O : Pt} {r R w : ℝ} (hr : 0 < r) (hR : r < R) (hw : 0 ≤ w) (h : sqDist a O < (R - r) ^ 2)
    (h1 : sqDist P a + w ≤ r ^ 2) (h2 : sqDist P O + w = R ^ 2) : False := by
  obtain ⟨d, hd⟩ : ∃ d, d = √(sqDist a O) := ⟨_, rfl⟩
  have hd2 : sqDist a O = d ^ 2 := by rw [hd, Real.sq_sqrt (sqDist_nonneg' _ _)]
  have hd0 : 0 ≤ d := by rw [hd]; exact Real.sqrt_nonneg _
  have hlt : d < R - r := by
    rw [hd2] at h
    exact lt_of_pow_lt_pow_left₀ 2 (by linarith) h
  have := ball_inside hr hd0 (R := R) (by linarith) hw hd2.le h1
  nlinarith

/-! ### The circles of a Steiner chain -/

/-- Radii and products of the circles, compared to the ones of the chain for `phi = 0`. -/
theorem scale_radii {c0 : Circle} (hc : c0.Valid) {n : ℕ} (hn : 3 ≤ n) {phi : ℝ} (shift : ℝ) (hphi : |phi| < 1) :
    ∃ (l : ℕ → ℝ) (k : ℝ), (∀ i, 0 < l i ∧ (apMap c0 phi (chain0 c0 n shift i)).radius = l i * (chain0 c0 n shift i).radius) ∧
      0 < k ∧ (apMap c0 phi (inner0 c0 n)).radius = k * (inner0 c0 n).radius ∧
      (∀ i j, lprod (apMap c0 phi (chain0 c0 n shift i)) (apMap c0 phi (chain0 c0 n shift j)) =
        l i * l j * lprod (chain0 c0 n shift i) (chain0 c0 n shift j)) ∧
      lprod (apMap c0 phi (inner0 c0 n)) c0 = k * lprod (inner0 c0 n) c0 := by
  have hR : 0 < c0.radius := hc
  by_cases hp : phi = 0
  · refine ⟨fun _ => 1, 1, ?_, one_pos, ?_, ?_, ?_⟩ <;> unfold apMap <;> simp only [if_pos hp, one_mul, zero_lt_one, true_and, implies_true]
  · have habs : 0 < |phi| := abs_pos.2 hp
    have hd : c0.radius < c0.radius / |phi| := by rw [lt_div_iff₀ habs]; nlinarith
    have hpos : 0 < (c0.radius / |phi| - c0.radius) ^ 2 := pow_pos (by linarith) 2
    obtain ⟨h1, h2⟩ := pole0_power hc hn shift hphi hp
    have D1 : ∀ i, 0 < sqDist (chain0 c0 n shift i).center (pole0 c0 phi) - (chain0 c0 n shift i).radius ^ 2 := fun i => lt_of_lt_of_le hpos (h1 i)
    have D2 : 0 < sqDist (inner0 c0 n).center (pole0 c0 phi) - (inner0 c0 n).radius ^ 2 := lt_of_lt_of_le hpos h2
    obtain ⟨k, hk⟩ : ∃ k, k = (c0.radius / |phi|) ^ 2 - c0.radius ^ 2 := ⟨_, rfl⟩
    have hk0 : 0 < k := by rw [hk]; nlinarith
    have hD0 : sqDist c0.center (pole0 c0 phi) - c0.radius ^ 2 = k := by rw [sqDist_comm, pole0_dist hp, hk]
    have w0 : k / (sqDist c0.center (pole0 c0 phi) - c0.radius ^ 2) = 1 := by rw [hD0, div_self hk0.ne']
    have hc0 : img (pole0 c0 phi) k c0 = c0 := by
      unfold img
      rw [w0]
      cases c0
      simp only [one_mul, Circle.mk.injEq, and_true]
      ext <;> simp
    refine ⟨fun i => k / (sqDist (chain0 c0 n shift i).center (pole0 c0 phi) - (chain0 c0 n shift i).radius ^ 2),
      k / (sqDist (inner0 c0 n).center (pole0 c0 phi) - (inner0 c0 n).radius ^ 2), ?_, div_pos hk0 D2, ?_, ?_, ?_⟩
    · intro i
      refine ⟨div_pos hk0 (D1 i), ?_⟩
      unfold apMap
      rw [if_neg hp, ← hk]
      rfl
    · unfold apMap
      rw [if_neg hp, ← hk]
      rfl
    · intro i j
      unfold apMap
      rw [if_neg hp, if_neg hp, ← hk, lprod_img (D1 i) (D1 j)]
    · have e := lprod_img (I := pole0 c0 phi) (k := k) D2 (b := c0) (by rw [hD0]; exact hk0)
      rw [hc0, w0, mul_one] at e
      unfold apMap
      rw [if_neg hp, ← hk, e]

/-- The angle between two circles of the chain that are not neighbours. -/
theorem cos_far {n i j : ℕ} (hi : i < n) (hj : j < n) (hij : i ≠ j) (h1 : j ≠ (i + 1) % n) (h2 : i ≠ (j + 1) % n) (t : ℝ) :
    cos ((((i : ℝ) + t) * 2 * (π / n)) - (((j : ℝ) + t) * 2 * (π / n))) < cos (2 * (π / n)) := by
  have key : ∀ i j : ℕ, i < j → j < n → j ≠ (i + 1) % n → i ≠ (j + 1) % n →
      cos ((((j : ℝ) + t) * 2 * (π / n)) - (((i : ℝ) + t) * 2 * (π / n))) < cos (2 * (π / n)) := by
    intro i j hlt hj h1 h2
    have h3 : i + 2 ≤ j := by
      have : (i + 1) % n = i + 1 := Nat.mod_eq_of_lt (by omega)
      omega
    have h4 : j + 2 ≤ i + n := by
      by_contra hc
      have h0 : i = 0 := by omega
      have hjn : j + 1 = n := by omega
      rw [hjn, Nat.mod_self] at h2
      exact h2 h0
    have hn4 : 4 ≤ n := by omega
    have hn' : (4 : ℝ) ≤ n := by exact_mod_cast hn4
    have hx : 0 < π / n := by positivity
    have hpx : π = n * (π / n) := by field_simp
    have h3' : (i : ℝ) + 2 ≤ j := by exact_mod_cast h3
    have h4' : (j : ℝ) + 2 ≤ i + n := by exact_mod_cast h4
    have hle : cos ((((j : ℝ) + t) * 2 * (π / n)) - (((i : ℝ) + t) * 2 * (π / n))) ≤ cos (4 * (π / n)) := by
      apply cos_le_of_between (by linarith)
      · nlinarith
      · nlinarith
    refine lt_of_le_of_lt hle ?_
    apply cos_lt_cos_of_nonneg_of_le_pi (by linarith)
    · nlinarith
    · linarith
  rcases Nat.lt_or_ge i j with h | h
  · rw [← cos_neg, neg_sub]; exact key i j h hj h1 h2
  · exact key j i (by omega) hi h2 h1

theorem chain0_far {c0 : Circle} (hc : c0.Valid) {n : ℕ} (hn : 3 ≤ n) (shift : ℝ) {i j : ℕ} (hi : i < n) (hj : j < n) (hij : i ≠ j)
    (h1 : j ≠ (i + 1) % n) (h2 : i ≠ (j + 1) % n) :
    2 * ((chain0 c0 n shift i).radius * (chain0 c0 n shift j).radius) < lprod (chain0 c0 n shift i) (chain0 c0 n shift j) := by
  have hR : 0 < c0.radius := hc
  obtain ⟨hs0, hs1⟩ := sine_bounds hn
  have hcos := cos_far hi hj hij h1 h2 shift
  rw [cos_two_mul] at hcos
  have hsc := sin_sq_add_cos_sq (π / n)
  unfold lprod chain0
  dsimp only
  rw [sqDist_polar]
  obtain ⟨C, hC⟩ : ∃ C, C = c0.radius / (1 + sin (π / n)) := ⟨_, rfl⟩
  have hC0 : 0 < C := by rw [hC]; positivity
  rw [← hC]
  have hC2 : 0 < C ^ 2 := by positivity
  have := mul_lt_mul_of_pos_left hcos hC2
  nlinarith

/-- The metric relations of a Steiner chain; the circle number `n` is the inner one. -/
structure MetricChain (c0 : Circle) (n : ℕ) (c : ℕ → Circle) : Prop where
  pos : ∀ j ≤ n, 0 < (c j).radius
  lt : ∀ j ≤ n, (c j).radius < c0.radius
  next : ∀ i < n, sqDist (c i).center (c ((i + 1) % n)).center = ((c i).radius + (c ((i + 1) % n)).radius) ^ 2
  last : ∀ i < n, sqDist (c i).center (c n).center = ((c i).radius + (c n).radius) ^ 2
  rim : ∀ i < n, sqDist (c i).center c0.center = (c0.radius - (c i).radius) ^ 2
  apart : ∀ i ≤ n, ∀ j ≤ n, i ≠ j → ((c i).radius + (c j).radius) ^ 2 ≤ sqDist (c i).center (c j).center
  far : ∀ i < n, ∀ j < n, i ≠ j → j ≠ (i + 1) % n → i ≠ (j + 1) % n →
    ((c i).radius + (c j).radius) ^ 2 < sqDist (c i).center (c j).center
  free : sqDist (c n).center c0.center < (c0.radius - (c n).radius) ^ 2

theorem apC_lt {c0 : Circle} {n : ℕ} {phi shift : ℝ} {j : ℕ} (hj : j < n) : apC c0 n phi shift j = apMap c0 phi (chain0 c0 n shift j) := by
  unfold apC apCircle; rw [if_pos hj]

theorem apC_n {c0 : Circle} {n : ℕ} {phi shift : ℝ} : apC c0 n phi shift n = apMap c0 phi (inner0 c0 n) := by
  unfold apC apCircle; rw [if_neg (lt_irrefl n)]

theorem metric_chain {c0 : Circle} (hc : c0.Valid) {n : ℕ} (hn : 3 ≤ n) {phi : ℝ} (shift : ℝ) (hphi : |phi| < 1) :
    MetricChain c0 n (apC c0 n phi shift) := by
  have hR : 0 < c0.radius := hc
  have h := ap_ring hc hn shift hphi
  obtain ⟨l, k, hl, hk, hkr, hll, hk0⟩ := scale_radii hc hn shift hphi
  have h0 := seed0 hc hn shift
  have cases_le : ∀ j ≤ n, j < n ∨ j = n := fun j hj => Nat.lt_or_eq_of_le hj
  have hlast : ∀ i < n, sqDist (apC c0 n phi shift i).center (apC c0 n phi shift n).center =
      ((apC c0 n phi shift i).radius + (apC c0 n phi shift n).radius) ^ 2 := by
    intro i hi
    have e := h.ri i hi
    rw [apC_lt hi, apC_n]
    unfold lprod at e
    linarith
  refine ⟨fun j _ => h.valid j, ?_, ?_, hlast, ?_, ?_, ?_, ?_⟩
  · intro j hj
    rcases cases_le j hj with h1 | rfl
    · rw [apC_lt h1]; exact h.rlt j
    · rw [apC_n]; exact h.ilt
  · intro i hi
    have e := h.next i hi
    rw [apC_lt hi, apC_lt (Nat.mod_lt _ (by omega))]
    unfold lprod at e
    linarith
  · intro i hi
    have e := h.r0 i
    rw [apC_lt hi]
    unfold lprod at e
    linarith
  · intro i hi j hj hij
    rcases cases_le i hi with hi' | rfl
    · rcases cases_le j hj with hj' | rfl
      · have e := h.rr i j hi' hj' hij
        rw [apC_lt hi', apC_lt hj']
        unfold lprod at e
        linarith
      · exact (hlast i hi').ge
    · have hj' : j < i := by omega
      rw [sqDist_comm, hlast j hj']
      apply le_of_eq; ring
  · intro i hi j hj hij h1 h2
    have e := chain0_far hc hn shift hi hj hij h1 h2
    rw [apC_lt hi, apC_lt hj]
    have e2 := hll i j
    have e3 := mul_lt_mul_of_pos_left e (mul_pos (hl i).1 (hl j).1)
    rw [← e2] at e3
    unfold lprod at e3
    rw [(hl i).2, (hl j).2] at e3 ⊢
    linarith
  · rw [apC_n]
    have e : lprod (inner0 c0 n) c0 < -(2 * ((inner0 c0 n).radius * c0.radius)) := by
      have hlt : (inner0 c0 n).radius < c0.radius := h0.ilt
      have z : sqDist (inner0 c0 n).center c0.center = 0 := by unfold inner0 sqDist; simp
      unfold lprod
      rw [z]
      nlinarith [pow_pos (sub_pos.2 hlt) 2]
    have e3 := mul_lt_mul_of_pos_left e hk
    rw [← hk0] at e3
    unfold lprod at e3
    rw [hkr] at e3 ⊢
    linarith

/-! ### Balls, discs, images -/

theorem ball_interior {c : Circle} {v : Pt × ℝ} (h : v ∈ (ballFig c).interior) : sqDist v.1 c.center + v.2 ^ 2 < c.radius ^ 2 :=
  lt_of_le_of_ne h.1 h.2

theorem unique_tangent {a b : Circle} (ha : 0 < a.radius) (hb : 0 < b.radius) (h : sqDist a.center b.center = (a.radius + b.radius) ^ 2) :
    ∃! v, v ∈ (ballFig a).points ∧ v ∈ (ballFig b).points := by
  obtain ⟨h1, h2⟩ := tangent_point ha hb h
  refine ⟨((b.radius / (a.radius + b.radius)) • a.center + (a.radius / (a.radius + b.radius)) • b.center, 0), ⟨?_, ?_⟩, ?_⟩
  · change sqDist _ _ + 0 ^ 2 ≤ _
    rw [h1]; apply le_of_eq; ring
  · change sqDist _ _ + 0 ^ 2 ≤ _
    rw [h2]; apply le_of_eq; ring
  · rintro ⟨P, z⟩ ⟨k1, k2⟩
    obtain ⟨e1, e2⟩ := tangent_unique ha hb (sq_nonneg z) h k1 k2
    have hz : z = 0 := by simpa using e2
    exact Prod.ext e1 hz

theorem MetricChain.balls {c0 : Circle} {n : ℕ} {c : ℕ → Circle} (h : MetricChain c0 n c) :
    ClosedChain (ballFig c0) n (fun j => ballFig (c j)) := by
  refine ⟨?_, ?_, ?_, ?_, ?_, ?_, ?_⟩
  · intro j hj v hv
    have hp := h.pos j hj
    have hl := h.lt j hj
    have hd : sqDist (c j).center c0.center ≤ (c0.radius - (c j).radius) ^ 2 := by
      rcases Nat.lt_or_eq_of_le hj with h1 | rfl
      · exact (h.rim j h1).le
      · exact h.free.le
    have := ball_inside hp (sub_pos.2 hl).le (R := c0.radius) (by linarith) (sq_nonneg v.2) hd hv
    rw [add_sub_cancel] at this
    exact this
  · intro i hi j hj hij
    rw [Set.disjoint_left]
    intro v h1 h2
    exact balls_apart (h.pos i hi) (h.pos j hj) (sq_nonneg v.2) (h.apart i hi j hj hij) (ball_interior h1) (ball_interior h2)
  · intro i hi
    exact unique_tangent (h.pos i hi.le) (h.pos _ (Nat.mod_lt _ (by omega)).le) (h.next i hi)
  · intro i hi
    exact unique_tangent (h.pos i hi.le) (h.pos n le_rfl) (h.last i hi)
  · intro i hi
    have hl := h.lt i hi.le
    obtain ⟨h1, h2⟩ := inner_point hl (h.rim i hi)
    refine ⟨(c0.center + (c0.radius / (c0.radius - (c i).radius)) • ((c i).center - c0.center), 0), ⟨?_, ?_⟩, ?_⟩
    · change sqDist _ _ + 0 ^ 2 ≤ _
      rw [h1]; apply le_of_eq; ring
    · change sqDist _ _ + 0 ^ 2 = _
      rw [h2]; ring
    · rintro ⟨P, z⟩ ⟨k1, k2⟩
      obtain ⟨e1, e2⟩ := inner_unique (h.pos i hi.le) hl (sq_nonneg z) (h.rim i hi) k1 k2
      have hz : z = 0 := by simpa using e2
      exact Prod.ext e1 hz
  · intro i hi j hj hij h1 h2
    rw [Set.disjoint_left]
    intro v k1 k2
    exact balls_far (h.pos i hi.le) (h.pos j hj.le) (sq_nonneg v.2) (h.far i hi j hj hij h1 h2) k1 k2
  · rw [Set.disjoint_left]
    intro v k1 k2
    exact inner_free (h.pos n le_rfl) (h.lt n le_rfl) (sq_nonneg v.2) h.free k1 k2

theorem disc_points {c : Circle} {P : Pt} : P ∈ (discFig c).points ↔ ((P, 0) : Pt × ℝ) ∈ (ballFig c).points := by
  unfold discFig ballFig; simp

theorem disc_edge {c : Circle} {P : Pt} : P ∈ (discFig c).edge ↔ ((P, 0) : Pt × ℝ) ∈ (ballFig c).edge := by
  unfold discFig ballFig OnCircle; simp

theorem flat_unique {A B : Set (Pt × ℝ)} (hA : ∀ P z, (P, z) ∈ A → (P, -z) ∈ A) (hB : ∀ P z, (P, z) ∈ B → (P, -z) ∈ B)
    (h : ∃! v, v ∈ A ∧ v ∈ B) : ∃! P : Pt, (P, (0 : ℝ)) ∈ A ∧ (P, (0 : ℝ)) ∈ B := by
  obtain ⟨⟨P, z⟩, ⟨h1, h2⟩, hu⟩ := h
  have e := hu (P, -z) ⟨hA _ _ h1, hB _ _ h2⟩
  have hz : z = 0 := by
    have := congrArg Prod.snd e
    dsimp only at this
    linarith
  subst hz
  exact ⟨P, ⟨h1, h2⟩, fun Q hQ => congrArg Prod.fst (hu (Q, 0) hQ)⟩

theorem ball_symm (c : Circle) : (∀ P z, (P, z) ∈ (ballFig c).points → (P, -z) ∈ (ballFig c).points) ∧
    (∀ P z, (P, z) ∈ (ballFig c).edge → (P, -z) ∈ (ballFig c).edge) := by
  unfold ballFig
  simp

theorem discs_of_balls {c0 : Circle} {n : ℕ} {c : ℕ → Circle} (h : ClosedChain (ballFig c0) n (fun j => ballFig (c j))) :
    ClosedChain (discFig c0) n (fun j => discFig (c j)) := by
  have hint : ∀ {a : Circle} {P : Pt}, P ∈ (discFig a).interior → ((P, 0) : Pt × ℝ) ∈ (ballFig a).interior :=
    fun hP => ⟨disc_points.1 hP.1, fun k => hP.2 (disc_edge.2 k)⟩
  refine ⟨?_, ?_, ?_, ?_, ?_, ?_, ?_⟩
  · intro j hj P hP
    exact disc_points.2 (h.inside j hj (disc_points.1 hP))
  · intro i hi j hj hij
    rw [Set.disjoint_left]
    intro P h1 h2
    exact Set.disjoint_left.1 (h.apart i hi j hj hij) (hint h1) (hint h2)
  · intro i hi
    simp only [disc_points]
    exact flat_unique (ball_symm _).1 (ball_symm _).1 (h.next i hi)
  · intro i hi
    simp only [disc_points]
    exact flat_unique (ball_symm _).1 (ball_symm _).1 (h.last i hi)
  · intro i hi
    simp only [disc_points, disc_edge]
    exact flat_unique (ball_symm _).1 (ball_symm _).2 (h.rim i hi)
  · intro i hi j hj hij h1 h2
    rw [Set.disjoint_left]
    intro P k1 k2
    exact Set.disjoint_left.1 (h.far i hi j hj hij h1 h2) (disc_points.1 k1) (disc_points.1 k2)
  · rw [Set.disjoint_left]
    intro P k1 k2
    exact Set.disjoint_left.1 h.free (disc_points.1 k1) (disc_edge.1 k2)

theorem unique_image {α β : Type} {f : α → β} (hf : Function.Injective f) {A B : Set α} (h : ∃! v, v ∈ A ∧ v ∈ B) :
    ∃! v, v ∈ f '' A ∧ v ∈ f '' B := by
  obtain ⟨v, ⟨h1, h2⟩, hu⟩ := h
  refine ⟨f v, ⟨⟨v, h1, rfl⟩, ⟨v, h2, rfl⟩⟩, ?_⟩
  rintro w ⟨⟨x, hx, rfl⟩, ⟨y, hy, e⟩⟩
  have := hf e
  subst this
  rw [hu y ⟨hx, hy⟩]

theorem closed_image {α β : Type} {f : α → β} (hf : Function.Injective f) {A : Figure α} {n : ℕ} {s : ℕ → Figure α} (h : ClosedChain A n s) :
    ClosedChain (A.image f) n (fun j => (s j).image f) := by
  have hint : ∀ B : Figure α, (B.image f).interior = f '' B.interior := fun B => (Set.image_diff hf _ _).symm
  refine ⟨?_, ?_, ?_, ?_, ?_, ?_, ?_⟩
  · intro j hj
    exact Set.image_mono (h.inside j hj)
  · intro i hi j hj hij
    rw [hint, hint]
    exact (Set.disjoint_image_iff hf).2 (h.apart i hi j hj hij)
  · exact fun i hi => unique_image hf (h.next i hi)
  · exact fun i hi => unique_image hf (h.last i hi)
  · exact fun i hi => unique_image hf (h.rim i hi)
  · exact fun i hi j hj hij h1 h2 => (Set.disjoint_image_iff hf).2 (h.far i hi j hj hij h1 h2)
  · exact (Set.disjoint_image_iff hf).2 h.free

end EllipticalChains
