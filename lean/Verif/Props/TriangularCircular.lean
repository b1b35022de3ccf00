import Verif.Props.IcosahedralRun
import Verif.Props.CircularGasket
import Verif.Model.TriangularCircular

/-!
# C124: the whole picture of `triangularCircularGasket.py` and of its animation
-/

open Spec Real Classical TriGasket CircularGasket

namespace TriCircular

variable {A B C u w : Pt} {σ γ β κ : ℝ}

/-- A corner of a triangle with sides between `m` and `1.2 m`. -/
theorem mod_corner {m : ℝ} (hm : 0 < m) (h : Corner A B C u w σ γ β κ) (b1 : m ≤ β) (b2 : β ≤ 1.2 * m) (k1 : m ≤ κ) (k2 : κ ≤ 1.2 * m)
    (d1 : m ^ 2 ≤ sqDist B C) (d2 : sqDist B C ≤ (1.2 * m) ^ 2) : 0.408 ≤ σ ∧ σ ≤ 0.6 ∧ 0.8 ≤ γ ∧ γ ≤ 0.913 := by
  have e := h.dot_BC
  have eB := h.sqDist_B
  have eC := h.mirror.sqDist_B
  have hσ := h.hσ
  have hγ := h.hγ
  have sq := h.sq
  have key : 4 * (β * κ) * σ ^ 2 = sqDist B C - (β - κ) ^ 2 := by
    unfold dot at e
    unfold sqDist at eB eC ⊢
    simp only [Pt.sub_x, Pt.sub_y] at e
    linear_combination (2 : ℝ) * e - eB - eC
  have p1 : m * m ≤ β * κ := mul_le_mul b1 k1 hm.le (by linarith)
  have p2 : β * κ ≤ 1.2 * m * (1.2 * m) := mul_le_mul b2 k2 (by linarith) (by linarith)
  have p3 : (β - κ) ^ 2 ≤ (0.2 * m) ^ 2 := by
    rw [← sq_abs]
    exact pow_le_pow_left₀ (abs_nonneg _) (abs_le.2 ⟨by linarith, by linarith⟩) 2
  have s1 : 0.16665 ≤ σ ^ 2 := by
    by_contra hn
    push Not at hn
    nlinarith
  have s2 : σ ^ 2 ≤ 0.36 := by
    by_contra hn
    push Not at hn
    have q1 : m * m * 0.36 < β * κ * σ ^ 2 := mul_lt_mul' p1 hn (by norm_num) (by nlinarith)
    have q2 := sq_nonneg (β - κ)
    nlinarith only [key, q1, q2, d2]
  refine ⟨?_, ?_, ?_, ?_⟩ <;> nlinarith

theorem mod_size {m σA γA lA σB γB lB c : ℝ} (hm : 0 < m) (a2 : σA ≤ 0.6) (a4 : γA ≤ 0.913) (hσA : 0 < σA)
    (b1 : 0.408 ≤ σB) (b4 : γB ≤ 0.913) (hγB : 0 < γB) (sq : σB ^ 2 + γB ^ 2 = 1) (hA : 0 < lA) (hB : 0 < lB) (hBm : lB * (1 + 9 / 10 * σB) ≤ 1.2 * m * γB)
    (hc : m ≤ c) (ht : (c - lA * γA - lB * γB) ^ 2 = 4 * (σA * lA) * (σB * lB)) : m / 22 ≤ lA := by
  by_contra hn
  push Not at hn
  have q0 : lB * 1.3672 ≤ 1.2 * m * γB := le_trans (mul_le_mul_of_nonneg_left (by linarith) hB.le) hBm
  have q1 : 1.2 * m * γB * γB ≤ 1.2 * m * (0.913 * 0.913) := by
    rw [mul_assoc]
    exact mul_le_mul_of_nonneg_left (mul_le_mul b4 b4 hγB.le (by norm_num)) (by positivity)
  have t2 : lB * γB ≤ 0.7317 * m := by
    have := mul_le_mul_of_nonneg_right q0 hγB.le
    linarith
  have t1 : lA * γA ≤ 0.0415 * m := by nlinarith
  have d1 : 0.2268 * m ≤ c - lA * γA - lB * γB := by linarith
  have d2 : (0.2268 * m) ^ 2 ≤ (c - lA * γA - lB * γB) ^ 2 := pow_le_pow_left₀ (by positivity) d1 2
  have r1 : σA * lA ≤ 0.6 * (m / 22) := mul_le_mul a2 hn.le hA.le (by norm_num)
  have sg : γB * σB ≤ 1 / 2 := by nlinarith [sq_nonneg (γB - σB)]
  have r2 : σB * lB ≤ 0.4389 * m := by
    have k1 := mul_le_mul_of_nonneg_right q0 (show 0 ≤ σB by linarith)
    have k2 : 1.2 * m * γB * σB ≤ 1.2 * m * (1 / 2) := by
      rw [mul_assoc]
      exact mul_le_mul_of_nonneg_left sg (by positivity)
    linarith
  have r3 : σA * lA * (σB * lB) ≤ 0.6 * (m / 22) * (0.4389 * m) := mul_le_mul r1 r2 (by positivity) (by positivity)
  rw [ht] at d2
  nlinarith

/-- The radii of the circles in a corner, up to the fifth one. -/
theorem mod_depth {m σ l : ℝ} (hm : 1 / 10 ≤ m) (s1 : 0.408 ≤ σ) (s2 : σ ≤ 0.6) (hl : m / 22 ≤ l) {k : ℕ} (hk : k ≤ 4) :
    1 / 10 ^ 6 + (2 * m + ((1 - σ) / (1 + σ)) ^ k * l) / 50000 ≤ σ * (((1 - σ) / (1 + σ)) ^ k * l) := by
  obtain ⟨ρ, hρ⟩ : ∃ ρ, ρ = (1 - σ) / (1 + σ) := ⟨_, rfl⟩
  rw [← hρ]
  have ρ1 : 0.25 ≤ ρ := by rw [hρ, le_div_iff₀ (by linarith)]; linarith
  have k1 : (0.25 : ℝ) ^ 4 ≤ 0.25 ^ k := pow_le_pow_of_le_one (by norm_num) (by norm_num) hk
  have k2 : (0.25 : ℝ) ^ k ≤ ρ ^ k := pow_le_pow_left₀ (by norm_num) ρ1 k
  have k3 : 0.0039 ≤ ρ ^ k := le_trans (by norm_num) (k1.trans k2)
  have k4 : 0.0039 * (m / 22) ≤ ρ ^ k * l := mul_le_mul k3 hl (by linarith) (by linarith)
  obtain ⟨x, hx⟩ : ∃ x, x = ρ ^ k * l := ⟨_, rfl⟩
  rw [← hx] at k4 ⊢
  nlinarith

/-- Triangles with sides between `m` and `1.2 m`: the size of the Malfatti circles, and the depths at which the script finishes. -/
theorem moderate (A B C : Pt) (m : ℝ) (hm : 1 / 10 ≤ m) (c1 : m ≤ Spec.dist A B) (c2 : Spec.dist A B ≤ 1.2 * m)
    (a1 : m ≤ Spec.dist B C) (a2 : Spec.dist B C ≤ 1.2 * m) (b1 : m ≤ Spec.dist A C) (b2 : Spec.dist A C ≤ 1.2 * m)
    (hx : ∀ X, X = A ∨ X = B ∨ X = C → |X.x| ≤ 2 * m ∧ |X.y| ≤ 2 * m) : ¬ Collinear A B C ∧
    ∃ mm, (⟨A, B, C⟩ : Triangle).malfatti_circles = .ok (some mm) ∧
      MalfattiConfig A B C mm.cA.center mm.cA.radius mm.cB.center mm.cB.radius mm.cC.center mm.cC.radius mm.TA mm.TB mm.TC ∧
      m / 54 ≤ mm.cA.radius ∧ m / 54 ≤ mm.cB.radius ∧ m / 54 ≤ mm.cC.radius ∧ ∀ depth ≤ 4, ∃ L, drawTriangularGasket A B C depth = .ok L := by
  have m0 : 0 < m := by linarith
  have sq1 : ∀ {P Q : Pt}, m ≤ Spec.dist P Q → Spec.dist P Q ≤ 1.2 * m → m ^ 2 ≤ sqDist P Q ∧ sqDist P Q ≤ (1.2 * m) ^ 2 := by
    intro P Q h1 h2
    rw [← dist_sq]
    exact ⟨pow_le_pow_left₀ m0.le h1 2, pow_le_pow_left₀ (by linarith) h2 2⟩
  obtain ⟨cs1, cs2⟩ := sq1 c1 c2
  obtain ⟨as1, as2⟩ := sq1 a1 a2
  obtain ⟨bs1, bs2⟩ := sq1 b1 b2
  have hn : ¬ Collinear A B C := by
    intro hcol
    have lag : cross (B - A) (C - A) ^ 2 + dot (B - A) (C - A) ^ 2 = sqDist A B * sqDist A C := by unfold cross dot sqDist; simp only [Pt.sub_x, Pt.sub_y]; ring
    have pol : 2 * dot (B - A) (C - A) = sqDist A B + sqDist A C - sqDist B C := by unfold dot sqDist; simp only [Pt.sub_x, Pt.sub_y]; ring
    unfold Collinear at hcol
    rw [hcol] at lag
    generalize dot (B - A) (C - A) = t at *
    generalize sqDist A B = x at *
    generalize sqDist A C = y at *
    generalize sqDist B C = z at *
    obtain ⟨p, hp⟩ : ∃ p, p = m ^ 2 := ⟨_, rfl⟩
    have p0 : 0 < p := by rw [hp]; positivity
    rw [mul_pow] at cs2 as2 bs2
    rw [← hp] at cs1 as1 bs1 cs2 as2 bs2
    have t1 : t ≤ 0.94 * p := by linarith
    have t0 : 0 ≤ t := by linarith
    have t2 : t ^ 2 ≤ (0.94 * p) ^ 2 := pow_le_pow_left₀ t0 t1 2
    have t3 : p * p ≤ x * y := mul_le_mul cs1 bs1 p0.le (by linarith)
    nlinarith only [lag, t2, t3, mul_pos p0 p0]
  refine ⟨hn, ?_⟩
  obtain ⟨mm, em, M, ⟨uA, wA, σA, γA, βA, κA, lA, hA, pA, eA⟩, ⟨uB, wB, σB, γB, βB, κB, lB, hB, pB, eB⟩, ⟨uC, wC, σC, γC, βC, κC, lC, hC, pC, eC⟩, hi, -⟩ :=
    setup hn
  refine ⟨mm, em, M, ?_⟩
  dsimp only at hA eA hB eB hC eC
  have side : ∀ {P Q R u w : Pt} {σ γ β κ : ℝ}, Corner P Q R u w σ γ β κ → β = Spec.dist P Q ∧ κ = Spec.dist P R := by
    intro P Q R u w σ γ β κ h
    exact ⟨((dist_eq_iff h.hβ.le).2 h.sqDist_B).symm, ((dist_eq_iff h.hκ.le).2 h.mirror.sqDist_B).symm⟩
  obtain ⟨βAe, κAe⟩ := side hA
  obtain ⟨βBe, κBe⟩ := side hB
  obtain ⟨βCe, κCe⟩ := side hC
  rw [specDist_comm B A] at βBe
  rw [specDist_comm C A] at βCe
  rw [specDist_comm C B] at κCe
  obtain ⟨sA1, sA2, gA1, gA2⟩ := mod_corner m0 hA (by rw [βAe]; exact c1) (by rw [βAe]; exact c2) (by rw [κAe]; exact b1) (by rw [κAe]; exact b2) as1 as2
  obtain ⟨sB1, sB2, gB1, gB2⟩ := mod_corner m0 hB (by rw [βBe]; exact c1) (by rw [βBe]; exact c2) (by rw [κBe]; exact a1) (by rw [κBe]; exact a2) bs1 bs2
  obtain ⟨sC1, sC2, gC1, gC2⟩ := mod_corner m0 hC (by rw [βCe]; exact b1) (by rw [βCe]; exact b2) (by rw [κCe]; exact a1) (by rw [κCe]; exact a2) cs1 cs2
  have upA := Icosahedral.corner_upper_cos hA (m := 1.2 * m) pA (by rw [βAe]; exact c2) (by rw [κAe]; exact b2) fun X hX =>
    (Icosahedral.inTriangle_first (M.discA X (by rw [eA]; exact hX))).1
  have upB := Icosahedral.corner_upper_cos hB (m := 1.2 * m) pB (by rw [βBe]; exact c2) (by rw [κBe]; exact a2) fun X hX =>
    (Icosahedral.inTriangle_first (M.discB X (by rw [eB]; exact hX))).2.1
  have ext : ∀ {O₁ O₂ : Pt} {r s : ℝ}, ExtTangent O₁ r O₂ s → sqDist O₁ O₂ = (r + s) ^ 2 := by
    intro O₁ O₂ r s h
    rw [← dist_sq, h]
  have t1 := ext M.tAB
  have t2 := ext M.tAC
  rw [eA, eB] at t1
  rw [eA, eC] at t2
  dsimp only at t1 t2
  rw [Icosahedral.side_eq hA hB] at t1
  rw [Icosahedral.side_eq hA.mirror hC] at t2
  have tAB : (βA - lA * γA - lB * γB) ^ 2 = 4 * (σA * lA) * (σB * lB) := by linear_combination t1
  have tAC : (κA - lA * γA - lC * γC) ^ 2 = 4 * (σA * lA) * (σC * lC) := by linear_combination t2
  have lwA := mod_size m0 sA2 gA2 hA.hσ sB1 gB2 hB.hγ hB.sq pA pB upB (by rw [βAe]; exact c1) tAB
  have lwB := mod_size m0 sB2 gB2 hB.hσ sA1 gA2 hA.hγ hA.sq pB pA upA (c := βA) (by rw [βAe]; exact c1) (by linear_combination tAB)
  have lwC := mod_size m0 sC2 gC2 hC.hσ sA1 gA2 hA.hγ hA.sq pC pA upA (c := κA) (by rw [κAe]; exact b1) (by linear_combination tAC)
  have rad : ∀ {σ l : ℝ}, 0.408 ≤ σ → m / 22 ≤ l → m / 54 ≤ σ * l := by
    intro σ l h1 h2
    have := mul_le_mul h1 h2 (by positivity) (by linarith)
    linarith
  refine ⟨by rw [eA]; exact rad sA1 lwA, by rw [eB]; exact rad sB1 lwB, by rw [eC]; exact rad sC1 lwC, ?_⟩
  intro depth hd
  have oA := hx A (.inl rfl)
  have oB := hx B (.inr (.inl rfl))
  have oC := hx C (.inr (.inr rfl))
  rw [hi depth]
  intro k hk
  simp only [List.mem_cons, List.not_mem_nil, or_false, forall_eq_or_imp, forall_eq]
  refine ⟨?_, ?_, ?_⟩
  · rw [eA, hA.cornerCircle pA]
    have := hA.ratio_pos
    exact Icosahedral.fine_of_size hA (by positivity) (by linarith) (by rw [βAe]; linarith) (by rw [κAe]; linarith) oA.1 oA.2
      (Icosahedral.not_allclose_far hm cs1 oB.1 oB.2) (Icosahedral.not_allclose_far hm bs1 oC.1 oC.2) (mod_depth hm sA1 sA2 lwA (hk.trans hd))
  · rw [eB, hB.cornerCircle pB]
    have := hB.ratio_pos
    exact Icosahedral.fine_of_size hB (by positivity) (by linarith) (by rw [βBe]; linarith) (by rw [κBe]; linarith) oB.1 oB.2
      (Icosahedral.not_allclose_far hm (by rw [sqDist_comm]; exact cs1) oA.1 oA.2) (Icosahedral.not_allclose_far hm as1 oC.1 oC.2)
      (mod_depth hm sB1 sB2 lwB (hk.trans hd))
  · rw [eC, hC.cornerCircle pC]
    have := hC.ratio_pos
    exact Icosahedral.fine_of_size hC (by positivity) (by linarith) (by rw [βCe]; linarith) (by rw [κCe]; linarith) oC.1 oC.2
      (Icosahedral.not_allclose_far hm (by rw [sqDist_comm]; exact bs1) oA.1 oA.2) (Icosahedral.not_allclose_far hm (by rw [sqDist_comm]; exact as1) oB.1 oB.2)
      (mod_depth hm sC1 sC2 lwC (hk.trans hd))

/-- The circles drawn before play no role. -/
theorem passes_append (d : ℕ) : ∀ (X Y : List Circle) (hs : List Step) (L : List Circle),
    passes d (X ++ Y) hs = .ok L ↔ ∃ L', passes d Y hs = .ok L' ∧ L = X ++ L' := by
  induction d with
  | zero =>
    intro X Y hs L
    unfold passes
    constructor
    · intro h; exact ⟨Y, rfl, (Res.pure_ok.1 h).symm⟩
    · rintro ⟨L', h, rfl⟩
      rw [← Res.pure_ok.1 h]
      rfl
  | succ d ih =>
    intro X Y hs L
    unfold passes
    constructor
    · intro h
      obtain ⟨H, e, h⟩ := Res.bind_ok.1 h
      rw [List.append_assoc] at h
      obtain ⟨L', h', rfl⟩ := (ih _ _ _ _).1 h
      exact ⟨L', Res.bind_ok.2 ⟨H, e, h'⟩, rfl⟩
    · rintro ⟨L', h, rfl⟩
      obtain ⟨H, e, h⟩ := Res.bind_ok.1 h
      refine Res.bind_ok.2 ⟨H, e, ?_⟩
      rw [List.append_assoc]
      exact (ih _ _ _ _).2 ⟨L', h, rfl⟩

theorem drawHoles_iff {A B C : Pt} {m : Triangle.Malfatti} (em : (⟨A, B, C⟩ : Triangle).malfatti_circles = .ok (some m)) (depth : ℕ) (L : List Circle) :
    drawTriangularGasket A B C depth = .ok L ↔ ∃ L', drawHoles A B C depth = .ok L' ∧ L = [m.cA, m.cB, m.cC] ++ L' := by
  unfold drawTriangularGasket drawHoles
  rw [em, Res.ok_bind, Res.ok_bind]
  dsimp only
  constructor
  · intro h
    obtain ⟨H, e, h⟩ := Res.bind_ok.1 h
    obtain ⟨L', h', rfl⟩ := (passes_append _ _ _ _ _).1 h
    exact ⟨L', Res.bind_ok.2 ⟨H, e, h'⟩, rfl⟩
  · rintro ⟨L', h, rfl⟩
    obtain ⟨H, e, h⟩ := Res.bind_ok.1 h
    exact Res.bind_ok.2 ⟨H, e, (passes_append _ _ _ _ _).2 ⟨L', h, rfl⟩⟩

/-- A disc inside another one. -/
theorem inside_of {c0 c : Circle} (h0 : c0.Valid) (hc : c.Valid) (h : (outside c0).Apart (disc c)) (P : Pt) (hP : sqDist P c.center < c.radius ^ 2) :
    sqDist P c0.center < c0.radius ^ 2 := by
  have h1 := GV.inside_of_apart hc h0 h.symm
  have h2 := specDist_triangle P c.center c0.center
  have h3 : Spec.dist P c.center < c.radius := by
    rw [← dist_sq] at hP
    exact lt_of_pow_lt_pow_left₀ 2 (le_of_lt hc) hP
  rw [← dist_sq]
  have h4 : Spec.dist P c0.center < c0.radius := by linarith
  exact pow_lt_pow_left₀ h4 (Real.sqrt_nonneg _) two_ne_zero

theorem disc_sub {c0 c : Circle} (h0 : c0.Valid) (hc : c.Valid) (h : (outside c0).Apart (disc c)) : (disc c).inside ⊆ (disc c0).inside := by
  rintro X ⟨P, rfl, hP⟩
  exact ⟨P, rfl, inside_of h0 hc h P hP⟩

/-- What is needed to draw a circular gasket in a circle: no mirror is flat, and the circle is not small. -/
structure Fits (c0 : Circle) (n : ℕ) (phi : ℝ) : Prop where
  hn : 3 ≤ n
  hp : phi ≠ 0
  hphi : |phi| * (1 + sin (π / n)) < cos (π / n)
  hsize : 1 / 1000 + (|c0.center.x| + |c0.center.y| + c0.radius) / 10000 ≤ (1 - phi ^ 2) * c0.radius * sin (π / n) * (1 - sin (π / n)) / 4

/-- The number of circles of a circular gasket. -/
theorem count_circular {n d : ℕ} (hn : 3 ≤ n) (Ls : List (List Circle))
    (h : Ls.map List.length = (n + 1) :: (List.range d).map (fun e => n * (n - 1) * n ^ e)) : Ls.flatten.length = n ^ (d + 1) + 1 := by
  rw [List.length_flatten, h, List.sum_cons]
  have : ∀ d, ((List.range d).map (fun e => n * (n - 1) * n ^ e)).sum + n = n ^ (d + 1) := by
    intro d
    induction d with
    | zero => simp
    | succ d ih =>
      rw [List.range_succ, List.map_append, List.sum_append, List.map_singleton, List.sum_singleton]
      have e : n * (n - 1) * n ^ d + n ^ (d + 1) = n ^ (d + 1 + 1) := by
        obtain ⟨k, rfl⟩ : ∃ k, n = k + 1 := ⟨n - 1, by omega⟩
        simp only [Nat.add_sub_cancel]
        ring
      omega
  have := this d
  omega

theorem draw_fits {c0 : Circle} (hc : c0.Valid) {n : ℕ} {phi : ℝ} (h : Fits c0 n phi) (d : ℕ) (shift : ℝ) :
    ∃ Ls, drawCircularGasket c0 n d phi shift = .ok Ls ∧ Ls.flatten.length = n ^ (d + 1) + 1 ∧
      Ls.flatten.Pairwise (fun a b => (disc a).Apart (disc b)) ∧ ∀ c ∈ Ls.flatten, c.Valid ∧ (disc c).inside ⊆ (disc c0).inside := by
  obtain ⟨Ls, e, l, p, i⟩ := C107_draw c0 hc n h.hn d phi shift h.hp h.hphi h.hsize
  exact ⟨Ls, e, count_circular h.hn Ls l, p, fun c hm => ⟨(i c hm).1, disc_sub hc (i c hm).1 (i c hm).2⟩⟩

theorem apart_mono {R S R' S' : Region} (h : R.Apart S) (h1 : R'.inside ⊆ R.inside) (h2 : S'.inside ⊆ S.inside) : R'.Apart S' :=
  Disjoint.mono h1 h2 h

end TriCircular

open TriCircular

/-- C101, more triangles for which the script finishes, its own triangle among them: the sides are between `m` and `1.2 m`, not too small and not too far
from the origin; at most four passes. -/
theorem C101_moderate (A B C : Pt) (m : ℝ) (hm : 1 / 10 ≤ m) (c1 : m ≤ Spec.dist A B) (c2 : Spec.dist A B ≤ 1.2 * m)
    (a1 : m ≤ Spec.dist B C) (a2 : Spec.dist B C ≤ 1.2 * m) (b1 : m ≤ Spec.dist A C) (b2 : Spec.dist A C ≤ 1.2 * m)
    (hx : ∀ X, X = A ∨ X = B ∨ X = C → |X.x| ≤ 2 * m ∧ |X.y| ≤ 2 * m) (depth : ℕ) (hd : depth ≤ 4) : ∃ L, drawTriangularGasket A B C depth = .ok L := by
  obtain ⟨-, mm, -, -, -, -, -, h⟩ := moderate A B C m hm c1 c2 a1 a2 b1 b2 hx
  exact h depth hd

/-- C124, the picture of `triangularCircularGasket.py`, for every triangle that is not flat: when the triangular gasket is drawn and the Malfatti circles are
fit for the circular gaskets, the script finishes; it draws the announced number of circles, all inside the triangle, and no two overlap. -/
theorem C124_picture (A B C : Pt) (h : ¬ Collinear A B C) (depth n1 n2 n3 d : ℕ) (phi1 phi2 phi3 shift : ℝ) (m : Triangle.Malfatti)
    (em : (⟨A, B, C⟩ : Triangle).malfatti_circles = .ok (some m)) (hL : ∃ L, drawTriangularGasket A B C depth = .ok L)
    (f1 : Fits m.cA n1 phi1) (f2 : Fits m.cB n2 phi2) (f3 : Fits m.cC n3 phi3) :
    ∃ L, picture A B C depth n1 n2 n3 d phi1 phi2 phi3 shift = .ok L ∧
      2 * L.length + 1 = 7 * 3 ^ (depth + 1) + 2 * (n1 ^ (d + 1) + n2 ^ (d + 1) + n3 ^ (d + 1)) ∧
      L.Pairwise (fun a b => (disc a).Apart (disc b)) ∧ ∀ c ∈ L, 0 < c.radius ∧ ∀ P, sqDist P c.center < c.radius ^ 2 → InTriangle A B C P := by
  obtain ⟨L0, hL0⟩ := hL
  obtain ⟨len, -, ins, pw⟩ := C101_gasket A B C depth L0 h hL0
  obtain ⟨H, eH, rfl⟩ := (drawHoles_iff em depth L0).1 hL0
  simp only [List.cons_append, List.nil_append, List.length_cons, List.mem_cons, forall_eq_or_imp, List.pairwise_cons] at len ins pw
  obtain ⟨iA, iB, iC, iH⟩ := ins
  obtain ⟨⟨pAB, pAC, pAH⟩, ⟨pBC, pBH⟩, pCH, pH⟩ := pw
  obtain ⟨g1, e1, l1, p1, s1⟩ := draw_fits (c0 := m.cA) iA.1 f1 d shift
  obtain ⟨g2, e2, l2, p2, s2⟩ := draw_fits (c0 := m.cB) iB.1 f2 d shift
  obtain ⟨g3, e3, l3, p3, s3⟩ := draw_fits (c0 := m.cC) iC.1 f3 d shift
  refine ⟨H ++ g1.flatten ++ g2.flatten ++ g3.flatten, ?_, ?_, ?_, ?_⟩
  · unfold picture
    rw [em, Res.ok_bind]
    dsimp only
    rw [eH, Res.ok_bind, e1, Res.ok_bind, e2, Res.ok_bind, e3, Res.ok_bind]
    rfl
  · simp only [List.length_append, l1, l2, l3]
    omega
  · simp only [List.pairwise_append, List.mem_append]
    refine ⟨⟨⟨pH, p1, ?_⟩, p2, ?_⟩, p3, ?_⟩
    · intro a ha b hb
      exact apart_mono (pAH a ha).symm subset_rfl (s1 b hb).2
    · rintro a (ha | ha) b hb
      · exact apart_mono (pBH a ha).symm subset_rfl (s2 b hb).2
      · exact apart_mono pAB (s1 a ha).2 (s2 b hb).2
    · rintro a ((ha | ha) | ha) b hb
      · exact apart_mono (pCH a ha).symm subset_rfl (s3 b hb).2
      · exact apart_mono pAC (s1 a ha).2 (s3 b hb).2
      · exact apart_mono pBC (s2 a ha).2 (s3 b hb).2
  · simp only [List.mem_append]
    have sub : ∀ {c c0 : Circle}, (c.Valid ∧ (disc c).inside ⊆ (disc c0).inside) → (∀ P, sqDist P c0.center < c0.radius ^ 2 → InTriangle A B C P) →
        0 < c.radius ∧ ∀ P, sqDist P c.center < c.radius ^ 2 → InTriangle A B C P := by
      intro c c0 hc h0
      refine ⟨hc.1, fun P hP => ?_⟩
      obtain ⟨Q, e, hQ⟩ := hc.2 ⟨P, rfl, hP⟩
      cases e
      exact h0 P hQ
    rintro c (((hc | hc) | hc) | hc)
    · exact iH c hc
    · exact sub (s1 c hc) iA.2
    · exact sub (s2 c hc) iB.2
    · exact sub (s3 c hc) iC.2

/-- C124, the animation loops: a shift by 1 gives the same picture, whatever the arguments. -/
theorem C124_loop (A B C : Pt) (depth n1 n2 n3 d : ℕ) (phi1 phi2 phi3 shift : ℝ) :
    picture A B C depth n1 n2 n3 d phi1 phi2 phi3 (shift + 1) = picture A B C depth n1 n2 n3 d phi1 phi2 phi3 shift := by
  have key : ∀ (c0 : Circle) (n : ℕ) (phi : ℝ), drawCircularGasket c0 n d phi (shift + 1) = drawCircularGasket c0 n d phi shift := by
    intro c0 n phi
    rcases Nat.eq_zero_or_pos n with rfl | hn
    · unfold drawCircularGasket
      rw [Nat.cast_zero, zero_mul, zero_mul]
    have hn' : (n : ℝ) ≠ 0 := by positivity
    have ang : ∀ i : ℕ, ((i : ℝ) + n * (shift + 1)) * 2 * π / n = ((i : ℝ) + n * shift) * 2 * π / n + 2 * π := by
      intro i
      field_simp
      ring
    have st : startingCircles c0 n phi (n * (shift + 1)) = startingCircles c0 n phi (n * shift) := by
      unfold startingCircles
      simp only [ang]
      have u : ∀ t : ℝ, unit_vector_ (t + 2 * π) = unit_vector_ t := by
        intro t
        unfold unit_vector_
        rw [cos_add_two_pi, sin_add_two_pi]
      have v : ∀ t : ℝ, c0.point_from_angle (t + 2 * π) false = c0.point_from_angle t false := by
        intro t
        unfold Circle.point_from_angle
        simp [u]
      simp only [u, v]
    unfold drawCircularGasket
    rw [st]
  unfold picture
  simp only [key]

/-- The frames for the shifts `0` and `2` are the same. -/
example (A B C : Pt) : TriCircular.picture A B C 2 3 4 5 1 (1 / 2) (1 / 3) 0 2 = TriCircular.picture A B C 2 3 4 5 1 (1 / 2) (1 / 3) 0 0 := by
  rw [show (2 : ℝ) = 0 + 1 + 1 by norm_num, C124_loop, C124_loop]

namespace TriCircular

theorem trig3 : sin (π / (3 : ℕ)) = √3 / 2 ∧ cos (π / (3 : ℕ)) = 1 / 2 := by
  push_cast
  exact ⟨sin_pi_div_three, cos_pi_div_three⟩

theorem trig4 : sin (π / (4 : ℕ)) = √2 / 2 ∧ cos (π / (4 : ℕ)) = √2 / 2 := by
  push_cast
  exact ⟨sin_pi_div_four, cos_pi_div_four⟩

/-- The numbers needed: `s` is at most 0.867 and far enough from 0, the cosine is at least 0.499. -/
theorem trig_bounds : (0.866 ≤ sin (π / (3 : ℕ)) ∧ sin (π / (3 : ℕ)) ≤ 0.8661 ∧ 0.5 ≤ cos (π / (3 : ℕ))) ∧
    (0.707 ≤ sin (π / (4 : ℕ)) ∧ sin (π / (4 : ℕ)) ≤ 0.7072 ∧ 0.7 ≤ cos (π / (4 : ℕ))) ∧
    (0.58 ≤ sin (π / (5 : ℕ)) ∧ sin (π / (5 : ℕ)) ≤ 0.59 ∧ 0.8 ≤ cos (π / (5 : ℕ))) := by
  have a1 : √3 ^ 2 = 3 := Real.sq_sqrt (by norm_num)
  have a2 : √2 ^ 2 = 2 := Real.sq_sqrt (by norm_num)
  have a5 : √5 ^ 2 = 5 := Real.sq_sqrt (by norm_num)
  have b1 := Real.sqrt_nonneg 3
  have b2 := Real.sqrt_nonneg 2
  have b5 := Real.sqrt_nonneg 5
  have c5 : cos (π / (5 : ℕ)) = (1 + √5) / 4 := by push_cast; exact cos_pi_div_five
  have s5 : 0 < sin (π / (5 : ℕ)) := sin_pos_of_pos_of_lt_pi (by positivity) (by push_cast; linarith [pi_pos])
  have q5 := sin_sq_add_cos_sq (π / (5 : ℕ))
  rw [c5] at q5 ⊢
  rw [trig3.1, trig3.2, trig4.1, trig4.2]
  have r5 : 2.236 ≤ √5 := by nlinarith
  have r5' : √5 ≤ 2.2361 := by nlinarith
  generalize sin (π / (5 : ℕ)) = t at *
  refine ⟨⟨by nlinarith, by nlinarith, by norm_num⟩, ⟨by nlinarith, by nlinarith, by nlinarith⟩, ⟨by nlinarith, by nlinarith, by linarith⟩⟩

/-- A Malfatti circle of the triangle of the script is fit. -/
theorem fits_of {c : Circle} {n : ℕ} {phi : ℝ} (hn : 3 ≤ n) (hp : 0 < phi) (h4 : phi ≤ 2 / 5) (hphi : phi * (1 + sin (π / n)) < cos (π / n))
    (s1 : 0.58 ≤ sin (π / n)) (s2 : sin (π / n) ≤ 0.8661) (hx : |c.center.x| ≤ 5) (hy : |c.center.y| ≤ 6) (hr : 0.17 ≤ c.radius) : Fits c n phi := by
  refine ⟨hn, hp.ne', by rwa [abs_of_pos hp], ?_⟩
  generalize sin (π / n) = s at *
  have k1 : 0.1159 ≤ s * (1 - s) := by nlinarith
  have k2 : 0.84 ≤ 1 - phi ^ 2 := by nlinarith
  have k3 : 0.84 * c.radius * 0.1159 ≤ (1 - phi ^ 2) * c.radius * (s * (1 - s)) :=
    mul_le_mul (mul_le_mul_of_nonneg_right k2 (by linarith)) k1 (by norm_num) (mul_nonneg (by linarith) (by linarith))
  have e : (1 - phi ^ 2) * c.radius * s * (1 - s) / 4 = (1 - phi ^ 2) * c.radius * (s * (1 - s)) / 4 := by ring
  rw [e]
  linarith

end TriCircular

/-- C124, the triangle of the scripts: `triangularCircularGasket.py` (`phi = 0.25` three times) and every frame of the animation (`phi` 0.2, 0.3 and 0.4) at
every `depth2`, with `depth` at most 4. -/
theorem C124_script (depth d : ℕ) (hd : depth ≤ 4) (shift phi1 phi2 phi3 : ℝ) (h1 : 0 < phi1) (h1' : phi1 ≤ 1 / 4) (h2 : 0 < phi2) (h2' : phi2 ≤ 2 / 5)
    (h3 : 0 < phi3) (h3' : phi3 ≤ 2 / 5) :
    ∃ L, picture ⟨-5, -4⟩ ⟨5, -2⟩ ⟨0, 6⟩ depth 3 4 5 d phi1 phi2 phi3 shift = .ok L ∧
      2 * L.length + 1 = 7 * 3 ^ (depth + 1) + 2 * (3 ^ (d + 1) + 4 ^ (d + 1) + 5 ^ (d + 1)) ∧
      L.Pairwise (fun a b => (disc a).Apart (disc b)) ∧
      ∀ c ∈ L, 0 < c.radius ∧ ∀ P, sqDist P c.center < c.radius ^ 2 → InTriangle ⟨-5, -4⟩ ⟨5, -2⟩ ⟨0, 6⟩ P := by
  have up : ∀ {P Q : Pt} {x : ℝ}, 0 ≤ x → sqDist P Q ≤ x ^ 2 → Spec.dist P Q ≤ x := by
    intro P Q x hx h
    rw [← dist_sq] at h
    exact le_of_sq_le_sq h hx
  have lo : ∀ {P Q : Pt} {x : ℝ}, x ^ 2 ≤ sqDist P Q → x ≤ Spec.dist P Q := by
    intro P Q x h
    rw [← dist_sq] at h
    exact le_of_sq_le_sq h (Real.sqrt_nonneg _)
  obtain ⟨hn, m, em, M, rA, rB, rC, hdraw⟩ := moderate ⟨-5, -4⟩ ⟨5, -2⟩ ⟨0, 6⟩ 9.4 (by norm_num) (lo (by norm_num [sqDist])) (up (by norm_num) (by norm_num [sqDist]))
    (lo (by norm_num [sqDist])) (up (by norm_num) (by norm_num [sqDist])) (lo (by norm_num [sqDist])) (up (by norm_num) (by norm_num [sqDist])) (by
      rintro X (rfl | rfl | rfl) <;> norm_num [abs_le])
  have box : ∀ {O : Pt}, InTriangle ⟨-5, -4⟩ ⟨5, -2⟩ ⟨0, 6⟩ O → |O.x| ≤ 5 ∧ |O.y| ≤ 6 := by
    rintro O ⟨u, v, w, hu, hv, hw, hs, rfl⟩
    simp only [Pt.add_x, Pt.add_y, Pt.smul_x, Pt.smul_y]
    exact ⟨abs_le.2 ⟨by linarith, by linarith⟩, abs_le.2 ⟨by linarith, by linarith⟩⟩
  obtain ⟨⟨s3, s3', c3⟩, ⟨s4, s4', c4⟩, ⟨s5, s5', c5⟩⟩ := trig_bounds
  refine C124_picture _ _ _ hn depth 3 4 5 d phi1 phi2 phi3 shift m em (hdraw depth hd) ?_ ?_ ?_
  · exact fits_of le_rfl h1 (by linarith) (by nlinarith) (by linarith) (by linarith) (box M.inA).1 (box M.inA).2 (by linarith)
  · exact fits_of (by norm_num) h2 (by linarith) (by nlinarith) (by linarith) (by linarith) (box M.inB).1 (box M.inB).2 (by linarith)
  · exact fits_of (by norm_num) h3 (by linarith) (by nlinarith) (by linarith) (by linarith) (box M.inC).1 (box M.inC).2 (by linarith)

/-- The script as it is (`depth = 3`, `depth2 = 4`, `phi = 0.25`, `shift = 0`): 1245 circles; and the frame of the animation with `shift = 1/3`. -/
example : (∃ L, picture ⟨-5, -4⟩ ⟨5, -2⟩ ⟨0, 6⟩ 3 3 4 5 3 (1 / 4) (1 / 4) (1 / 4) 0 = .ok L ∧ L.length = 1245) ∧
    ∃ L, picture ⟨-5, -4⟩ ⟨5, -2⟩ ⟨0, 6⟩ 3 3 4 5 3 (1 / 5) (3 / 10) (2 / 5) (1 / 3) = .ok L ∧ L.length = 1245 := by
  obtain ⟨L, e, l, -⟩ := C124_script 3 3 (by norm_num) 0 (1 / 4) (1 / 4) (1 / 4) (by norm_num) (by norm_num) (by norm_num) (by norm_num) (by norm_num) (by norm_num)
  obtain ⟨L', e', l', -⟩ :=
    C124_script 3 3 (by norm_num) (1 / 3) (1 / 5) (3 / 10) (2 / 5) (by norm_num) (by norm_num) (by norm_num) (by norm_num) (by norm_num) (by norm_num)
  exact ⟨⟨L, e, by omega⟩, L', e', by omega⟩

/-- C101, the triangle of `triangularApollonianGasket.py`: 283 circles. -/
example : ∃ L, drawTriangularGasket ⟨0, 0⟩ ⟨10, 2⟩ ⟨5, 10⟩ 3 = .ok L ∧ L.length = 283 := by
  have up : ∀ {P Q : Pt} {x : ℝ}, 0 ≤ x → sqDist P Q ≤ x ^ 2 → Spec.dist P Q ≤ x := by
    intro P Q x hx h
    rw [← dist_sq] at h
    exact le_of_sq_le_sq h hx
  have lo : ∀ {P Q : Pt} {x : ℝ}, x ^ 2 ≤ sqDist P Q → x ≤ Spec.dist P Q := by
    intro P Q x h
    rw [← dist_sq] at h
    exact le_of_sq_le_sq h (Real.sqrt_nonneg _)
  obtain ⟨L, e⟩ := C101_moderate ⟨0, 0⟩ ⟨10, 2⟩ ⟨5, 10⟩ 9.4 (by norm_num) (lo (by norm_num [sqDist])) (up (by norm_num) (by norm_num [sqDist]))
    (lo (by norm_num [sqDist])) (up (by norm_num) (by norm_num [sqDist])) (lo (by norm_num [sqDist])) (up (by norm_num) (by norm_num [sqDist])) (by
      rintro X (rfl | rfl | rfl) <;> norm_num [abs_le]) 3 (by norm_num)
  obtain ⟨l, -⟩ := C101_gasket _ _ _ 3 L (by unfold Collinear cross; norm_num) e
  exact ⟨L, e, by omega⟩

/-- C124, a flat triangle: the script raises `TypeError`. -/
theorem C124_flat (A B C : Pt) (h : Collinear A B C) (h1 : A ≠ B) (h2 : A ≠ C) (depth n1 n2 n3 d : ℕ) (phi1 phi2 phi3 shift : ℝ) :
    picture A B C depth n1 n2 n3 d phi1 phi2 phi3 shift = .error .typeError := by
  unfold picture
  rw [C43_malfatti_flat ⟨A, B, C⟩ h h1 h2, Res.ok_bind]

/-- Three points of a line: `malfatti_circles` returns `None`. -/
example : TriCircular.picture ⟨0, 0⟩ ⟨1, 1⟩ ⟨3, 3⟩ 2 3 4 5 1 (1 / 2) (1 / 3) 0 0 = .error .typeError :=
  C124_flat _ _ _ (by unfold Collinear; norm_num [cross]) (by simp) (by simp) _ _ _ _ _ _ _ _ _

/-- C124, the values of `shift_`: 90 different values from 0, below 1, so that the 90 frames are one turn. -/
theorem C124_frames : frames.length = 90 ∧ frames.Pairwise (· < ·) ∧ frames.head? = some 0 ∧ ∀ s ∈ frames, 0 ≤ s ∧ s < 1 := by
  unfold frames
  refine ⟨by simp, ?_, by simp [List.range_succ_eq_map], ?_⟩
  · rw [List.pairwise_map]
    exact List.pairwise_lt_range.imp fun {a b} h => by
      have : (a : ℝ) < b := by exact_mod_cast h
      linarith
  · intro s hs
    obtain ⟨i, hi, rfl⟩ := List.mem_map.1 hs
    have : (i : ℝ) < 90 := by exact_mod_cast List.mem_range.1 hi
    exact ⟨by positivity, by linarith⟩

/-- The first frame is drawn for the value `0`, and `1` is not among the values. -/
example : (0 : ℝ) ∈ TriCircular.frames ∧ (1 : ℝ) ∉ TriCircular.frames := by
  obtain ⟨-, -, h1, h2⟩ := C124_frames
  refine ⟨List.mem_of_mem_head? h1, fun h => ?_⟩
  have := (h2 1 h).2
  norm_num at this
