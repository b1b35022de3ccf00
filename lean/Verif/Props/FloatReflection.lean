import Verif.Props.FloatLines
import Verif.Props.FloatFlat
import Verif.Props.Line
import Verif.Lemmas.Gasket
import Verif.Model.FloatLines

/-!
# C120: `Line.includes`, `projection`, `distance` and `reflection` on integer coordinates in double precision
-/

open Spec Real Classical

namespace FL

theorem grid {A : ℕ} {P : Pt} (h : IntPt A P) (hA : A ≤ 2 ^ 11) : Grid (2 ^ 11) P := by
  obtain ⟨⟨m, hm, m1⟩, ⟨n, hn, n1⟩⟩ := h
  have : (A : ℤ) ≤ 2 ^ 11 := by exact_mod_cast hA
  exact ⟨m, n, m1.trans this, n1.trans this, by rw [← hm, ← hn]⟩

theorem npClose_int {a b : ℝ} (ha : IntB (2 ^ 11) a) (hb : IntB (2 ^ 11) b) : npClose a b ↔ a = b := by
  constructor
  · intro h
    by_contra hne
    have h1 := FI.one_le_abs (FI.sub ha hb) (sub_ne_zero.2 hne)
    have h2 := FI.abs_le hb
    unfold npClose at h
    norm_num at h h2
    linarith
  · rintro rfl
    exact npClose_refl _

theorem allclose_int {P Q : Pt} (hP : IntPt (2 ^ 11) P) (hQ : IntPt (2 ^ 11) Q) : allclose P Q ↔ P = Q := by
  unfold allclose
  rw [npClose_int hP.1 hQ.1, npClose_int hP.2 hQ.2]
  exact ⟨fun h => Pt.ext h.1 h.2, fun h => by rw [h]; exact ⟨rfl, rfl⟩⟩

theorem allclose64_int {P Q : Pt} (hP : IntPt (2 ^ 11) P) (hQ : IntPt (2 ^ 11) Q) : allclose64 P Q ↔ P = Q :=
  FI.allclose ⟨FI.mono hP.1 (by norm_num), FI.mono hP.2 (by norm_num)⟩ ⟨FI.mono hQ.1 (by norm_num), FI.mono hQ.2 (by norm_num)⟩

/-- On small integers `collinear_` has the same value in double precision. -/
theorem collinear_int {A B C : Pt} (hA : IntPt (2 ^ 11) A) (hB : IntPt (2 ^ 11) B) (hC : IntPt (2 ^ 11) C) (hne : A ≠ B) :
    collinear64 A B C = .ok (OnLine A B C) := by
  unfold collinear64
  rw [allclose64_int hA hB, allclose64_int hA hC, allclose64_int hB hC]
  by_cases h : A = B ∨ A = C ∨ B = C
  · rw [if_pos h]
    have : OnLine A B C := by
      rcases h with h | rfl | rfl
      · exact absurd h hne
      · exact ⟨0, by ext <;> simp⟩
      · exact ⟨1, by ext <;> simp⟩
    simp [this]
  · rw [if_neg h]
    push Not at h
    have hg := C90_grid A B C (grid hA le_rfl) (grid hB le_rfl) (grid hC le_rfl) hne h.2.1
    have hc : Collinear A B C ↔ OnLine A B C := by
      rw [onLine_iff_cross hne]
      rfl
    have d : ∀ {P : Pt}, IntPt (2 ^ 11) P → DoublePt P := fun h => ⟨FI.isDouble h.1 (by norm_num), FI.isDouble h.2 (by norm_num)⟩
    obtain ⟨b, hb, -⟩ := C90_collinear A B C (d hA) (d hB) (d hC)
    unfold collinear64 at hb
    rw [allclose64_int hA hB, allclose64_int hA hC, allclose64_int hB hC, if_neg (by tauto)] at hb
    cases hf : flatF A B C with
    | none => rw [hf] at hb; simp at hb
    | some f =>
      dsimp only
      have hr := C90_flatness_range A B C f hf
      rw [hf, Option.some.injEq, hc] at hg
      rw [← hg]
      congr 1
      exact propext ⟨fun h => le_antisymm hr.2 h, fun h => h.ge⟩

end FL

/-- C120: on integer coordinates of absolute value at most `2^11`, `includes` has the value it would have without rounding, with all its options. -/
theorem C120_includes (k : Fma) (l : Line) (M : Pt) (hA : IntPt (2 ^ 11) l.A) (hB : IntPt (2 ^ 11) l.B) (hM : IntPt (2 ^ 11) M) (hne : l.A ≠ l.B)
    (strict checkCollinear : Bool) : l.includesF k M strict checkCollinear = .ok (l.includes M strict checkCollinear) := by
  have hcol : collinear_ l.A l.B M ↔ OnLine l.A l.B M := by
    rw [collinear_of_valid (l := l) (fun h => hne ((FL.allclose_int hA hB).1 h)), FL.allclose_int hA hM, FL.allclose_int hB hM]
    constructor
    · rintro ((h | h) | h)
      · exact ⟨0, by rw [h]; ext <;> simp⟩
      · exact ⟨1, by rw [h]; ext <;> simp⟩
      · exact h
    · exact Or.inr
  have s1 := FI.subPt hA hM (by norm_num)
  have s2 := FI.subPt hB hM (by norm_num)
  have s3 := FI.subPt hM hB (by norm_num)
  have s4 := FI.subPt hA hB (by norm_num)
  have s5 := FI.subPt hM hA (by norm_num)
  have s6 := FI.subPt hB hA (by norm_num)
  unfold Line.includesF Line.includes
  rw [FL.collinear_int hA hB hM hne, hcol, s1.1, s2.1, s3.1, s4.1, s5.1, s6.1, FI.vdot k s1.2 s2.2 (by norm_num), FI.fl (FI.mul s3.2.1 s4.2.1) (by norm_num),
    FI.fl (FI.mul s3.2.2 s4.2.2) (by norm_num), FI.fl (FI.mul s5.2.1 s6.2.1) (by norm_num), FI.fl (FI.mul s5.2.2 s6.2.2) (by norm_num)]
  obtain ⟨A, B, eA, eB⟩ := l
  clear s1 s2 s3 s4 s5 s6 hA hB hM hne
  by_cases h : OnLine A B M <;> cases strict <;> cases checkCollinear <;> cases eA <;> cases eB <;>
    simp [h, hcol, dot_, pure, Except.pure, bind, Except.bind]
  all_goals congr

/-- C120: so `includes` answers `True` exactly for the points of the line. -/
theorem C120_includes_line (k : Fma) (l : Line) (M : Pt) (hA : IntPt (2 ^ 11) l.A) (hB : IntPt (2 ^ 11) l.B) (hM : IntPt (2 ^ 11) M) (hne : l.A ≠ l.B) :
    l.includesF k M = .ok (decide (OnLine l.A l.B M)) := by
  unfold Line.includesF
  rw [FL.collinear_int hA hB hM hne]
  by_cases h : OnLine l.A l.B M <;> simp [h, pure, Except.pure, bind, Except.bind]

namespace FL

/-- The foot of the perpendicular is on the line through `M` in the direction orthogonal to `AB`. -/
theorem foot_onLine {A B M H v : Pt} (hne : A ≠ B) (hv : v = ⟨-(B.y - A.y), B.x - A.x⟩) (hp : Perp (M - H) (B - A)) (s t : ℝ) (hst : s ≠ t) :
    OnLine (M + s • v) (M + t • v) H := by
  have hd := sqDist_pos hne
  subst hv
  unfold Perp dot at hp
  simp only [Pt.sub_x, Pt.sub_y] at hp
  obtain ⟨D, hD⟩ : ∃ D, D = (B.x - A.x) ^ 2 + (B.y - A.y) ^ 2 := ⟨_, rfl⟩
  have hD0 : D ≠ 0 := by
    rw [hD]
    unfold sqDist at hd
    nlinarith
  have hts : t - s ≠ 0 := sub_ne_zero.2 hst.symm
  refine ⟨(((H.x - M.x) * -(B.y - A.y) + (H.y - M.y) * (B.x - A.x)) / D - s) / (t - s), ?_⟩
  ext
  · simp only [Pt.add_x, Pt.smul_x, Pt.sub_x]
    field_simp
    rw [hD]
    linear_combination (-(t - s) * (B.x - A.x)) * hp
  · simp only [Pt.add_y, Pt.smul_y, Pt.sub_y]
    field_simp
    rw [hD]
    linear_combination (-(t - s) * (B.y - A.y)) * hp

theorem intPt_add {A B : ℕ} {P Q : Pt} (hP : IntPt A P) (hQ : IntPt B Q) (h : A + B ≤ 2 ^ 53) : addF P Q = P + Q ∧ IntPt (A + B) (P + Q) := by
  have h1 := FI.add hP.1 hQ.1
  have h2 := FI.add hP.2 hQ.2
  refine ⟨?_, h1, h2⟩
  unfold addF
  rw [FI.fl h1 h, FI.fl h2 h]
  rfl

/-- The vector orthogonal to the line. -/
theorem normal {A : ℕ} {l : Line} (h1 : IntPt A l.A) (h2 : IntPt A l.B) (h : A + A ≤ 2 ^ 53) :
    l.normalF = ⟨-(l.B.y - l.A.y), l.B.x - l.A.x⟩ ∧ IntPt (A + A) ⟨-(l.B.y - l.A.y), l.B.x - l.A.x⟩ := by
  have a := FI.sub h2.1 h1.1
  have b := FI.sub h2.2 h1.2
  refine ⟨?_, FI.neg b, a⟩
  unfold Line.normalF
  rw [FI.fl a h, FI.fl b h]

theorem not_parallel {A B v : Pt} (hne : A ≠ B) (hv : v = ⟨-(B.y - A.y), B.x - A.x⟩) (c : ℝ) (hc : c ≠ 0) (w : Pt) (hw : w = c • v) : ¬ Parallel (B - A) w := by
  have hd := sqDist_pos hne
  subst hv hw
  unfold Parallel cross
  unfold sqDist at hd
  simp only [Pt.sub_x, Pt.sub_y, Pt.smul_x, Pt.smul_y]
  intro h
  have : c * ((B.x - A.x) ^ 2 + (B.y - A.y) ^ 2) = 0 := by linear_combination h
  rcases mul_eq_zero.1 this with h | h
  · exact hc h
  · nlinarith

end FL

/-- C120: for integer coordinates of absolute value at most `33333`, `projection` returns the correctly rounded coordinates of the foot of the perpendicular. -/
theorem C120_projection (l : Line) (M H : Pt) (hA : IntPt 33333 l.A) (hB : IntPt 33333 l.B) (hM : IntPt 33333 M) (hne : l.A ≠ l.B)
    (hH : OnLine l.A l.B H) (hp : Perp (M - H) (l.B - l.A)) : l.projectionF M = some ⟨fl H.x, fl H.y⟩ := by
  obtain ⟨ev, iv⟩ := FL.normal hA hB (by norm_num)
  obtain ⟨es, is⟩ := FL.intPt_add hM iv (by norm_num)
  have m : ∀ {A : ℕ} {P : Pt}, A ≤ 100000 → IntPt A P → IntPt 100000 P := fun h p => ⟨FI.mono p.1 h, FI.mono p.2 h⟩
  unfold Line.projectionF
  rw [ev, es]
  refine (C115_line_line _ _ _ _ (m (by norm_num) hA) (m (by norm_num) hB) (m (by norm_num) hM) (m (by norm_num) is)).2 H hH ?_ ?_
  · have := FL.foot_onLine hne rfl hp 0 1 (by norm_num)
    rwa [show M + (0 : ℝ) • (⟨-(l.B.y - l.A.y), l.B.x - l.A.x⟩ : Pt) = M by ext <;> simp,
      show M + (1 : ℝ) • (⟨-(l.B.y - l.A.y), l.B.x - l.A.x⟩ : Pt) = M + ⟨-(l.B.y - l.A.y), l.B.x - l.A.x⟩ by ext <;> simp] at this
  · exact FL.not_parallel hne rfl 1 one_ne_zero _ (by ext <;> simp)

namespace FL

/-- Size of the foot of the perpendicular. -/
theorem foot_bound {A B M H : Pt} {N : ℝ} (hN : 0 ≤ N) (hA : |A.x| ≤ N ∧ |A.y| ≤ N) (hM : |M.x| ≤ N ∧ |M.y| ≤ N) (hH : OnLine A B H)
    (hp : Perp (M - H) (B - A)) : |H.x| ≤ 4 * N ∧ |H.y| ≤ 4 * N ∧ |H.x - M.x| ≤ 3 * N ∧ |H.y - M.y| ≤ 3 * N ∧ Spec.dist M H ≤ 3 * N := by
  obtain ⟨t, rfl⟩ := hH
  unfold Perp dot at hp
  simp only [Pt.add_x, Pt.add_y, Pt.smul_x, Pt.smul_y, Pt.sub_x, Pt.sub_y] at *
  obtain ⟨u, hu⟩ : ∃ u, u = t * (B.x - A.x) := ⟨_, rfl⟩
  obtain ⟨w, hw⟩ : ∃ w, w = t * (B.y - A.y) := ⟨_, rfl⟩
  have e : (M.x - (A.x + u)) * u + (M.y - (A.y + w)) * w = 0 := by rw [hu, hw]; linear_combination t * hp
  rw [← hu, ← hw]
  have hx : |M.x - A.x| ≤ 2 * N := by have := abs_sub M.x A.x; linarith [hM.1, hA.1]
  have hy : |M.y - A.y| ≤ 2 * N := by have := abs_sub M.y A.y; linarith [hM.2, hA.2]
  have sx := sq_le_sq' (by linarith [(abs_le.1 hx).1]) (abs_le.1 hx).2
  have sy := sq_le_sq' (by linarith [(abs_le.1 hy).1]) (abs_le.1 hy).2
  have h1 : u ^ 2 + w ^ 2 + ((M.x - (A.x + u)) ^ 2 + (M.y - (A.y + w)) ^ 2) = (M.x - A.x) ^ 2 + (M.y - A.y) ^ 2 := by linear_combination -2 * e
  have h2 : ∀ z : ℝ, z ^ 2 ≤ 8 * N ^ 2 → |z| ≤ 3 * N := by
    intro z hz
    apply abs_le_of_sq_le_sq _ (by linarith)
    nlinarith
  have ku := h2 u (by nlinarith [sq_nonneg w, sq_nonneg (M.x - (A.x + u)), sq_nonneg (M.y - (A.y + w))])
  have kw := h2 w (by nlinarith [sq_nonneg u, sq_nonneg (M.x - (A.x + u)), sq_nonneg (M.y - (A.y + w))])
  have kx := h2 (M.x - (A.x + u)) (by nlinarith [sq_nonneg u, sq_nonneg w, sq_nonneg (M.y - (A.y + w))])
  have ky := h2 (M.y - (A.y + w)) (by nlinarith [sq_nonneg u, sq_nonneg w, sq_nonneg (M.x - (A.x + u))])
  refine ⟨?_, ?_, ?_, ?_, ?_⟩
  · have := abs_add_le A.x u; linarith [hA.1]
  · have := abs_add_le A.y w; linarith [hA.2]
  · rwa [abs_sub_comm]
  · rwa [abs_sub_comm]
  · refine (abs_of_nonneg (dist_nonneg _ _)).symm.le.trans (h2 _ ?_)
    rw [dist_sq]
    unfold sqDist
    rw [Pt.add_x, Pt.add_y, Pt.smul_x, Pt.smul_y, Pt.sub_x, Pt.sub_y, ← hu, ← hw]
    nlinarith [sq_nonneg u, sq_nonneg w]

/-- The rounding of a number that is not large. -/
theorem fl_near {x B e : ℝ} (h : |x| ≤ B) (he : B / 2 ^ 53 + 1 / 2 ^ 200 ≤ e) : |fl x - x| ≤ e := by
  have h1 := FG.fl_err' x
  have h2 := FI.tiny_small
  have : |x| / 2 ^ 53 ≤ B / 2 ^ 53 := by gcongr
  linarith

end FL

/-- The computed projection is collinear with `A` and `B`, up to the tolerance of `collinear_`. -/
theorem FL.included_aux {A B M H : Pt} {hx hy : ℝ} (hA : IntPt 1000 A) (hB : IntPt 1000 B) (hM : IntPt 1000 M) (ax : |A.x| ≤ 1000) (ay : |A.y| ≤ 1000)
    (bx : |B.x| ≤ 1000) (bY : |B.y| ≤ 1000) (hH : OnLine A B H) (hp : Perp (M - H) (B - A)) (hAH : H ≠ A) (ex : |hx - H.x| ≤ 1 / 2 ^ 41)
    (ey : |hy - H.y| ≤ 1 / 2 ^ 41) : |cross (B - A) (⟨hx, hy⟩ - A)| ≤ Spec.dist A B * Spec.dist A ⟨hx, hy⟩ / 2 ^ 28 := by
  have hint := FI.add (FI.mul (FI.sub hB.1 hA.1) (FI.sub hM.1 hA.1)) (FI.mul (FI.sub hB.2 hA.2) (FI.sub hM.2 hA.2))
  obtain ⟨n, hn⟩ : ∃ n, n = (B.x - A.x) * (M.x - A.x) + (B.y - A.y) * (M.y - A.y) := ⟨_, rfl⟩
  rw [← hn] at hint
  obtain ⟨t, ht⟩ := hH
  have hX := congrArg Pt.x ht
  have hY := congrArg Pt.y ht
  unfold Perp dot at hp
  simp only [Pt.add_x, Pt.add_y, Pt.smul_x, Pt.smul_y, Pt.sub_x, Pt.sub_y] at hX hY hp
  have e0 : n = t * ((B.x - A.x) ^ 2 + (B.y - A.y) ^ 2) := by rw [hX, hY] at hp; rw [hn]; linear_combination hp
  have n0 : n ≠ 0 := by
    intro h
    rw [h] at e0
    rcases mul_eq_zero.1 e0.symm with h | h
    · apply hAH
      rw [ht, h]
      ext <;> simp
    · apply hAH
      have q1 : B.x - A.x = 0 := by nlinarith [sq_nonneg (B.x - A.x), sq_nonneg (B.y - A.y)]
      have q2 : B.y - A.y = 0 := by nlinarith [sq_nonneg (B.x - A.x), sq_nonneg (B.y - A.y)]
      rw [ht]
      ext <;> simp [q1, q2]
  have n1 := FI.one_le_abs hint n0
  have dx : |B.x - A.x| ≤ 2000 := by have := abs_sub B.x A.x; linarith
  have dy : |B.y - A.y| ≤ 2000 := by have := abs_sub B.y A.y; linarith
  have p1 : ∀ a b : ℝ, |a| ≤ 2000 → |b| ≤ 1 / 2 ^ 41 → |a * b| ≤ 2000 * (1 / 2 ^ 41) := by
    intro a b ha hb
    rw [abs_mul]
    gcongr
  have hc : |cross (B - A) (⟨hx, hy⟩ - A)| ≤ 1 / 2 ^ 29 := by
    have : cross (B - A) (⟨hx, hy⟩ - A) = (B.x - A.x) * (hy - H.y) - (B.y - A.y) * (hx - H.x) := by
      unfold cross
      simp only [Pt.sub_x, Pt.sub_y]
      rw [hX, hY]
      ring
    rw [this]
    have := abs_sub ((B.x - A.x) * (hy - H.y)) ((B.y - A.y) * (hx - H.x))
    have q1 := p1 _ _ dx ey
    have q2 := p1 _ _ dy ex
    norm_num at *
    linarith
  obtain ⟨g, hg⟩ : ∃ g, g = (B.x - A.x) * (hx - A.x) + (B.y - A.y) * (hy - A.y) := ⟨_, rfl⟩
  have hg1 : 1 - 1 / 2 ^ 29 ≤ |g| := by
    have e1 : n = g - ((B.x - A.x) * (hx - H.x) + (B.y - A.y) * (hy - H.y)) := by rw [hg, e0, hX, hY]; ring
    have q0 := abs_sub g ((B.x - A.x) * (hx - H.x) + (B.y - A.y) * (hy - H.y))
    rw [← e1] at q0
    have q3 := abs_add_le ((B.x - A.x) * (hx - H.x)) ((B.y - A.y) * (hy - H.y))
    have q1 := p1 _ _ dx ex
    have q2 := p1 _ _ dy ey
    norm_num at *
    linarith
  have hd : |g| ≤ Spec.dist A B * Spec.dist A ⟨hx, hy⟩ := by
    apply abs_le_of_sq_le_sq _ (mul_nonneg (dist_nonneg _ _) (dist_nonneg _ _))
    rw [mul_pow, dist_sq, dist_sq, hg]
    unfold sqDist
    dsimp only
    nlinarith [sq_nonneg ((B.x - A.x) * (hy - A.y) - (B.y - A.y) * (hx - A.x))]
  have : (1 - 1 / 2 ^ 29) / 2 ^ 28 ≤ Spec.dist A B * Spec.dist A ⟨hx, hy⟩ / 2 ^ 28 := by
    gcongr
    exact hg1.trans hd
  refine hc.trans (le_trans ?_ this)
  norm_num

/-- C120: for integer coordinates of absolute value at most `1000`, the point returned by `projection` is found on the line by `includes`. -/
theorem C120_projection_included (k : Fma) (l : Line) (M : Pt) (hA : IntPt 1000 l.A) (hB : IntPt 1000 l.B) (hM : IntPt 1000 M) (hne : l.A ≠ l.B) :
    ∃ P, l.projectionF M = some P ∧ l.includesF k P = .ok true := by
  have m : ∀ {P : Pt}, IntPt 1000 P → IntPt 33333 P := fun p => ⟨FI.mono p.1 (by norm_num), FI.mono p.2 (by norm_num)⟩
  have d : ∀ {P : Pt}, IntPt 1000 P → DoublePt P := fun p => ⟨FI.isDouble p.1 (by norm_num), FI.isDouble p.2 (by norm_num)⟩
  have hv : l.Valid := fun h => hne ((FL.allclose_int ⟨FI.mono hA.1 (by norm_num), FI.mono hA.2 (by norm_num)⟩
    ⟨FI.mono hB.1 (by norm_num), FI.mono hB.2 (by norm_num)⟩).1 h)
  obtain ⟨H, -, hH, hp⟩ := C07_projection l hv M
  refine ⟨_, C120_projection l M H (m hA) (m hB) (m hM) hne hH hp, ?_⟩
  obtain ⟨ax, ay⟩ : |l.A.x| ≤ 1000 ∧ |l.A.y| ≤ 1000 := ⟨by exact_mod_cast FI.abs_le hA.1, by exact_mod_cast FI.abs_le hA.2⟩
  obtain ⟨bx, bY⟩ : |l.B.x| ≤ 1000 ∧ |l.B.y| ≤ 1000 := ⟨by exact_mod_cast FI.abs_le hB.1, by exact_mod_cast FI.abs_le hB.2⟩
  obtain ⟨mx, my⟩ : |M.x| ≤ 1000 ∧ |M.y| ≤ 1000 := ⟨by exact_mod_cast FI.abs_le hM.1, by exact_mod_cast FI.abs_le hM.2⟩
  obtain ⟨hx, hy, -⟩ := FL.foot_bound (by norm_num) ⟨ax, ay⟩ ⟨mx, my⟩ hH hp
  have ex := FL.fl_near (e := 1 / 2 ^ 41) hx (by norm_num)
  have ey := FL.fl_near (e := 1 / 2 ^ 41) hy (by norm_num)
  obtain ⟨b, hb, h1, h2, -⟩ := C90_collinear l.A l.B ⟨fl H.x, fl H.y⟩ (d hA) (d hB) ⟨fl_isDouble _, fl_isDouble _⟩
  have key : b := by
    by_cases hAH : H = l.A
    · apply h1
      right; left
      rw [hAH, FI.fl hA.1 (by norm_num), FI.fl hA.2 (by norm_num)]
      exact (FI.allclose ⟨FI.mono hA.1 (by norm_num), FI.mono hA.2 (by norm_num)⟩ ⟨FI.mono hA.1 (by norm_num), FI.mono hA.2 (by norm_num)⟩).2 rfl
    · exact h2 (FL.included_aux hA hB hM ax ay bx bY hH hp hAH ex ey)
  unfold Line.includesF
  rw [hb]
  simp [key, pure, Except.pure, bind, Except.bind]

/-- C120: for integer coordinates of absolute value at most `33333`, `distance` is the distance to the line up to `10^-10`. -/
theorem C120_distance (k : Fma) (l : Line) (M H : Pt) (hA : IntPt 33333 l.A) (hB : IntPt 33333 l.B) (hM : IntPt 33333 M) (hne : l.A ≠ l.B)
    (hH : OnLine l.A l.B H) (hp : Perp (M - H) (l.B - l.A)) : ∃ d, l.distanceF k M = .ok d ∧ |d - Spec.dist M H| ≤ 1 / 10 ^ 10 := by
  obtain ⟨ax, ay⟩ : |l.A.x| ≤ 33333 ∧ |l.A.y| ≤ 33333 := ⟨by exact_mod_cast FI.abs_le hA.1, by exact_mod_cast FI.abs_le hA.2⟩
  obtain ⟨mx, my⟩ : |M.x| ≤ 33333 ∧ |M.y| ≤ 33333 := ⟨by exact_mod_cast FI.abs_le hM.1, by exact_mod_cast FI.abs_le hM.2⟩
  obtain ⟨hx, hy, -, -, hd⟩ := FL.foot_bound (by norm_num) ⟨ax, ay⟩ ⟨mx, my⟩ hH hp
  have ex := FL.fl_near (e := 15 / 10 ^ 12) hx (by norm_num)
  have ey := FL.fl_near (e := 15 / 10 ^ 12) hy (by norm_num)
  refine ⟨_, by unfold Line.distanceF; rw [C120_projection l M H hA hB hM hne hH hp], ?_⟩
  have h1 := C88_distance_error k M ⟨fl H.x, fl H.y⟩ ⟨FI.isDouble hM.1 (by norm_num), FI.isDouble hM.2 (by norm_num)⟩ ⟨fl_isDouble _, fl_isDouble _⟩
  have h2 : Spec.dist H ⟨fl H.x, fl H.y⟩ ≤ 3 / 10 ^ 11 := by
    refine (abs_of_nonneg (dist_nonneg _ _)).symm.le.trans (abs_le_of_sq_le_sq ?_ (by norm_num))
    rw [dist_sq]
    unfold sqDist
    dsimp only
    have q1 := sq_le_sq' (by linarith [(abs_le.1 ex).1]) (abs_le.1 ex).2
    have q2 := sq_le_sq' (by linarith [(abs_le.1 ey).1]) (abs_le.1 ey).2
    norm_num at *
    nlinarith
  have t1 := specDist_triangle M H ⟨fl H.x, fl H.y⟩
  have t2 := specDist_triangle M ⟨fl H.x, fl H.y⟩ H
  rw [dist_comm ⟨fl H.x, fl H.y⟩ H] at t2
  have t3 : (2 : ℝ) ^ (-535 : ℤ) ≤ 1 / 2 ^ 100 := by
    rw [one_div, ← zpow_natCast, ← zpow_neg]
    exact zpow_le_zpow_right₀ (by norm_num) (by norm_num)
  generalize Spec.dist M ⟨fl H.x, fl H.y⟩ = z at *
  generalize Spec.dist H ⟨fl H.x, fl H.y⟩ = y at *
  generalize Spec.dist M H = w at *
  rw [abs_le] at h1 ⊢
  norm_num at h1 h2 hd t1 t2 t3 ⊢
  constructor <;> linarith

namespace FL

/-- What `np.isclose` allows around a number that is not large. -/
theorem close64_bound {a b : ℝ} (hb : |b| ≤ 150) (h : npClose64 a b) : |a - b| ≤ 151 / 10 ^ 5 := by
  unfold npClose64 at h
  have h0 := FG.fl_err' (a - b)
  have ht := FI.tiny_small
  have p1 := FL.fl_near (x := 1 / 10 ^ 8) (B := 1 / 10 ^ 8) (e := 1 / 2 ^ 50) (by rw [abs_of_pos (by norm_num)]) (by norm_num)
  have p2 := FL.fl_near (x := 1 / 10 ^ 5) (B := 1 / 10 ^ 5) (e := 1 / 2 ^ 50) (by rw [abs_of_pos (by norm_num)]) (by norm_num)
  have b0 := abs_nonneg b
  have n2 : 0 ≤ fl (1 / 10 ^ 5) := fl_nonneg (by norm_num)
  have n1 : 0 ≤ fl (1 / 10 ^ 8) := fl_nonneg (by norm_num)
  generalize fl (1 / 10 ^ 8) = c at *
  generalize fl (1 / 10 ^ 5) = d at *
  have q1 : d ≤ 1001 / 10 ^ 8 := by have := (abs_le.1 p2).2; norm_num at this ⊢; linarith
  have q2 : c ≤ 1001 / 10 ^ 11 := by have := (abs_le.1 p1).2; norm_num at this ⊢; linarith
  have q3 : d * |b| ≤ 1001 / 10 ^ 8 * 150 := by gcongr
  have q4 := FL.fl_near (x := d * |b|) (B := 1) (e := 1 / 2 ^ 50) (by rw [abs_of_nonneg (by positivity)]; norm_num at q3 ⊢; linarith) (by norm_num)
  have q5 := fl_nonneg (x := d * |b|) (by positivity)
  generalize fl (d * |b|) = w at *
  have q6 : w ≤ 1502 / 10 ^ 6 := by have := (abs_le.1 q4).2; norm_num at this q3 ⊢; linarith
  have q7 := FL.fl_near (x := c + w) (B := 1) (e := 1 / 2 ^ 50) (by rw [abs_of_nonneg (by positivity)]; norm_num at q2 q6 ⊢; linarith) (by norm_num)
  generalize fl (c + w) = z at *
  have q8 : z ≤ 1503 / 10 ^ 6 := by have := (abs_le.1 q7).2; norm_num at this q6 q2 ⊢; linarith
  have q9 := abs_sub_abs_le_abs_sub (a - b) (fl (a - b))
  rw [abs_sub_comm (a - b) (fl (a - b))] at q9
  generalize |a - b| = y at *
  norm_num at q8 q9 h0 ht h ⊢
  linarith

/-- A point off the line is not within the tolerance of its computed projection. -/
theorem foot_far {A B M H : Pt} {hx hy : ℝ} (hA : IntPt 150 A) (hB : IntPt 150 B) (hM : IntPt 150 M) (hne : A ≠ B) (hH : OnLine A B H)
    (hoff : ¬ OnLine A B M) (ex : |hx - H.x| ≤ 1 / 2 ^ 43) (ey : |hy - H.y| ≤ 1 / 2 ^ 43) : ¬ allclose64 ⟨hx, hy⟩ M := by
  intro h
  obtain ⟨mx, my⟩ : |M.x| ≤ 150 ∧ |M.y| ≤ 150 := ⟨by exact_mod_cast FI.abs_le hM.1, by exact_mod_cast FI.abs_le hM.2⟩
  obtain ⟨ax, ay⟩ : |A.x| ≤ 150 ∧ |A.y| ≤ 150 := ⟨by exact_mod_cast FI.abs_le hA.1, by exact_mod_cast FI.abs_le hA.2⟩
  obtain ⟨bx, bY⟩ : |B.x| ≤ 150 ∧ |B.y| ≤ 150 := ⟨by exact_mod_cast FI.abs_le hB.1, by exact_mod_cast FI.abs_le hB.2⟩
  have c1 := close64_bound mx h.1
  have c2 := close64_bound my h.2
  dsimp only at c1 c2
  have u1 : |M.x - H.x| ≤ 152 / 10 ^ 5 := by
    rw [abs_le] at *; norm_num at ex c1 ⊢; constructor <;> linarith
  have u2 : |M.y - H.y| ≤ 152 / 10 ^ 5 := by
    rw [abs_le] at *; norm_num at ey c2 ⊢; constructor <;> linarith
  have hint := FI.sub (FI.mul (FI.sub hB.1 hA.1) (FI.sub hM.2 hA.2)) (FI.mul (FI.sub hB.2 hA.2) (FI.sub hM.1 hA.1))
  have hc0 : (B.x - A.x) * (M.y - A.y) - (B.y - A.y) * (M.x - A.x) ≠ 0 := by
    intro h0
    apply hoff
    rw [onLine_iff_cross hne]
    exact h0
  have n1 := FI.one_le_abs hint hc0
  obtain ⟨t, ht⟩ := hH
  have hX := congrArg Pt.x ht
  have hY := congrArg Pt.y ht
  simp only [Pt.add_x, Pt.add_y, Pt.smul_x, Pt.smul_y, Pt.sub_x, Pt.sub_y] at hX hY
  have e1 : (B.x - A.x) * (M.y - A.y) - (B.y - A.y) * (M.x - A.x) = (B.x - A.x) * (M.y - H.y) - (B.y - A.y) * (M.x - H.x) := by
    rw [hX, hY]; ring
  rw [e1] at n1
  have dx : |B.x - A.x| ≤ 300 := by have := abs_sub B.x A.x; linarith
  have dy : |B.y - A.y| ≤ 300 := by have := abs_sub B.y A.y; linarith
  have p1 : ∀ a b : ℝ, |a| ≤ 300 → |b| ≤ 152 / 10 ^ 5 → |a * b| ≤ 300 * (152 / 10 ^ 5) := by
    intro a b ha hb
    rw [abs_mul]
    gcongr
  have q := abs_sub ((B.x - A.x) * (M.y - H.y)) ((B.y - A.y) * (M.x - H.x))
  have q1 := p1 _ _ dx u2
  have q2 := p1 _ _ dy u1
  norm_num at *
  linarith

/-- One coordinate of the reflected point. -/
theorem mirror_coord {m h q h' : ℝ} (hm : |m| ≤ 150) (hh : |h - m| ≤ 450) (e : |h' - h| ≤ 7 / 10 ^ 14) (hq : q = 2 * h - m) :
    |fl (m + fl (2 * fl (h' - m))) - q| ≤ 1 / 10 ^ 12 := by
  subst hq
  have b1 : |h' - m| ≤ 451 := by rw [abs_le] at *; norm_num at e ⊢; constructor <;> linarith
  have e1 := FL.fl_near (e := 6 / 10 ^ 14) b1 (by norm_num)
  generalize fl (h' - m) = d at *
  have b2 : |2 * d| ≤ 904 := by rw [abs_le] at *; norm_num at e1 ⊢; constructor <;> linarith
  have e2 := FL.fl_near (e := 11 / 10 ^ 14) b2 (by norm_num)
  generalize fl (2 * d) = z at *
  have b3 : |m + z| ≤ 1056 := by rw [abs_le] at *; norm_num at e2 ⊢; constructor <;> linarith
  have e3 := FL.fl_near (e := 13 / 10 ^ 14) b3 (by norm_num)
  rw [abs_le] at *
  norm_num at e e1 e2 e3 ⊢
  constructor <;> linarith

end FL

/-- The perpendicular through a point off the line, before the check that its two points are distinct. -/
theorem FL.perpendicular_off (k : Fma) (l : Line) (M H : Pt) (hA : IntPt (2 ^ 11) l.A) (hB : IntPt (2 ^ 11) l.B) (hM : IntPt (2 ^ 11) M) (hne : l.A ≠ l.B)
    (hH : OnLine l.A l.B H) (hp : Perp (M - H) (l.B - l.A)) (hon : ¬ OnLine l.A l.B M) (eH eM : Bool) :
    l.perpendicularF k M eH eM = mkLineF ⟨fl H.x, fl H.y⟩ M eH eM := by
  have m : ∀ {A N : ℕ} {P : Pt}, A ≤ N → IntPt A P → IntPt N P := fun h p => ⟨FI.mono p.1 h, FI.mono p.2 h⟩
  obtain ⟨ev, iv⟩ := FL.normal hA hB (by norm_num)
  obtain ⟨es, is⟩ := FL.intPt_add hM iv (by norm_num)
  obtain ⟨ed, id⟩ := FI.subPt hM iv (by norm_num)
  have hline : line_line_intersectionF l.A l.B (M - ⟨-(l.B.y - l.A.y), l.B.x - l.A.x⟩) (M + ⟨-(l.B.y - l.A.y), l.B.x - l.A.x⟩) = some ⟨fl H.x, fl H.y⟩ := by
    refine (C115_line_line _ _ _ _ (m (by norm_num) hA) (m (by norm_num) hB) (m (by norm_num) id) (m (by norm_num) is)).2 H hH ?_ ?_
    · have := FL.foot_onLine hne rfl hp (-1) 1 (by norm_num)
      convert this using 1 <;> (ext <;> simp <;> ring)
    · exact FL.not_parallel hne rfl 2 two_ne_zero _ (by ext <;> simp <;> ring)
  unfold Line.perpendicularF
  rw [C120_includes_line k l M hA hB hM hne]
  dsimp only
  rw [ev, es, ed, hline]
  simp [hon, bind, Except.bind]

theorem FL.mkLine_int {l : Line} (hA : IntPt (2 ^ 11) l.A) (hB : IntPt (2 ^ 11) l.B) (hne : l.A ≠ l.B) :
    mkLineF l.A l.B true true = .ok ⟨l.A, l.B, true, true⟩ := by
  unfold mkLineF
  rw [if_neg fun h => hne ((FL.allclose64_int hA hB).1 h)]

theorem FL.reflection_off (k : Fma) (l : Line) (M H : Pt) (hA : IntPt (2 ^ 11) l.A) (hB : IntPt (2 ^ 11) l.B) (hM : IntPt (2 ^ 11) M) (hne : l.A ≠ l.B)
    (hH : OnLine l.A l.B H) (hp : Perp (M - H) (l.B - l.A)) (hon : ¬ OnLine l.A l.B M) (hf : ¬ allclose64 ⟨fl H.x, fl H.y⟩ M) :
    l.reflectionF k M = .ok (addF M ⟨fl (2 * fl (fl H.x - M.x)), fl (2 * fl (fl H.y - M.y))⟩) := by
  unfold Line.reflectionF Reflection.transformF
  rw [FL.mkLine_int hA hB hne]
  simp only [pure, Except.pure, bind, Except.bind]
  rw [C120_includes_line k ⟨l.A, l.B, true, true⟩ M hA hB hM hne, FL.perpendicular_off k ⟨l.A, l.B, true, true⟩ M H hA hB hM hne hH hp hon]
  simp [hon, mkLineF, hf, subF]

theorem FL.reflection_off_close (k : Fma) (l : Line) (M H : Pt) (hA : IntPt (2 ^ 11) l.A) (hB : IntPt (2 ^ 11) l.B) (hM : IntPt (2 ^ 11) M) (hne : l.A ≠ l.B)
    (hH : OnLine l.A l.B H) (hp : Perp (M - H) (l.B - l.A)) (hon : ¬ OnLine l.A l.B M) (hf : allclose64 ⟨fl H.x, fl H.y⟩ M) :
    l.reflectionF k M = .error (.valueError "`A` and `B` must be distinct.") := by
  unfold Line.reflectionF Reflection.transformF
  rw [FL.mkLine_int hA hB hne]
  simp only [pure, Except.pure, bind, Except.bind]
  rw [C120_includes_line k ⟨l.A, l.B, true, true⟩ M hA hB hM hne, FL.perpendicular_off k ⟨l.A, l.B, true, true⟩ M H hA hB hM hne hH hp hon]
  simp [hon, mkLineF, hf]

/-- The tolerance around a small number. -/
theorem FL.close64_small {a b : ℝ} (hb : |b| ≤ 1 / 10 ^ 4) (h : npClose64 a b) : |a - b| ≤ 2 / 10 ^ 8 := by
  unfold npClose64 at h
  have h0 := FG.fl_err' (a - b)
  have ht := FI.tiny_small
  have p1 := FL.fl_near (x := 1 / 10 ^ 8) (B := 1 / 10 ^ 8) (e := 1 / 2 ^ 50) (by rw [abs_of_pos (by norm_num)]) (by norm_num)
  have p2 := FL.fl_near (x := 1 / 10 ^ 5) (B := 1 / 10 ^ 5) (e := 1 / 2 ^ 50) (by rw [abs_of_pos (by norm_num)]) (by norm_num)
  have b0 := abs_nonneg b
  have n2 : 0 ≤ fl (1 / 10 ^ 5) := fl_nonneg (by norm_num)
  have n1 : 0 ≤ fl (1 / 10 ^ 8) := fl_nonneg (by norm_num)
  generalize fl (1 / 10 ^ 8) = c at *
  generalize fl (1 / 10 ^ 5) = d at *
  have q1 : d ≤ 1001 / 10 ^ 8 := by have := (abs_le.1 p2).2; norm_num at this ⊢; linarith
  have q2 : c ≤ 1001 / 10 ^ 11 := by have := (abs_le.1 p1).2; norm_num at this ⊢; linarith
  have q3 : d * |b| ≤ 1001 / 10 ^ 8 * (1 / 10 ^ 4) := by gcongr
  have q4 := FL.fl_near (x := d * |b|) (B := 1) (e := 1 / 2 ^ 50) (by rw [abs_of_nonneg (by positivity)]; norm_num at q3 ⊢; linarith) (by norm_num)
  have q5 := fl_nonneg (x := d * |b|) (by positivity)
  generalize fl (d * |b|) = w at *
  have q6 : w ≤ 2 / 10 ^ 9 := by have := (abs_le.1 q4).2; norm_num at this q3 ⊢; linarith
  have q7 := FL.fl_near (x := c + w) (B := 1) (e := 1 / 2 ^ 50) (by rw [abs_of_nonneg (by positivity)]; norm_num at q2 q6 ⊢; linarith) (by norm_num)
  generalize fl (c + w) = z at *
  have q8 : z ≤ 13 / 10 ^ 9 := by have := (abs_le.1 q7).2; norm_num at this q6 q2 ⊢; linarith
  have q9 := abs_sub_abs_le_abs_sub (a - b) (fl (a - b))
  rw [abs_sub_comm (a - b) (fl (a - b))] at q9
  generalize |a - b| = y at *
  norm_num at q8 q9 h0 ht h ⊢
  linarith

/-- Numbers near `300` that `np.isclose` accepts. -/
theorem FL.close64_of {a b : ℝ} (hb : 299 ≤ |b|) (h : |a - b| ≤ 2 / 10 ^ 3) : npClose64 a b := by
  unfold npClose64
  have h0 := FL.fl_near (e := 1 / 2 ^ 50) h (by norm_num)
  have p2 := FL.fl_near (x := 1 / 10 ^ 5) (B := 1 / 10 ^ 5) (e := 1 / 2 ^ 50) (by rw [abs_of_pos (by norm_num)]) (by norm_num)
  have n1 : 0 ≤ fl (1 / 10 ^ 8) := fl_nonneg (by norm_num)
  generalize fl (1 / 10 ^ 8) = c at *
  generalize fl (1 / 10 ^ 5) = d at *
  have q1 : 999 / 10 ^ 8 ≤ d := by have := (abs_le.1 p2).1; norm_num at this ⊢; linarith
  have q3 : 29 / 10 ^ 4 ≤ d * |b| := le_trans (by norm_num) (mul_le_mul q1 hb (by norm_num) (by linarith [show (0 : ℝ) ≤ 999 / 10 ^ 8 by norm_num]))
  have q4 : 28 / 10 ^ 4 ≤ fl (d * |b|) := by
    have e := FL.fl_near (x := 29 / 10 ^ 4) (B := 1) (e := 1 / 2 ^ 50) (by rw [abs_of_pos] <;> norm_num) (by norm_num)
    have := fl_mono q3
    have := (abs_le.1 e).1
    norm_num at *
    linarith
  have q5 : 27 / 10 ^ 4 ≤ fl (c + fl (d * |b|)) := by
    have e := FL.fl_near (x := 28 / 10 ^ 4) (B := 1) (e := 1 / 2 ^ 50) (by rw [abs_of_pos] <;> norm_num) (by norm_num)
    have := fl_mono (show (28 : ℝ) / 10 ^ 4 ≤ c + fl (d * |b|) by linarith)
    have := (abs_le.1 e).1
    norm_num at *
    linarith
  refine le_trans ?_ q5
  rw [abs_le] at h h0 ⊢
  norm_num at h h0 ⊢
  constructor <;> linarith

/-- C120: for integer coordinates of absolute value at most `150`, `reflection` returns a point of the line unchanged and any other point's mirror image
within `10^-12` in each coordinate. -/
theorem C120_reflection (k : Fma) (l : Line) (M Q : Pt) (hA : IntPt 150 l.A) (hB : IntPt 150 l.B) (hM : IntPt 150 M) (hne : l.A ≠ l.B)
    (hQ : IsMirror l.A l.B M Q) :
    ∃ Q', l.reflectionF k M = .ok Q' ∧ (OnLine l.A l.B M → Q' = M) ∧ |Q'.x - Q.x| ≤ 1 / 10 ^ 12 ∧ |Q'.y - Q.y| ≤ 1 / 10 ^ 12 := by
  have m : ∀ {A N : ℕ} {P : Pt}, A ≤ N → IntPt A P → IntPt N P := fun h p => ⟨FI.mono p.1 h, FI.mono p.2 h⟩
  have hinc := C120_includes_line k ⟨l.A, l.B, true, true⟩ M (m (by norm_num) hA) (m (by norm_num) hB) (m (by norm_num) hM) hne
  dsimp only at hinc
  have hl := FL.mkLine_int (l := l) (m (by norm_num) hA) (m (by norm_num) hB) hne
  by_cases hon : OnLine l.A l.B M
  · have hMM : IsMirror l.A l.B M M := by
      refine ⟨?_, ?_⟩
      · have : (M + M) / (2 : ℝ) = M := by ext <;> simp
        rwa [this]
      · unfold Perp dot; simp
    have := mirror_unique hne hQ hMM
    subst this
    refine ⟨Q, ?_, fun _ => rfl, by simp, by simp⟩
    unfold Line.reflectionF Reflection.transformF
    rw [hl]
    simp only [pure, Except.pure, bind, Except.bind]
    rw [hinc]
    simp [hon]
  · obtain ⟨H, hHe⟩ : ∃ H, H = (M + Q) / (2 : ℝ) := ⟨_, rfl⟩
    have hX := congrArg Pt.x hHe
    have hY := congrArg Pt.y hHe
    simp only [Pt.add_x, Pt.add_y, Pt.div_x, Pt.div_y] at hX hY
    have hH : OnLine l.A l.B H := hHe ▸ hQ.1
    have hp : Perp (M - H) (l.B - l.A) := by
      have := hQ.2
      unfold Perp dot at this ⊢
      simp only [Pt.sub_x, Pt.sub_y] at this ⊢
      rw [hX, hY]
      linear_combination (-1 / 2) * this
    obtain ⟨mx, my⟩ : |M.x| ≤ 150 ∧ |M.y| ≤ 150 := ⟨by exact_mod_cast FI.abs_le hM.1, by exact_mod_cast FI.abs_le hM.2⟩
    obtain ⟨ax, ay⟩ : |l.A.x| ≤ 150 ∧ |l.A.y| ≤ 150 := ⟨by exact_mod_cast FI.abs_le hA.1, by exact_mod_cast FI.abs_le hA.2⟩
    obtain ⟨hx, hy, gx, gy, -⟩ := FL.foot_bound (by norm_num) ⟨ax, ay⟩ ⟨mx, my⟩ hH hp
    have ex := FL.fl_near (e := 7 / 10 ^ 14) hx (by norm_num)
    have ey := FL.fl_near (e := 7 / 10 ^ 14) hy (by norm_num)
    have hfar := FL.foot_far hA hB hM hne hH hon (ex.trans (by norm_num)) (ey.trans (by norm_num))
    refine ⟨_, FL.reflection_off k l M H (m (by norm_num) hA) (m (by norm_num) hB) (m (by norm_num) hM) hne hH hp hon hfar, fun h => absurd h hon, ?_, ?_⟩
    · exact FL.mirror_coord mx (by linarith) ex (by rw [hX]; ring)
    · exact FL.mirror_coord my (by linarith) ey (by rw [hY]; ring)

/-- C120: for larger integers the point may be within the tolerance of `np.allclose` of its projection though it is not on the line, and then `reflection`
raises. -/
theorem C120_reflection_counterexample (k : Fma) :
    ¬ OnLine ⟨0, 0⟩ ⟨300, 301⟩ ⟨299, 300⟩ ∧
    Line.reflectionF k ⟨⟨0, 0⟩, ⟨300, 301⟩, true, true⟩ ⟨299, 300⟩ = .error (.valueError "`A` and `B` must be distinct.") := by
  have hon : ¬ OnLine ⟨0, 0⟩ ⟨300, 301⟩ ⟨299, 300⟩ := by
    rw [onLine_iff_cross (by simp)]
    norm_num [cross]
  have iA : IntPt (2 ^ 11) ⟨0, 0⟩ := ⟨⟨0, by simp, by norm_num⟩, ⟨0, by simp, by norm_num⟩⟩
  have iB : IntPt (2 ^ 11) ⟨300, 301⟩ := ⟨⟨300, by simp, by norm_num⟩, ⟨301, by simp, by norm_num⟩⟩
  have iM : IntPt (2 ^ 11) ⟨299, 300⟩ := ⟨⟨299, by simp, by norm_num⟩, ⟨300, by simp, by norm_num⟩⟩
  refine ⟨hon, FL.reflection_off_close k ⟨⟨0, 0⟩, ⟨300, 301⟩, true, true⟩ ⟨299, 300⟩ ⟨299 + 301 / 180601, 300 - 300 / 180601⟩ iA iB iM (by simp) ?_ ?_ hon ?_⟩
  · refine ⟨180000 / 180601, ?_⟩
    ext <;> norm_num
  · norm_num [Perp, dot]
  · have e1 := FL.fl_near (x := 299 + 301 / 180601) (B := 300) (e := 1 / 10 ^ 12) (by norm_num [abs_of_pos]) (by norm_num)
    have e2 := FL.fl_near (x := 300 - 300 / 180601) (B := 300) (e := 1 / 10 ^ 12) (by norm_num [abs_of_pos]) (by norm_num)
    rw [abs_le] at e1 e2
    constructor <;> apply FL.close64_of <;> dsimp only
    · rw [abs_of_pos] <;> norm_num
    · rw [abs_le]; norm_num at e1 ⊢; constructor <;> linarith
    · rw [abs_of_pos] <;> norm_num
    · rw [abs_le]; norm_num at e2 ⊢; constructor <;> linarith

/-- C120: for larger integers the computed projection need not be a point of the line for `includes`. -/
theorem C120_projection_counterexample (k : Fma) :
    ∃ P, Line.projectionF ⟨⟨0, -33000⟩, ⟨33001, 0⟩, true, true⟩ ⟨1, -33001⟩ = some P ∧
      Line.includesF k ⟨⟨0, -33000⟩, ⟨33001, 0⟩, true, true⟩ P = .ok false := by
  have iA : IntPt 33333 ⟨0, -33000⟩ := ⟨⟨0, by simp, by norm_num⟩, ⟨-33000, by simp, by norm_num⟩⟩
  have iB : IntPt 33333 ⟨33001, 0⟩ := ⟨⟨33001, by simp, by norm_num⟩, ⟨0, by simp, by norm_num⟩⟩
  have iM : IntPt 33333 ⟨1, -33001⟩ := ⟨⟨1, by simp, by norm_num⟩, ⟨-33001, by simp, by norm_num⟩⟩
  have hH : OnLine ⟨0, -33000⟩ ⟨33001, 0⟩ ⟨33001 / 2178066001, -33000 + 33000 / 2178066001⟩ := by
    refine ⟨1 / 2178066001, ?_⟩
    ext <;> norm_num
  refine ⟨_, C120_projection ⟨⟨0, -33000⟩, ⟨33001, 0⟩, true, true⟩ ⟨1, -33001⟩ _ iA iB iM (by simp) hH (by norm_num [Perp, dot]), ?_⟩
  dsimp only
  have ey : fl (-33000 + 33000 / 2178066001) = ((-4535485462493655 : ℤ) : ℝ) * 2 ^ (-37 : ℤ) := by
    apply fl_eval (by norm_num)
    · rw [abs_of_neg (by norm_num)]; norm_num
    · rw [abs_of_neg (by norm_num)]; norm_num
    · rw [abs_lt]; constructor <;> norm_num [zpow_neg]
  have ex := FL.fl_near (x := 33001 / 2178066001) (B := 1 / 2 ^ 16) (e := 1 / 2 ^ 68) (by rw [abs_of_pos (by norm_num)]; norm_num) (by norm_num)
  have dx := fl_isDouble (33001 / 2178066001)
  have dy := fl_isDouble (-33000 + 33000 / 2178066001)
  rw [ey] at dy ⊢
  generalize fl (33001 / 2178066001) = px at *
  obtain ⟨py, hpy⟩ : ∃ py, py = ((-4535485462493655 : ℤ) : ℝ) * 2 ^ (-37 : ℤ) := ⟨_, rfl⟩
  rw [← hpy] at dy ⊢
  norm_num [zpow_neg] at hpy
  rw [abs_le] at ex
  norm_num at ex
  obtain ⟨b, hb, -, -, h3⟩ := C90_collinear ⟨0, -33000⟩ ⟨33001, 0⟩ ⟨px, py⟩ ⟨FI.isDouble iA.1 (by norm_num), FI.isDouble iA.2 (by norm_num)⟩
    ⟨FI.isDouble iB.1 (by norm_num), FI.isDouble iB.2 (by norm_num)⟩ ⟨dx, dy⟩
  have key : ¬ b := by
    intro h
    rcases h3 h with h | h | h | h
    · have := FL.close64_small (by norm_num) h.2
      dsimp only at this
      rw [abs_of_neg (by norm_num)] at this
      norm_num at this
    · have := FL.close64_small (by rw [abs_of_pos] <;> norm_num <;> linarith) h.1
      dsimp only at this
      rw [abs_le] at this
      norm_num at this
      linarith
    · have := FL.close64_small (by rw [abs_of_pos] <;> norm_num <;> linarith) h.1
      dsimp only at this
      rw [abs_le] at this
      norm_num at this
      linarith
    · have hd : Spec.dist ⟨0, -33000⟩ ⟨33001, 0⟩ * Spec.dist ⟨0, -33000⟩ ⟨px, py⟩ ≤ 11 / 10 := by
        refine (abs_of_nonneg (mul_nonneg (dist_nonneg _ _) (dist_nonneg _ _))).symm.le.trans (abs_le_of_sq_le_sq ?_ (by norm_num))
        rw [mul_pow, dist_sq, dist_sq]
        unfold sqDist
        dsimp only
        rw [hpy]
        norm_num
        nlinarith [ex.1, ex.2]
      generalize Spec.dist ⟨0, -33000⟩ ⟨33001, 0⟩ * Spec.dist ⟨0, -33000⟩ ⟨px, py⟩ = g at h hd
      unfold cross at h
      simp only [Pt.sub_x, Pt.sub_y] at h
      have h' := (abs_le.1 h).1
      rw [hpy] at h'
      norm_num at h' hd
      linarith [ex.1, ex.2]
  unfold Line.includesF
  dsimp only
  rw [hb]
  simp [key, pure, Except.pure, bind, Except.bind]

/-- The values of `examples/example1.py` lines 141-151: the projection of `(-1, 5)` on the line through `(0, 0)` and `(2, 2)` is `(2, 2)`, which `includes`
accepts, and the distance is within `10^-10` of `3√2`. -/
example (k : Fma) : ∃ P, Line.projectionF ⟨⟨0, 0⟩, ⟨2, 2⟩, true, true⟩ ⟨-1, 5⟩ = some P ∧ Line.includesF k ⟨⟨0, 0⟩, ⟨2, 2⟩, true, true⟩ P = .ok true ∧
    P = ⟨2, 2⟩ := by
  have iA : IntPt 1000 ⟨0, 0⟩ := ⟨⟨0, by simp, by norm_num⟩, ⟨0, by simp, by norm_num⟩⟩
  have iB : IntPt 1000 ⟨2, 2⟩ := ⟨⟨2, by simp, by norm_num⟩, ⟨2, by simp, by norm_num⟩⟩
  have iM : IntPt 1000 ⟨-1, 5⟩ := ⟨⟨-1, by simp, by norm_num⟩, ⟨5, by simp, by norm_num⟩⟩
  have m : ∀ {P : Pt}, IntPt 1000 P → IntPt 33333 P := fun p => ⟨FI.mono p.1 (by norm_num), FI.mono p.2 (by norm_num)⟩
  have hH : OnLine ⟨0, 0⟩ ⟨2, 2⟩ ⟨2, 2⟩ := ⟨1, by ext <;> norm_num⟩
  have hp : Perp (⟨-1, 5⟩ - ⟨2, 2⟩) (⟨2, 2⟩ - ⟨0, 0⟩) := by norm_num [Perp, dot]
  obtain ⟨P, h1, h2⟩ := C120_projection_included k ⟨⟨0, 0⟩, ⟨2, 2⟩, true, true⟩ ⟨-1, 5⟩ iA iB iM (by simp)
  have h3 := C120_projection ⟨⟨0, 0⟩, ⟨2, 2⟩, true, true⟩ ⟨-1, 5⟩ ⟨2, 2⟩ (m iA) (m iB) (m iM) (by simp) hH hp
  refine ⟨P, h1, h2, ?_⟩
  rw [h1] at h3
  rw [Option.some.inj h3]
  have := FI.fl iB.1 (by norm_num)
  dsimp only at this ⊢
  rw [this]

/-- The mirror image of `(-1, 5)` in that line is computed within `10^-12` of `(5, -1)`. -/
example (k : Fma) : ∃ Q, Line.reflectionF k ⟨⟨0, 0⟩, ⟨2, 2⟩, true, true⟩ ⟨-1, 5⟩ = .ok Q ∧ |Q.x - 5| ≤ 1 / 10 ^ 12 ∧ |Q.y - -1| ≤ 1 / 10 ^ 12 := by
  obtain ⟨Q, h1, -, h2⟩ := C120_reflection k ⟨⟨0, 0⟩, ⟨2, 2⟩, true, true⟩ ⟨-1, 5⟩ ⟨5, -1⟩ ⟨⟨0, by simp, by norm_num⟩, ⟨0, by simp, by norm_num⟩⟩
    ⟨⟨2, by simp, by norm_num⟩, ⟨2, by simp, by norm_num⟩⟩ ⟨⟨-1, by simp, by norm_num⟩, ⟨5, by simp, by norm_num⟩⟩ (by simp)
    ⟨⟨1, by ext <;> norm_num⟩, by norm_num [Perp, dot]⟩
  exact ⟨Q, h1, h2⟩

/-- `includes` on the segment from `(0, 0)` to `(4, 2)`, and on its line; the distance of `(0, 5)` to the line is close to `√20`. -/
example (k : Fma) : (⟨⟨0, 0⟩, ⟨4, 2⟩, false, false⟩ : Line).includesF k ⟨2, 1⟩ true true =
      .ok ((⟨⟨0, 0⟩, ⟨4, 2⟩, false, false⟩ : Line).includes ⟨2, 1⟩ true true) ∧
    (⟨⟨0, 0⟩, ⟨4, 2⟩, true, true⟩ : Line).includesF k ⟨0, 5⟩ = .ok false ∧
    ∃ d, (⟨⟨0, 0⟩, ⟨4, 2⟩, true, true⟩ : Line).distanceF k ⟨0, 5⟩ = .ok d ∧ |d - √20| ≤ 1 / 10 ^ 10 := by
  have i0 : ∀ B : ℕ, 5 ≤ B → IntPt B ⟨0, 0⟩ := fun B hB =>
    ⟨FI.mono ⟨0, by simp, by norm_num⟩ hB, FI.mono ⟨0, by simp, by norm_num⟩ hB⟩
  have i1 : ∀ B : ℕ, 5 ≤ B → IntPt B ⟨4, 2⟩ := fun B hB =>
    ⟨FI.mono ⟨4, by simp, by norm_num⟩ hB, FI.mono ⟨2, by simp, by norm_num⟩ hB⟩
  have i2 : ∀ B : ℕ, 5 ≤ B → IntPt B ⟨2, 1⟩ := fun B hB =>
    ⟨FI.mono ⟨2, by simp, by norm_num⟩ hB, FI.mono ⟨1, by simp, by norm_num⟩ hB⟩
  have i3 : ∀ B : ℕ, 5 ≤ B → IntPt B ⟨0, 5⟩ := fun B hB =>
    ⟨FI.mono ⟨0, by simp, by norm_num⟩ hB, FI.mono ⟨5, by simp, by norm_num⟩ hB⟩
  have hne : (⟨0, 0⟩ : Pt) ≠ ⟨4, 2⟩ := by simp [Pt.ext_iff]
  refine ⟨C120_includes k _ _ (i0 _ (by norm_num)) (i1 _ (by norm_num)) (i2 _ (by norm_num)) hne _ _, ?_, ?_⟩
  · rw [C120_includes_line k _ _ (i0 _ (by norm_num)) (i1 _ (by norm_num)) (i3 _ (by norm_num)) hne, decide_eq_false]
    rintro ⟨t, h⟩
    have hx := congrArg Pt.x h
    have hy := congrArg Pt.y h
    norm_num at hx hy
    linarith
  · have := C120_distance k ⟨⟨0, 0⟩, ⟨4, 2⟩, true, true⟩ ⟨0, 5⟩ ⟨2, 1⟩ (i0 _ (by norm_num)) (i1 _ (by norm_num)) (i3 _ (by norm_num)) hne
      ⟨1 / 2, by ext <;> norm_num⟩ (by norm_num [Perp, dot])
    rwa [show Spec.dist (⟨0, 5⟩ : Pt) ⟨2, 1⟩ = √20 by unfold Spec.dist sqDist; norm_num] at this
