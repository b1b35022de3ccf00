import Verif.Lemmas.Trig
import Mathlib.Analysis.Real.Pi.Bounds

/-!
# Properties of lines and reflections: C03 - C09, C12, C13
-/

open Spec Real

/-! ## C03 -/

/-- C03: `direction_offset` is the normal form of the line. -/
theorem C03_direction_offset (l : Line) (hl : l.Valid) :
    0 ≤ l.direction_offset.1 ∧ l.direction_offset.1 < 2 * π ∧ 0 ≤ l.direction_offset.2 ∧
    ∀ P : Pt, OnLine l.A l.B P ↔
      cos l.direction_offset.1 * P.x + sin l.direction_offset.1 * P.y = l.direction_offset.2 := by
  have hne := ne_of_not_allclose hl
  have hpi := pi_pos
  unfold Line.direction_offset
  dsimp only
  split_ifs with h1 h2 h3
  · have hy : l.B.y - l.A.y ≠ 0 := by
      intro h; apply hne; ext
      · exact h1
      · linarith
    refine ⟨le_refl _, by positivity, h2.le, fun P => ?_⟩
    rw [onLine_iff_cross hne]
    simp only [cross, Pt.sub_x, Pt.sub_y, h1, sub_self, zero_mul, zero_sub, cos_zero, sin_zero]
    constructor
    · intro h
      have : P.x - l.B.x = 0 := by
        rcases mul_eq_zero.1 (neg_eq_zero.1 h) with h | h
        · exact absurd h hy
        · exact h
      linarith
    · intro h
      have : P.x - l.B.x = 0 := by linarith
      rw [this]; ring
  · have hy : l.B.y - l.A.y ≠ 0 := by
      intro h; apply hne; ext
      · exact h1
      · linarith
    refine ⟨hpi.le, by simp only; linarith, by simp only; linarith, fun P => ?_⟩
    rw [onLine_iff_cross hne]
    simp only [cross, Pt.sub_x, Pt.sub_y, h1, sub_self, zero_mul, zero_sub, cos_pi, sin_pi]
    constructor
    · intro h
      have : P.x - l.B.x = 0 := by
        rcases mul_eq_zero.1 (neg_eq_zero.1 h) with h | h
        · exact absurd h hy
        · exact h
      linarith
    · intro h
      have : P.x - l.B.x = 0 := by linarith
      rw [this]; ring
  all_goals
    have hx : l.B.x - l.A.x ≠ 0 := fun h => h1 (by linarith)
    have hxy : l.B.y - l.A.y ≠ 0 ∨ l.B.x - l.A.x ≠ 0 := Or.inr hx
    have hpos : 0 < (l.B.y - l.A.y) * (l.B.y - l.A.y) + (l.B.x - l.A.x) * (l.B.x - l.A.x) := by
      nlinarith [mul_self_pos.2 hx, mul_self_nonneg (l.B.y - l.A.y)]
    have hr := sqrt_pos.2 hpos
    have hc := cos_atan2 hxy
    have hs := sin_atan2 (l.B.x - l.A.x) (l.B.y - l.A.y)
    set r := sqrt ((l.B.y - l.A.y) * (l.B.y - l.A.y) + (l.B.x - l.A.x) * (l.B.x - l.A.x)) with hrdef
    refine ⟨pyMod_nonneg _ (by positivity), pyMod_lt _ (by positivity), by simp only; linarith, fun P => ?_⟩
    rw [onLine_iff_cross hne]
    simp only [cos_pyMod, sin_pyMod, cos_add_pi, sin_add_pi, cos_neg, sin_neg, hc, hs, cross, Pt.sub_x, Pt.sub_y]
    constructor
    · intro h
      field_simp
      first | linear_combination h | linear_combination -h
    · intro h
      field_simp at h
      first | linear_combination h | linear_combination -h

example : (⟨⟨1, 2⟩, ⟨3, 5⟩, true, true⟩ : Line).Valid := by
  unfold Line.Valid allclose npClose; norm_num

/-! ## C04 -/

/-- Uniqueness of the normal form of a line, up to reversing the normal of a line through the origin. -/
theorem normal_form_unique {A B A' B' : Pt} {d o d' o' : ℝ} (ho : 0 ≤ o) (ho' : 0 ≤ o')
    (h : ∀ P : Pt, OnLine A B P ↔ cos d * P.x + sin d * P.y = o)
    (h' : ∀ P : Pt, OnLine A' B' P ↔ cos d' * P.x + sin d' * P.y = o')
    (hs : ∀ P : Pt, OnLine A B P ↔ OnLine A' B' P) : o = o' ∧ pyMod d π = pyMod d' π := by
  have key : ∀ P : Pt, cos d * P.x + sin d * P.y = o ↔ cos d' * P.x + sin d' * P.y = o' := fun P => by
    rw [← h, ← h', hs]
  have e1 := sin_sq_add_cos_sq d
  have e2 := sin_sq_add_cos_sq d'
  have k1 := (key ⟨o * cos d, o * sin d⟩).1 (by simp only; linear_combination o * e1)
  have k2 := (key ⟨o * cos d - sin d, o * sin d + cos d⟩).1 (by simp only; linear_combination o * e1)
  simp only at k1 k2
  have hsin : sin (d - d') = 0 := by
    rw [sin_sub]; linear_combination k1 - k2
  have hcos : o * cos (d - d') = o' := by rw [cos_sub]; linear_combination k1
  have hcc : cos (d - d') ^ 2 = 1 := by
    have := sin_sq_add_cos_sq (d - d'); rw [hsin] at this; linarith
  refine ⟨?_, ?_⟩
  · have h2 : o ^ 2 = o' ^ 2 := by
      rw [← hcos]; linear_combination -(o ^ 2) * hcc
    nlinarith
  · obtain ⟨n, hn⟩ := sin_eq_zero_iff.1 hsin
    have : d = d' + n * π := by linarith
    rw [this, pyMod_add_int_mul _ pi_ne_zero]

/-- C04 (first half): two lines with the same points are reported equal. -/
theorem C04_is_equal_complete (l1 l2 : Line) (h1 : l1.Valid) (h2 : l2.Valid)
    (hs : ∀ P : Pt, OnLine l1.A l1.B P ↔ OnLine l2.A l2.B P) : l1.is_equal l2 := by
  obtain ⟨-, -, a3, a4⟩ := C03_direction_offset l1 h1
  obtain ⟨-, -, b3, b4⟩ := C03_direction_offset l2 h2
  obtain ⟨ho, hd⟩ := normal_form_unique a3 b3 a4 b4 hs
  unfold Line.is_equal
  dsimp only
  rw [ho, hd, if_pos (approx_equal_refl _)]
  exact approx_equal_refl _

/-- The line `x = 1`. -/
noncomputable def lineX1 : Line := ⟨⟨1, 0⟩, ⟨1, 1⟩, true, true⟩
/-- The line `x = -1`. -/
noncomputable def lineXm1 : Line := ⟨⟨-1, 0⟩, ⟨-1, 1⟩, true, true⟩

/-- C04 (second half is false): the parallel lines `x = 1` and `x = -1`, which have no common point, are
reported equal. -/
theorem C04_is_equal_unsound : lineX1.Valid ∧ lineXm1.Valid ∧ lineX1.is_equal lineXm1 ∧
    ¬ ∃ P, OnLine lineX1.A lineX1.B P ∧ OnLine lineXm1.A lineXm1.B P := by
  refine ⟨?_, ?_, ?_, ?_⟩
  · unfold Line.Valid allclose npClose lineX1; norm_num
  · unfold Line.Valid allclose npClose lineXm1; norm_num
  · have e1 : lineX1.direction_offset = (0, 1) := by
      simp [Line.direction_offset, lineX1]
    have e2 : lineXm1.direction_offset = (π, 1) := by
      have : ¬ ((-1 : ℝ) > 0) := by norm_num
      simp [Line.direction_offset, lineXm1, this]
    have e3 : pyMod π π = 0 := by simp [pyMod, pi_ne_zero]
    have e4 : pyMod 0 π = 0 := by simp [pyMod]
    unfold Line.is_equal
    dsimp only
    rw [e1, e2]
    dsimp only
    rw [if_pos (approx_equal_refl _), e3, e4]
    exact approx_equal_refl _
  · rintro ⟨P, ⟨t, h⟩, ⟨s, h'⟩⟩
    have e1 := congrArg Pt.x h
    have e2 := congrArg Pt.x h'
    simp [lineX1, lineXm1] at e1 e2
    linarith

/-- C04 (second half, general failure): a line not through the origin and its image by the central symmetry about
the origin are always reported equal, and they are disjoint. -/
theorem C04_symmetric_lines_counterexample (l : Line) (hl : l.Valid) (h0 : ¬ OnLine l.A l.B ⟨0, 0⟩)
    (hl' : (⟨-l.A, -l.B, true, true⟩ : Line).Valid) :
    l.is_equal ⟨-l.A, -l.B, true, true⟩ ∧ ¬ ∃ P, OnLine l.A l.B P ∧ OnLine (-l.A) (-l.B) P := by
  obtain ⟨-, -, a3, a4⟩ := C03_direction_offset l hl
  obtain ⟨-, -, b3, b4⟩ := C03_direction_offset _ hl'
  have hneg : ∀ P : Pt, OnLine (-l.A) (-l.B) P ↔ OnLine l.A l.B (-P) := by
    intro P
    constructor
    · rintro ⟨t, h⟩; exact ⟨t, by rw [h]; ext <;> simp <;> ring⟩
    · rintro ⟨t, h⟩
      refine ⟨t, ?_⟩
      have hx := congrArg Pt.x h
      have hy := congrArg Pt.y h
      simp at hx hy
      ext
      · simp; linarith
      · simp; linarith
  have a5 : ∀ P : Pt, OnLine (-l.A) (-l.B) P ↔
      cos (l.direction_offset.1 + π) * P.x + sin (l.direction_offset.1 + π) * P.y = l.direction_offset.2 := by
    intro P
    rw [hneg, a4, cos_add_pi, sin_add_pi]
    simp
  obtain ⟨ho, hd⟩ := normal_form_unique a3 b3 a5 b4 (fun P => Iff.rfl)
  have hd' : pyMod l.direction_offset.1 π =
      pyMod (⟨-l.A, -l.B, true, true⟩ : Line).direction_offset.1 π := by
    rw [← hd]
    have := pyMod_add_int_mul l.direction_offset.1 pi_ne_zero 1
    simp at this
    exact this.symm
  constructor
  · unfold Line.is_equal
    dsimp only
    rw [← ho, ← hd', if_pos (approx_equal_refl _)]
    exact approx_equal_refl _
  · rintro ⟨P, h1, h2⟩
    rw [hneg, a4] at h2
    rw [a4] at h1
    apply h0
    rw [a4]
    simp at h2 ⊢
    linarith

/-- C04 (second half, where it holds): if the two lines are reported equal and their normal directions differ by
at most one radian, then directions and offsets agree up to the tolerances.  Missing for the full claim: the
directions may also differ by about `π`, and then the lines are far apart
(`C04_symmetric_lines_counterexample`). -/
theorem C04_is_equal_sound_partial (l1 l2 : Line) (h1 : l1.Valid) (h2 : l2.Valid)
    (he : l1.is_equal l2) (hd : |l1.direction_offset.1 - l2.direction_offset.1| ≤ 1) :
    |l1.direction_offset.1 - l2.direction_offset.1| ≤ 1 / 10 ^ 4 ∧
    |l1.direction_offset.2 - l2.direction_offset.2| ≤ 1 / 10 ^ 4 * (1 + l2.direction_offset.2) := by
  obtain ⟨a1, a2, a3, -⟩ := C03_direction_offset l1 h1
  obtain ⟨b1, b2, b3, -⟩ := C03_direction_offset l2 h2
  have p1 := pi_gt_three
  have p2 := pi_lt_four
  unfold Line.is_equal at he
  dsimp only at he
  set d1 := l1.direction_offset.1
  set d2 := l2.direction_offset.1
  set o1 := l1.direction_offset.2
  set o2 := l2.direction_offset.2
  split_ifs at he with ha
  · have m1 := pyMod_nonneg d1 pi_pos
    have m2 := pyMod_nonneg d2 pi_pos
    have n1 := pyMod_lt d1 pi_pos
    have n2 := pyMod_lt d2 pi_pos
    have hb : |pyMod d1 π - pyMod d2 π| ≤ 1 / 10 ^ 4 := by
      have := approx_equal_bound he
      have h3 : max |pyMod d1 π| |pyMod d2 π| ≤ 4 := by
        rw [abs_of_nonneg m1, abs_of_nonneg m2]; apply max_le <;> linarith
      linarith
    have hk : pyMod d1 π - pyMod d2 π = d1 - d2 - π * ((⌊d1 / π⌋ - ⌊d2 / π⌋ : ℤ) : ℝ) := by
      unfold pyMod; push_cast; ring
    have hk0 : (⌊d1 / π⌋ - ⌊d2 / π⌋ : ℤ) = 0 := by
      by_contra hne
      rw [abs_le] at hb hd
      rcases lt_or_gt_of_ne hne with h | h
      · have : (⌊d1 / π⌋ - ⌊d2 / π⌋ : ℤ) ≤ -1 := by omega
        have : ((⌊d1 / π⌋ - ⌊d2 / π⌋ : ℤ) : ℝ) ≤ -1 := by exact_mod_cast this
        nlinarith
      · have : (1 : ℤ) ≤ (⌊d1 / π⌋ - ⌊d2 / π⌋ : ℤ) := by omega
        have : (1 : ℝ) ≤ ((⌊d1 / π⌋ - ⌊d2 / π⌋ : ℤ) : ℝ) := by exact_mod_cast this
        nlinarith
    rw [hk, hk0] at hb
    simp only [Int.cast_zero, mul_zero, sub_zero] at hb
    refine ⟨hb, ?_⟩
    have := approx_equal_bound ha
    rw [abs_of_nonneg a3, abs_of_nonneg b3] at this
    rcases le_total o1 o2 with h | h
    · rw [max_eq_right h] at this; linarith
    · rw [max_eq_left h] at this
      rw [abs_of_nonneg (by linarith)] at this ⊢
      linarith
  · obtain ⟨c1, c2⟩ := he
    unfold npClose at c1 c2
    rw [abs_of_nonneg b1] at c1
    rw [abs_of_nonneg b3] at c2
    constructor <;> linarith

example : (⟨⟨1, 2⟩, ⟨4, -7⟩, true, true⟩ : Line).Valid ∧
    ((⟨⟨1, 2⟩, ⟨4, -7⟩, true, true⟩ : Line).is_equal ⟨⟨1, 2⟩, ⟨4, -7⟩, true, true⟩) := by
  have hv : (⟨⟨1, 2⟩, ⟨4, -7⟩, true, true⟩ : Line).Valid := by
    unfold Line.Valid allclose npClose; norm_num
  exact ⟨hv, C04_is_equal_complete _ _ hv hv (fun _ => Iff.rfl)⟩

/-! ## C05 -/

/-- C05: `includes` with default arguments. -/
theorem C05_includes (l : Line) (hl : l.Valid) (M : Pt) :
    l.includes M = true ↔ OnLine l.A l.B M ∨ allclose l.A M ∨ allclose l.B M := by
  have := collinear_of_valid hl M
  unfold Line.includes
  by_cases h : collinear_ l.A l.B M
  · simp [h]; tauto
  · simp [h]; tauto

/-! ## C06 -/

/-- The set of points a `Line` object stands for according to its flags (documentation of `Line.show`,
geometry.py 79-86). -/
def LineSet (l : Line) (P : Pt) : Prop :=
  match l.extendA, l.extendB with
  | true, true => OnLine l.A l.B P
  | true, false => OnRay l.B l.A P
  | false, true => OnRay l.A l.B P
  | false, false => OnSegment l.A l.B P

/-- C06: `includes(strict=True)` decides the segment, half-line or line, away from the end points. -/
theorem C06_includes_strict (l : Line) (hl : l.Valid) (M : Pt)
    (hA : ¬ allclose l.A M) (hB : ¬ allclose l.B M) :
    l.includes M (strict := true) = true ↔ LineSet l M := by
  have hne := ne_of_not_allclose hl
  have hAM := ne_of_not_allclose hA
  have hBM := ne_of_not_allclose hB
  have hc := collinear_of_valid hl M
  simp only [hA, hB, or_false, false_or] at hc
  have hpos := sqDist_pos hne
  by_cases h : OnLine l.A l.B M
  · have hc' := hc.2 h
    obtain ⟨t, ht⟩ := h
    have hMx : M.x = l.A.x + t * (l.B.x - l.A.x) := by rw [ht]; simp
    have hMy : M.y = l.A.y + t * (l.B.y - l.A.y) := by rw [ht]; simp
    have t0 : t ≠ 0 := by
      rintro rfl; apply hAM; rw [ht]; ext <;> simp
    have t1 : t ≠ 1 := by
      rintro rfl; apply hBM; rw [ht]; ext <;> simp
    have huniq : ∀ s : ℝ, M = l.A + s • (l.B - l.A) → s = t := by
      intro s hs
      have h1 : (s - t) * (l.B.x - l.A.x) = 0 := by
        have := congrArg Pt.x hs; simp at this; rw [hMx] at this; linear_combination -this
      have h2 : (s - t) * (l.B.y - l.A.y) = 0 := by
        have := congrArg Pt.y hs; simp at this; rw [hMy] at this; linear_combination -this
      have : (s - t) * sqDist l.A l.B = 0 := by
        unfold sqDist; linear_combination (l.B.x - l.A.x) * h1 + (l.B.y - l.A.y) * h2
      rcases mul_eq_zero.1 this with h | h
      · linarith
      · exact absurd h hpos.ne'
    unfold Line.includes LineSet
    cases hea : l.extendA <;> cases heb : l.extendB <;> simp [hc']
    · -- segment
      have : dot_ (l.A - M) (l.B - M) = t * (t - 1) * sqDist l.A l.B := by
        simp only [dot_, sqDist, Pt.sub_x, Pt.sub_y, hMx, hMy]; ring
      rw [this]
      constructor
      · intro h
        have h' : t * (t - 1) ≤ 0 := by
          by_contra hcon
          push Not at hcon
          nlinarith [mul_pos hcon hpos]
        refine ⟨t, by nlinarith, by nlinarith, ht⟩
      · rintro ⟨s, h0, h1, hs⟩
        rw [huniq s hs] at h0 h1
        nlinarith [mul_nonneg (mul_nonneg h0 (sub_nonneg.2 h1)) hpos.le]
    · -- half-line with origin A
      have ex : (M.x - l.A.x) * (l.B.x - l.A.x) = t * (l.B.x - l.A.x) ^ 2 := by rw [hMx]; ring
      have ey : (M.y - l.A.y) * (l.B.y - l.A.y) = t * (l.B.y - l.A.y) ^ 2 := by rw [hMy]; ring
      rw [ex, ey]
      constructor
      · intro h
        refine ⟨t, ?_, ht⟩
        rcases h with h | h
        · exact (pos_of_mul_pos_left h (sq_nonneg _)).le
        · exact (pos_of_mul_pos_left h (sq_nonneg _)).le
      · rintro ⟨s, h0, hs⟩
        rw [huniq s hs] at h0
        have tp : 0 < t := lt_of_le_of_ne h0 (Ne.symm t0)
        by_contra hcon
        push Not at hcon
        have := mul_pos tp hpos
        unfold sqDist at this
        nlinarith [hcon.1, hcon.2]
    · -- half-line with origin B
      have ex : (M.x - l.B.x) * (l.A.x - l.B.x) = (1 - t) * (l.B.x - l.A.x) ^ 2 := by rw [hMx]; ring
      have ey : (M.y - l.B.y) * (l.A.y - l.B.y) = (1 - t) * (l.B.y - l.A.y) ^ 2 := by rw [hMy]; ring
      rw [ex, ey]
      constructor
      · intro h
        refine ⟨1 - t, ?_, by rw [ht]; ext <;> simp <;> ring⟩
        rcases h with h | h
        · exact (pos_of_mul_pos_left h (sq_nonneg _)).le
        · exact (pos_of_mul_pos_left h (sq_nonneg _)).le
      · rintro ⟨s, h0, hs⟩
        have := huniq (1 - s) (by rw [hs]; ext <;> simp <;> ring)
        have tp : 0 < 1 - t := lt_of_le_of_ne (by linarith) (fun h => t1 (by linarith))
        by_contra hcon
        push Not at hcon
        have := mul_pos tp hpos
        unfold sqDist at this
        nlinarith [hcon.1, hcon.2]
    · exact ⟨t, ht⟩
  · have hcf : ¬ collinear_ l.A l.B M := fun h' => h (hc.1 h')
    have hls : ¬ LineSet l M := by
      unfold LineSet
      cases l.extendA <;> cases l.extendB <;> simp only
      · rintro ⟨t, -, -, e⟩; exact h ⟨t, e⟩
      · rintro ⟨t, -, e⟩; exact h ⟨t, e⟩
      · rintro ⟨t, -, e⟩; exact h (onLine_comm.1 ⟨t, e⟩)
      · exact h
    unfold Line.includes
    simp [hcf, hls]

/-- The line used in the examples, through `(0, 0)` and `(4, 2)`, and its point, half line and segment. -/
theorem Ex.valid (a b : Bool) : (⟨⟨0, 0⟩, ⟨4, 2⟩, a, b⟩ : Line).Valid := by
  unfold Line.Valid allclose npClose; norm_num

/-- `(-2, -1)` is on the line but is outside of the half line from `(0, 0)` through `(4, 2)`; `(8, 4)` is inside. -/
example : (⟨⟨0, 0⟩, ⟨4, 2⟩, false, true⟩ : Line).includes ⟨-2, -1⟩ (strict := true) = false ∧
    (⟨⟨0, 0⟩, ⟨4, 2⟩, false, true⟩ : Line).includes ⟨8, 4⟩ (strict := true) = true ∧
    (⟨⟨0, 0⟩, ⟨4, 2⟩, false, false⟩ : Line).includes ⟨8, 4⟩ (strict := true) = false := by
  refine ⟨?_, ?_, ?_⟩
  · rw [← Bool.not_eq_true, C06_includes_strict _ (Ex.valid _ _) _ (by unfold allclose npClose; norm_num [abs_of_pos])
      (by unfold allclose npClose; norm_num [abs_of_pos])]
    rintro ⟨t, h1, h⟩
    have hx := congrArg Pt.x h
    simp at hx h1
    linarith
  · rw [C06_includes_strict _ (Ex.valid _ _) _ (by unfold allclose npClose; norm_num [abs_of_pos])
      (by unfold allclose npClose; norm_num [abs_of_pos])]
    exact ⟨2, by norm_num, by ext <;> simp <;> norm_num⟩
  · rw [← Bool.not_eq_true, C06_includes_strict _ (Ex.valid _ _) _ (by unfold allclose npClose; norm_num [abs_of_pos])
      (by unfold allclose npClose; norm_num [abs_of_pos])]
    rintro ⟨t, -, h1, h⟩
    have hx := congrArg Pt.x h
    simp at hx h1
    linarith

/-- C06, outside of the claim: the origin of a half-line belongs to it but `includes(strict=True)` says no. -/
theorem C06_halfline_origin_excluded (A B : Pt) :
    LineSet ⟨A, B, false, true⟩ A ∧
      (⟨A, B, false, true⟩ : Line).includes A (strict := true) = false := by
  constructor
  · exact ⟨0, le_refl _, by ext <;> simp⟩
  · unfold Line.includes
    simp

example : (⟨⟨0, 0⟩, ⟨4, 2⟩, false, true⟩ : Line).Valid ∧ ¬ allclose (⟨0, 0⟩ : Pt) ⟨2, 1⟩ ∧
    ¬ allclose (⟨4, 2⟩ : Pt) ⟨2, 1⟩ := by
  unfold Line.Valid allclose npClose; norm_num

/-! ## C07 -/

/-- C07: `projection` returns the foot of the perpendicular. -/
theorem C07_projection (l : Line) (hl : l.Valid) (M : Pt) :
    ∃ H, l.projection M = some H ∧ OnLine l.A l.B H ∧ Perp (M - H) (l.B - l.A) := by
  have hne := ne_of_not_allclose hl
  have hpos := sqDist_pos hne
  unfold Line.projection
  dsimp only
  cases h : line_line_intersection_ l.A l.B M (M + ⟨-(l.B - l.A).y, (l.B - l.A).x⟩) with
  | none =>
    rw [lli_none_iff] at h
    simp only [cross, Pt.sub_x, Pt.sub_y, Pt.add_x, Pt.add_y] at h
    unfold sqDist at hpos
    nlinarith
  | some H =>
    obtain ⟨-, h2, h3⟩ := lli_some h
    refine ⟨H, rfl, (onLine_iff_cross hne).2 h2, ?_⟩
    simp only [cross, Perp, dot, Pt.sub_x, Pt.sub_y, Pt.add_x, Pt.add_y] at h3 ⊢
    linear_combination h3

/-- The projection of `(0, 5)` on the line through `(0, 0)` and `(4, 2)` is `(2, 1)`. -/
example : (⟨⟨0, 0⟩, ⟨4, 2⟩, true, true⟩ : Line).projection ⟨0, 5⟩ = some ⟨2, 1⟩ := by
  obtain ⟨H, h, ⟨t, rfl⟩, hp⟩ := C07_projection _ (Ex.valid true true) ⟨0, 5⟩
  rw [h]
  simp only [Perp, dot, Pt.sub_x, Pt.sub_y, Pt.add_x, Pt.add_y, Pt.smul_x, Pt.smul_y] at hp
  have : t = 1 / 2 := by linarith
  subst this
  congr 1
  ext <;> norm_num

/-- C07: `distance` is the minimal distance to the points of the line, and it is attained. -/
theorem C07_distance (l : Line) (hl : l.Valid) (M : Pt) :
    ∃ d, l.distance M = .ok d ∧ (∃ H, OnLine l.A l.B H ∧ dist M H = d) ∧
      ∀ P, OnLine l.A l.B P → d ≤ dist M P := by
  obtain ⟨H, h1, h2, h3⟩ := C07_projection l hl M
  refine ⟨dist M H, ?_, ⟨H, h2, rfl⟩, ?_⟩
  · unfold Line.distance; rw [h1]; simp [distance_eq]
  · intro P hP
    obtain ⟨t, rfl⟩ := hP
    obtain ⟨s, rfl⟩ := h2
    unfold Spec.dist
    apply sqrt_le_sqrt
    have e : sqDist M (l.A + t • (l.B - l.A)) = sqDist M (l.A + s • (l.B - l.A)) +
        ((s - t) * (l.B.x - l.A.x)) ^ 2 + ((s - t) * (l.B.y - l.A.y)) ^ 2 := by
      simp only [Perp, dot, sqDist, Pt.sub_x, Pt.sub_y, Pt.add_x, Pt.add_y, Pt.smul_x, Pt.smul_y] at *
      linear_combination 2 * (s - t) * h3
    rw [e]
    nlinarith [sq_nonneg ((s - t) * (l.B.x - l.A.x)), sq_nonneg ((s - t) * (l.B.y - l.A.y))]

/-- The distance of `(0, 5)` to the line through `(0, 0)` and `(4, 2)` is `√20`, the distance to `(2, 1)`. -/
example : (⟨⟨0, 0⟩, ⟨4, 2⟩, true, true⟩ : Line).distance ⟨0, 5⟩ = .ok (√20) := by
  obtain ⟨d, h, ⟨H, ⟨t, rfl⟩, rfl⟩, hm⟩ := C07_distance _ (Ex.valid true true) ⟨0, 5⟩
  rw [h]
  have h1 := hm ⟨2, 1⟩ ⟨1 / 2, by ext <;> norm_num⟩
  have e : Spec.dist (⟨0, 5⟩ : Pt) ⟨2, 1⟩ = √20 := by unfold Spec.dist; congr 1; unfold sqDist; norm_num
  rw [e] at h1
  congr 1
  refine le_antisymm h1 ?_
  unfold Spec.dist sqDist
  apply Real.sqrt_le_sqrt
  simp only [Pt.add_x, Pt.add_y, Pt.smul_x, Pt.smul_y, Pt.sub_x, Pt.sub_y]
  nlinarith [sq_nonneg (2 * t - 1)]

/-! ## C08 -/

/-- C08: whenever `perpendicular` returns, the result is perpendicular to the line and passes through `M`; off
the line its first point is the foot. -/
theorem C08_perpendicular (l : Line) (hl : l.Valid) (M : Pt) (eH eM : Bool) (p : Line)
    (h : l.perpendicular M eH eM = .ok p) :
    p.Valid ∧ Perp (p.B - p.A) (l.B - l.A) ∧ OnLine p.A p.B M ∧
    (l.includes M = false → OnLine l.A l.B p.A ∧ p.B = M ∧ p.extendA = eH ∧ p.extendB = eM) := by
  have hne := ne_of_not_allclose hl
  unfold Line.perpendicular at h
  dsimp only at h
  split_ifs at h with hi
  · refine ⟨mkLine_valid h, ?_, ?_, by simp [hi]⟩
    · obtain ⟨-, rfl⟩ := mkLine_ok.1 h
      simp [Perp, dot]; ring
    · obtain ⟨-, rfl⟩ := mkLine_ok.1 h
      exact onLine_left _ _
  · cases hH : line_line_intersection_ l.A l.B (M - ⟨-(l.B - l.A).y, (l.B - l.A).x⟩)
        (M + ⟨-(l.B - l.A).y, (l.B - l.A).x⟩) with
    | none => rw [hH] at h; simp at h
    | some H =>
      rw [hH] at h
      obtain ⟨-, h2, h3⟩ := lli_some hH
      refine ⟨mkLine_valid h, ?_, ?_, ?_⟩
      · obtain ⟨-, rfl⟩ := mkLine_ok.1 h
        simp only [cross, Perp, dot, Pt.sub_x, Pt.sub_y, Pt.add_x, Pt.add_y] at h3 ⊢
        linear_combination h3 / 2
      · obtain ⟨-, rfl⟩ := mkLine_ok.1 h
        exact onLine_right _ _
      · obtain ⟨-, rfl⟩ := mkLine_ok.1 h
        exact fun _ => ⟨(onLine_iff_cross hne).2 h2, rfl, rfl, rfl⟩

/-- C08: off the line, `perpendicular` fails exactly when the foot is `np.allclose` to `M`. -/
theorem C08_perpendicular_total (l : Line) (hl : l.Valid) (M : Pt) (eH eM : Bool)
    (hi : l.includes M = false) (H : Pt) (hH : OnLine l.A l.B H) (hp : Perp (M - H) (l.B - l.A)) :
    (allclose H M → l.perpendicular M eH eM = .error (.valueError "`A` and `B` must be distinct.")) ∧
    (¬ allclose H M → l.perpendicular M eH eM = .ok ⟨H, M, eH, eM⟩) := by
  have hne := ne_of_not_allclose hl
  have hpos := sqDist_pos hne
  have hc := (onLine_iff_cross hne).1 hH
  have : line_line_intersection_ l.A l.B (M - ⟨-(l.B - l.A).y, (l.B - l.A).x⟩)
        (M + ⟨-(l.B - l.A).y, (l.B - l.A).x⟩) = some H := by
    cases hI : line_line_intersection_ l.A l.B (M - ⟨-(l.B - l.A).y, (l.B - l.A).x⟩)
        (M + ⟨-(l.B - l.A).y, (l.B - l.A).x⟩) with
    | none =>
      rw [lli_none_iff] at hI
      simp only [cross, Pt.sub_x, Pt.sub_y, Pt.add_x, Pt.add_y] at hI
      unfold sqDist at hpos
      nlinarith
    | some I =>
      obtain ⟨-, h2, h3⟩ := lli_some hI
      simp only [cross, Perp, dot, sqDist, Pt.sub_x, Pt.sub_y, Pt.add_x, Pt.add_y] at *
      have e1 : (l.B.x - l.A.x) * (I.y - H.y) - (l.B.y - l.A.y) * (I.x - H.x) = 0 := by
        linear_combination h2 - hc
      have e2 : (l.B.x - l.A.x) * (I.x - H.x) + (l.B.y - l.A.y) * (I.y - H.y) = 0 := by
        linear_combination hp - h3 / 2
      have f1 : ((l.A.x - l.B.x) ^ 2 + (l.A.y - l.B.y) ^ 2) * (I.x - H.x) = 0 := by
        linear_combination (l.B.x - l.A.x) * e2 - (l.B.y - l.A.y) * e1
      have f2 : ((l.A.x - l.B.x) ^ 2 + (l.A.y - l.B.y) ^ 2) * (I.y - H.y) = 0 := by
        linear_combination (l.B.y - l.A.y) * e2 + (l.B.x - l.A.x) * e1
      congr 1
      ext
      · rcases mul_eq_zero.1 f1 with h | h
        · exact absurd h hpos.ne'
        · linarith
      · rcases mul_eq_zero.1 f2 with h | h
        · exact absurd h hpos.ne'
        · linarith
  unfold Line.perpendicular
  dsimp only
  rw [if_neg (by simp [hi]), this]
  unfold mkLine
  constructor <;> intro h <;> simp [h]

/-- C08: for points that `includes` accepts, `perpendicular` fails exactly when `M` and `M` plus the direction
vector turned by 90 degrees are `np.allclose`. -/
theorem C08_perpendicular_on_line_total (l : Line) (M : Pt) (eH eM : Bool) (hi : l.includes M = true) :
    (∃ p, l.perpendicular M eH eM = .ok p) ↔
      ¬ allclose M ⟨M.x - (l.B.y - l.A.y), M.y + (l.B.x - l.A.x)⟩ := by
  unfold Line.perpendicular
  dsimp only
  rw [if_pos hi]
  have : M + (⟨-(l.B - l.A).y, (l.B - l.A).x⟩ : Pt) = ⟨M.x - (l.B.y - l.A.y), M.y + (l.B.x - l.A.x)⟩ := by
    ext <;> simp; ring
  rw [this]
  unfold mkLine
  split_ifs with h <;> simp [h]

/-- The point `(2, 1)` of the line, and one that is not on it, `(0, 5)`, whose foot is `(2, 1)`. -/
theorem Ex.includes_off (a b : Bool) : (⟨⟨0, 0⟩, ⟨4, 2⟩, a, b⟩ : Line).includes ⟨0, 5⟩ = false := by
  rw [← Bool.not_eq_true, C05_includes _ (Ex.valid a b)]
  rintro (⟨t, h⟩ | h | h)
  · have hx := congrArg Pt.x h
    have hy := congrArg Pt.y h
    simp at hx hy
    rw [hx] at hy; norm_num at hy
  · unfold allclose npClose at h; norm_num at h
  · unfold allclose npClose at h; norm_num [abs_of_pos] at h

/-- The perpendicular through `(0, 5)` is the line through the foot `(2, 1)` and `(0, 5)`, with the flags asked for. -/
example : (⟨⟨0, 0⟩, ⟨4, 2⟩, true, true⟩ : Line).perpendicular ⟨0, 5⟩ true false =
      .ok ⟨⟨2, 1⟩, ⟨0, 5⟩, true, false⟩ ∧
    Perp ((⟨0, 5⟩ : Pt) - ⟨2, 1⟩) ((⟨4, 2⟩ : Pt) - ⟨0, 0⟩) := by
  have h := (C08_perpendicular_total _ (Ex.valid true true) ⟨0, 5⟩ true false (Ex.includes_off _ _) ⟨2, 1⟩
    ⟨1 / 2, by ext <;> norm_num⟩ (by norm_num [Perp, dot])).2
    (by unfold allclose npClose; norm_num [abs_of_pos])
  exact ⟨h, (C08_perpendicular _ (Ex.valid true true) _ _ _ _ h).2.1⟩

/-- A perpendicular through a point of the line is returned too. -/
example : ∃ p, (⟨⟨0, 0⟩, ⟨4, 2⟩, true, true⟩ : Line).perpendicular ⟨2, 1⟩ true true = .ok p ∧
    Perp (p.B - p.A) ((⟨4, 2⟩ : Pt) - ⟨0, 0⟩) ∧ OnLine p.A p.B ⟨2, 1⟩ := by
  have hi : (⟨⟨0, 0⟩, ⟨4, 2⟩, true, true⟩ : Line).includes ⟨2, 1⟩ = true :=
    (C05_includes _ (Ex.valid true true) _).2 (Or.inl ⟨1 / 2, by ext <;> norm_num⟩)
  obtain ⟨p, h⟩ := (C08_perpendicular_on_line_total _ ⟨2, 1⟩ true true hi).2
    (by unfold allclose npClose; norm_num [abs_of_pos])
  exact ⟨p, h, (C08_perpendicular _ (Ex.valid true true) _ _ _ _ h).2.1,
    (C08_perpendicular _ (Ex.valid true true) _ _ _ _ h).2.2.1⟩

/-- C08, a failure: on the vertical line `x = 10^6` through `(10^6, 0)` and `(10^6, 1)`, `perpendicular` raises at
the point `(10^6, 0)` of the line although the perpendicular exists. -/
theorem C08_perpendicular_raises_on_line :
    (⟨⟨10 ^ 6, 0⟩, ⟨10 ^ 6, 1⟩, true, true⟩ : Line).Valid ∧
    (⟨⟨10 ^ 6, 0⟩, ⟨10 ^ 6, 1⟩, true, true⟩ : Line).perpendicular ⟨10 ^ 6, 0⟩ =
      .error (.valueError "`A` and `B` must be distinct.") := by
  have hv : (⟨⟨10 ^ 6, 0⟩, ⟨10 ^ 6, 1⟩, true, true⟩ : Line).Valid := by
    unfold Line.Valid allclose npClose; norm_num
  refine ⟨hv, ?_⟩
  have hi : (⟨⟨10 ^ 6, 0⟩, ⟨10 ^ 6, 1⟩, true, true⟩ : Line).includes ⟨10 ^ 6, 0⟩ = true :=
    (C05_includes _ hv _).2 (Or.inl (onLine_left _ _))
  unfold Line.perpendicular
  dsimp only
  rw [if_pos hi]
  unfold mkLine
  rw [if_pos]
  unfold allclose npClose
  constructor <;> norm_num [abs_of_pos]

example : (⟨⟨0, 0⟩, ⟨4, 2⟩, true, true⟩ : Line).Valid ∧
    (⟨⟨0, 0⟩, ⟨4, 2⟩, true, true⟩ : Line).includes ⟨0, 5⟩ = false ∧
    OnLine ⟨0, 0⟩ ⟨4, 2⟩ ⟨2, 1⟩ ∧ Perp ((⟨0, 5⟩ : Pt) - ⟨2, 1⟩) ((⟨4, 2⟩ : Pt) - ⟨0, 0⟩) ∧
    ¬ allclose ⟨2, 1⟩ ⟨0, 5⟩ := by
  have hv : (⟨⟨0, 0⟩, ⟨4, 2⟩, true, true⟩ : Line).Valid := by
    unfold Line.Valid allclose npClose; norm_num
  refine ⟨hv, ?_, ⟨1 / 2, by ext <;> simp <;> norm_num⟩, ?_, ?_⟩
  · rw [← Bool.not_eq_true, C05_includes _ hv]
    rintro (⟨t, h⟩ | h | h)
    · have hx := congrArg Pt.x h
      have hy := congrArg Pt.y h
      simp at hx hy
      rw [hx] at hy; norm_num at hy
    · unfold allclose npClose at h; norm_num at h
    · unfold allclose npClose at h; norm_num [abs_of_pos] at h
  · simp [Perp, dot]; norm_num
  · unfold allclose npClose; norm_num [abs_of_pos]

/-! ## C09 -/

/-- A point has only one mirror image. -/
theorem mirror_unique {A B P Q Q' : Pt} (h : A ≠ B) (h1 : IsMirror A B P Q) (h2 : IsMirror A B P Q') : Q = Q' := by
  obtain ⟨⟨t, e1⟩, p1⟩ := h1
  obtain ⟨⟨s, e2⟩, p2⟩ := h2
  have hpos := sqDist_pos h
  have x1 := congrArg Pt.x e1
  have y1 := congrArg Pt.y e1
  have x2 := congrArg Pt.x e2
  have y2 := congrArg Pt.y e2
  simp only [Perp, dot, Pt.sub_x, Pt.sub_y, Pt.add_x, Pt.add_y, Pt.div_x, Pt.div_y, Pt.smul_x, Pt.smul_y] at *
  have : (t - s) * sqDist A B = 0 := by
    unfold sqDist; linear_combination (-(B.x - A.x)) * (x1 - x2) - (B.y - A.y) * (y1 - y2) + (p1 - p2) / 2
  rcases mul_eq_zero.1 this with h' | h'
  · have : t = s := by linarith
    subst this
    ext <;> linarith
  · exact absurd h' hpos.ne'

/-- C09: what `Reflection.transform` returns.  Every successful call returns the mirror image, except for points
that `includes` accepts (points of the line and points `np.allclose` to one of the defining points), which are
returned unchanged. -/
theorem C09_reflection_mirror (R : Reflection) (hR : R.line.Valid) (P Q : Pt) (h : R.transformPt P = .ok Q) :
    (R.line.includes P = true → Q = P) ∧ (R.line.includes P = false → IsMirror R.line.A R.line.B P Q) := by
  unfold Reflection.transformPt at h
  split_ifs at h with hi
  · injection h with h; subst h; simp [hi]
  · simp only [Bool.not_eq_true] at hi
    refine ⟨by simp [hi], fun _ => ?_⟩
    cases hp : R.line.perpendicular P false false with
    | error e => rw [hp] at h; simp [bind, Except.bind] at h
    | ok p =>
      rw [hp] at h
      simp [bind, Except.bind, pure, Except.pure] at h
      obtain ⟨hv, h1, h2, h3⟩ := C08_perpendicular _ hR _ _ _ _ hp
      obtain ⟨h4, h5, -⟩ := h3 hi
      subst h
      constructor
      · have : (P + (P + (2 : ℝ) • (p.A - p.B))) / (2 : ℝ) = p.A := by
          rw [h5]; ext <;> simp <;> ring
        rw [this]; exact h4
      · simp only [Perp, dot, Pt.sub_x, Pt.sub_y, Pt.add_x, Pt.add_y, Pt.smul_x, Pt.smul_y] at h1 ⊢
        linear_combination (-2) * h1

/-- C09: points exactly on the line are fixed. -/
theorem C09_reflection_fixes_line (R : Reflection) (hR : R.line.Valid) (P : Pt)
    (hP : OnLine R.line.A R.line.B P) : R.transformPt P = .ok P ∧ IsMirror R.line.A R.line.B P P := by
  refine ⟨?_, ?_⟩
  · unfold Reflection.transformPt
    rw [if_pos ((C05_includes _ hR _).2 (Or.inl hP))]
  · constructor
    · have : (P + P) / (2 : ℝ) = P := by ext <;> simp
      rw [this]; exact hP
    · simp [Perp, dot]

/-- C09: off the line, `transform` succeeds exactly when the foot of the perpendicular is not `np.allclose` to
the point, and then it returns the mirror image. -/
theorem C09_reflection_total (R : Reflection) (hR : R.line.Valid) (P : Pt)
    (hi : R.line.includes P = false) (H : Pt) (hH : OnLine R.line.A R.line.B H)
    (hp : Perp (P - H) (R.line.B - R.line.A)) :
    (allclose H P → ∃ e, R.transformPt P = .error e) ∧
    (¬ allclose H P → ∃ Q, R.transformPt P = .ok Q ∧ IsMirror R.line.A R.line.B P Q) := by
  obtain ⟨t1, t2⟩ := C08_perpendicular_total R.line hR P false false hi H hH hp
  constructor
  · intro h
    unfold Reflection.transformPt
    rw [if_neg (by simp [hi]), t1 h]
    exact ⟨_, rfl⟩
  · intro h
    have e : R.transformPt P = .ok (P + (2 : ℝ) • (H - P)) := by
      unfold Reflection.transformPt
      rw [if_neg (by simp [hi]), t2 h]; rfl
    exact ⟨_, e, (C09_reflection_mirror R hR P _ e).2 hi⟩

/-- C09: reflecting twice gives back the point whenever both reflections return a value and the points are not
`np.allclose` to a defining point of the line without being on it.  Missing from the full claim: the points that are
`np.allclose` to a defining point, for which it is false (`C09_involution_counterexample`). -/
theorem C09_reflection_involutive_partial (R : Reflection) (hR : R.line.Valid) (P Q P' : Pt)
    (h1 : R.transformPt P = .ok Q) (h2 : R.transformPt Q = .ok P')
    (hPc : R.line.includes P = true → OnLine R.line.A R.line.B P)
    (hQc : R.line.includes Q = true → OnLine R.line.A R.line.B Q) : P' = P := by
  have hne := ne_of_not_allclose hR
  have mir : ∀ X Y : Pt, R.transformPt X = .ok Y → (R.line.includes X = true → OnLine R.line.A R.line.B X) →
      IsMirror R.line.A R.line.B X Y := by
    intro X Y h hc
    obtain ⟨a, b⟩ := C09_reflection_mirror R hR X Y h
    cases hi : R.line.includes X with
    | true => rw [a hi]; exact (C09_reflection_fixes_line R hR X (hc hi)).2
    | false => exact b hi
  have m1 := mir P Q h1 hPc
  have m2 := mir Q P' h2 hQc
  refine (mirror_unique hne ?_ m2).symm
  obtain ⟨⟨t, e⟩, p⟩ := m1
  refine ⟨⟨t, ?_⟩, ?_⟩
  · rw [← e]; ext <;> simp <;> ring
  · simp only [Perp, dot, Pt.sub_x, Pt.sub_y] at p ⊢; linarith

/-- C09: the reflection preserves distances. -/
theorem C09_reflection_isometry {A B P Q P' Q' : Pt} (hne : A ≠ B) (h1 : IsMirror A B P P')
    (h2 : IsMirror A B Q Q') : sqDist P' Q' = sqDist P Q := by
  obtain ⟨c1, p1⟩ := h1
  obtain ⟨c2, p2⟩ := h2
  rw [onLine_iff_cross hne] at c1 c2
  have hpos := sqDist_pos hne
  simp only [Perp, dot, cross, sqDist, Pt.sub_x, Pt.sub_y, Pt.add_x, Pt.add_y, Pt.div_x, Pt.div_y] at *
  obtain ⟨u, hu⟩ : ∃ u, u = B.x - A.x := ⟨_, rfl⟩
  obtain ⟨v, hv⟩ : ∃ v, v = B.y - A.y := ⟨_, rfl⟩
  have hpos' : 0 < u ^ 2 + v ^ 2 := by rw [hu, hv]; linarith
  obtain ⟨sx, hsx⟩ : ∃ z, z = (P.x - Q.x) := ⟨_, rfl⟩
  obtain ⟨sy, hsy⟩ : ∃ z, z = (P.y - Q.y) := ⟨_, rfl⟩
  obtain ⟨tx, htx⟩ : ∃ z, z = (P'.x - Q'.x) := ⟨_, rfl⟩
  obtain ⟨ty, hty⟩ : ∃ z, z = (P'.y - Q'.y) := ⟨_, rfl⟩
  have a : u * (sy + ty) - v * (sx + tx) = 0 := by rw [hsx, hsy, htx, hty, hu, hv]; linear_combination 2 * c1 - 2 * c2
  have b : (tx - sx) * u + (ty - sy) * v = 0 := by rw [hsx, hsy, htx, hty, hu, hv]; linear_combination p1 - p2
  rw [← hsx, ← hsy, ← htx, ← hty]
  have : (u ^ 2 + v ^ 2) * ((tx ^ 2 + ty ^ 2) - (sx ^ 2 + sy ^ 2)) = 0 := by
    linear_combination (u * (tx + sx) + v * (ty + sy)) * b + (u * (ty - sy) - v * (tx - sx)) * a
  rcases mul_eq_zero.1 this with h | h
  · exact absurd h hpos'.ne'
  · linarith

/-- The mirror image of `(0, 5)` in the line through `(0, 0)` and `(4, 2)`. -/
theorem Ex.mirror : IsMirror (⟨0, 0⟩ : Pt) ⟨4, 2⟩ ⟨0, 5⟩ ⟨4, -3⟩ :=
  ⟨⟨1 / 2, by ext <;> norm_num⟩, by norm_num [Perp, dot]⟩

/-- The reflection of `(0, 5)` in the line through `(0, 0)` and `(4, 2)` is `(4, -3)`, and the reflection of that is
`(0, 5)`; the point `(2, 1)` of the line is left where it is, and the distances to it are the same. -/
example : (⟨⟨⟨0, 0⟩, ⟨4, 2⟩, true, true⟩⟩ : Reflection).transformPt ⟨0, 5⟩ = .ok ⟨4, -3⟩ ∧
    (⟨⟨⟨0, 0⟩, ⟨4, 2⟩, true, true⟩⟩ : Reflection).transformPt ⟨4, -3⟩ = .ok ⟨0, 5⟩ ∧
    (⟨⟨⟨0, 0⟩, ⟨4, 2⟩, true, true⟩⟩ : Reflection).transformPt ⟨2, 1⟩ = .ok ⟨2, 1⟩ ∧
    sqDist (⟨4, -3⟩ : Pt) ⟨2, 1⟩ = sqDist (⟨0, 5⟩ : Pt) ⟨2, 1⟩ := by
  have hne := ne_of_not_allclose (Ex.valid true true)
  obtain ⟨Q, hQ, hm⟩ := (C09_reflection_total ⟨⟨⟨0, 0⟩, ⟨4, 2⟩, true, true⟩⟩ (Ex.valid _ _) ⟨0, 5⟩
    (Ex.includes_off _ _) ⟨2, 1⟩ ⟨1 / 2, by ext <;> norm_num⟩ (by norm_num [Perp, dot])).2
    (by unfold allclose npClose; norm_num [abs_of_pos])
  have eQ : Q = ⟨4, -3⟩ := mirror_unique hne ((C09_reflection_mirror _ (Ex.valid _ _) _ _ hQ).2 (Ex.includes_off _ _))
    Ex.mirror
  subst eQ
  have hi : (⟨⟨0, 0⟩, ⟨4, 2⟩, true, true⟩ : Line).includes ⟨4, -3⟩ = false := by
    rw [← Bool.not_eq_true, C05_includes _ (Ex.valid true true)]
    rintro (⟨t, h⟩ | h | h)
    · have hx := congrArg Pt.x h
      have hy := congrArg Pt.y h
      simp at hx hy
      linarith
    · unfold allclose npClose at h; norm_num at h
    · unfold allclose npClose at h; norm_num [abs_of_pos] at h
  obtain ⟨P', hP', -⟩ := (C09_reflection_total ⟨⟨⟨0, 0⟩, ⟨4, 2⟩, true, true⟩⟩ (Ex.valid _ _) ⟨4, -3⟩
    hi ⟨2, 1⟩ ⟨1 / 2, by ext <;> norm_num⟩ (by norm_num [Perp, dot])).2
    (by unfold allclose npClose; norm_num [abs_of_pos])
  have e := C09_reflection_involutive_partial _ (Ex.valid _ _) _ _ _ hQ hP'
    (fun h => by rw [Ex.includes_off] at h; cases h) (fun h => by rw [hi] at h; cases h)
  have f := C09_reflection_fixes_line ⟨⟨⟨0, 0⟩, ⟨4, 2⟩, true, true⟩⟩ (Ex.valid _ _) ⟨2, 1⟩
    ⟨1 / 2, by ext <;> norm_num⟩
  exact ⟨hQ, by rw [hP', e], f.1, C09_reflection_isometry hne Ex.mirror f.2⟩

/-- C09, a failure: the reflection in the x-axis raises for `(0.5, 1e-9)`, which is not on the axis and has a
mirror image. -/
theorem C09_reflection_raises_counterexample :
    ∃ e, (⟨⟨⟨0, 0⟩, ⟨1, 0⟩, true, true⟩⟩ : Reflection).transformPt ⟨1 / 2, 1 / 10 ^ 9⟩ = .error e := by
  have hv : (⟨⟨0, 0⟩, ⟨1, 0⟩, true, true⟩ : Line).Valid := by
    unfold Line.Valid allclose npClose; norm_num
  refine (C09_reflection_total ⟨⟨⟨0, 0⟩, ⟨1, 0⟩, true, true⟩⟩ hv ⟨1 / 2, 1 / 10 ^ 9⟩ ?_ ⟨1 / 2, 0⟩
    ⟨1 / 2, by ext <;> simp⟩ (by simp [Perp, dot])).1 ?_
  · rw [← Bool.not_eq_true, C05_includes _ hv]
    rintro (⟨t, h⟩ | h | h)
    · have hy := congrArg Pt.y h
      norm_num at hy
    · unfold allclose npClose at h; norm_num [abs_of_pos] at h
    · unfold allclose npClose at h; norm_num [abs_of_pos] at h
  · unfold allclose npClose; norm_num [abs_of_pos]

/-- C09, a failure of "twice gives `P` back": the point `(1000, 0.005)` is not `np.allclose` to the defining points of
the line through `(1000, 0)` and `(1001, 1)`, its mirror image `(1000.005, 0)` is, and is left unchanged by a
second reflection. -/
theorem C09_involution_counterexample :
    (⟨⟨1000, 0⟩, ⟨1001, 1⟩, true, true⟩ : Line).Valid ∧
    ¬ allclose (⟨1000, 0⟩ : Pt) ⟨1000, 1 / 200⟩ ∧ ¬ allclose (⟨1001, 1⟩ : Pt) ⟨1000, 1 / 200⟩ ∧
    (⟨⟨⟨1000, 0⟩, ⟨1001, 1⟩, true, true⟩⟩ : Reflection).transformPt ⟨1000, 1 / 200⟩ = .ok ⟨1000 + 1 / 200, 0⟩ ∧
    (⟨⟨⟨1000, 0⟩, ⟨1001, 1⟩, true, true⟩⟩ : Reflection).transformPt ⟨1000 + 1 / 200, 0⟩ =
      .ok ⟨1000 + 1 / 200, 0⟩ := by
  have hv : (⟨⟨1000, 0⟩, ⟨1001, 1⟩, true, true⟩ : Line).Valid := by
    unfold Line.Valid allclose npClose; norm_num [abs_of_pos]
  have hA : ¬ allclose (⟨1000, 0⟩ : Pt) ⟨1000, 1 / 200⟩ := by
    unfold allclose npClose; norm_num [abs_of_pos]
  have hB : ¬ allclose (⟨1001, 1⟩ : Pt) ⟨1000, 1 / 200⟩ := by
    unfold allclose npClose; norm_num [abs_of_pos]
  have hne := ne_of_not_allclose hv
  refine ⟨hv, hA, hB, ?_, ?_⟩
  · have hi : (⟨⟨1000, 0⟩, ⟨1001, 1⟩, true, true⟩ : Line).includes ⟨1000, 1 / 200⟩ = false := by
      rw [← Bool.not_eq_true, C05_includes _ hv]
      rintro (⟨t, h⟩ | h | h)
      · have hx := congrArg Pt.x h
        have hy := congrArg Pt.y h
        norm_num at hx hy
        rw [hx] at hy; norm_num at hy
      · exact hA h
      · exact hB h
    obtain ⟨Q, hQ, hm⟩ := (C09_reflection_total ⟨⟨⟨1000, 0⟩, ⟨1001, 1⟩, true, true⟩⟩ hv ⟨1000, 1 / 200⟩ hi
      ⟨1000 + 1 / 400, 1 / 400⟩ ⟨1 / 400, by ext <;> norm_num⟩ (by norm_num [Perp, dot])).2
      (by unfold allclose npClose; norm_num [abs_of_pos])
    rw [hQ]
    congr 1
    refine mirror_unique hne hm ⟨⟨1 / 400, by ext <;> norm_num⟩, by norm_num [Perp, dot]⟩
  · have hi : (⟨⟨1000, 0⟩, ⟨1001, 1⟩, true, true⟩ : Line).includes ⟨1000 + 1 / 200, 0⟩ = true := by
      rw [C05_includes _ hv]
      right; left
      unfold allclose npClose; norm_num [abs_of_pos]
    unfold Reflection.transformPt
    rw [if_pos hi]

/-! ## C12 -/

/-- C12: a returned point is on both lines, and it is their only common point. -/
theorem C12_intersection_sound (l1 l2 : Line) (h1 : l1.Valid) (h2 : l2.Valid) (s : Bool) (I : Pt)
    (h : Line.intersection_line_line l1 l2 s = some I) :
    (OnLine l1.A l1.B I ∧ OnLine l2.A l2.B I) ∧
      ∀ J, OnLine l1.A l1.B J → OnLine l2.A l2.B J → J = I := by
  unfold Line.intersection_line_line at h
  dsimp only at h
  split_ifs at h with a b c
  obtain ⟨d0, d1, d2⟩ := lli_some h
  have n1 := ne_of_not_allclose h1
  have n2 := ne_of_not_allclose h2
  refine ⟨⟨(onLine_iff_cross n1).2 d1, (onLine_iff_cross n2).2 d2⟩, ?_⟩
  intro J j1 j2
  rw [onLine_iff_cross n1] at j1
  rw [onLine_iff_cross n2] at j2
  simp only [cross, Pt.sub_x, Pt.sub_y] at *
  have e1 : ((l1.B.x - l1.A.x) * (l2.B.y - l2.A.y) - (l1.B.y - l1.A.y) * (l2.B.x - l2.A.x)) * (J.x - I.x) = 0 := by
    linear_combination (l1.B.x - l1.A.x) * (d2 - j2) - (l2.B.x - l2.A.x) * (d1 - j1)
  have e2 : ((l1.B.x - l1.A.x) * (l2.B.y - l2.A.y) - (l1.B.y - l1.A.y) * (l2.B.x - l2.A.x)) * (J.y - I.y) = 0 := by
    linear_combination (l1.B.y - l1.A.y) * (d2 - j2) - (l2.B.y - l2.A.y) * (d1 - j1)
  ext
  · rcases mul_eq_zero.1 e1 with h | h
    · exact absurd h d0
    · linarith
  · rcases mul_eq_zero.1 e2 with h | h
    · exact absurd h d0
    · linarith

/-- The lines through `(0, 0), (2, 2)` and through `(0, 2), (2, 0)` meet in `(1, 1)`, which is returned. -/
example : Line.intersection_line_line ⟨⟨0, 0⟩, ⟨2, 2⟩, true, true⟩ ⟨⟨0, 2⟩, ⟨2, 0⟩, true, true⟩ false =
    some ⟨1, 1⟩ := by
  have h1 : (⟨⟨0, 0⟩, ⟨2, 2⟩, true, true⟩ : Line).Valid := by unfold Line.Valid allclose npClose; norm_num
  have h2 : (⟨⟨0, 2⟩, ⟨2, 0⟩, true, true⟩ : Line).Valid := by unfold Line.Valid allclose npClose; norm_num
  have hp : ¬ (⟨⟨0, 0⟩, ⟨2, 2⟩, true, true⟩ : Line).is_parallel ⟨⟨0, 2⟩, ⟨2, 0⟩, true, true⟩ := by
    unfold Line.is_parallel det2x2_ sepsilon_; norm_num [abs_of_pos]
  have hq : ¬ (⟨⟨0, 0⟩, ⟨2, 2⟩, true, true⟩ : Line).is_equal ⟨⟨0, 2⟩, ⟨2, 0⟩, true, true⟩ := by
    obtain ⟨-, -, -, o1⟩ := C03_direction_offset _ h1
    obtain ⟨-, -, p2, o2⟩ := C03_direction_offset _ h2
    have a1 := (o1 ⟨0, 0⟩).1 (onLine_left _ _)
    have a2 := (o2 ⟨0, 2⟩).1 (onLine_left _ _)
    have a3 := (o2 ⟨2, 0⟩).1 ⟨1, by ext <;> norm_num⟩
    have cs := sin_sq_add_cos_sq (⟨⟨0, 2⟩, ⟨2, 0⟩, true, true⟩ : Line).direction_offset.1
    simp only [mul_zero, zero_add, add_zero] at a1 a2 a3
    have h2' : 1 ≤ (⟨⟨0, 2⟩, ⟨2, 0⟩, true, true⟩ : Line).direction_offset.2 := by nlinarith
    unfold Line.is_equal
    dsimp only
    rw [← a1, if_neg]
    · rintro ⟨-, h⟩
      unfold npClose at h
      rw [zero_sub, abs_neg, abs_of_nonneg p2] at h
      norm_num at h
      linarith
    · generalize (⟨⟨0, 2⟩, ⟨2, 0⟩, true, true⟩ : Line).direction_offset.2 = o at *
      unfold approx_equal_ isclose
      rw [show (0 : ℝ) - o = -o by ring, show (0 : ℝ) + 1 - (o + 1) = -o by ring, abs_neg, abs_of_nonneg p2,
        abs_zero, zero_add, abs_one, abs_of_nonneg (by linarith : (0 : ℝ) ≤ o + 1), max_eq_right p2,
        max_eq_right (by linarith : (1 : ℝ) ≤ o + 1)]
      rintro (h | h) <;> linarith
  have hn : Line.intersection_line_line ⟨⟨0, 0⟩, ⟨2, 2⟩, true, true⟩ ⟨⟨0, 2⟩, ⟨2, 0⟩, true, true⟩ false ≠ none := by
    unfold Line.intersection_line_line
    dsimp only
    rw [if_neg hq, if_neg hp, if_pos rfl, ne_eq, lli_none_iff]
    norm_num [cross]
  obtain ⟨I, hI⟩ := Option.ne_none_iff_exists'.1 hn
  obtain ⟨-, u⟩ := C12_intersection_sound _ _ h1 h2 _ _ hI
  rw [hI, ← u ⟨1, 1⟩ ⟨1 / 2, by ext <;> norm_num⟩ ⟨1 / 2, by ext <;> norm_num⟩]

/-- C12: `None` exactly when the lines are reported equal or parallel, or with `strict=True` (unfinished code). -/
theorem C12_intersection_none_iff (l1 l2 : Line) (s : Bool) :
    Line.intersection_line_line l1 l2 s = none ↔ l1.is_equal l2 ∨ l1.is_parallel l2 ∨ s = true := by
  unfold Line.intersection_line_line
  dsimp only
  split_ifs with a b c
  · simp [a]
  · simp [b]
  · simp only [a, b, c, false_or]
    rw [lli_none_iff]
    constructor
    · intro h
      exfalso
      apply b
      unfold Line.is_parallel det2x2_
      dsimp only
      have : (l1.A.x - l1.B.x) * (l2.A.y - l2.B.y) - (l2.A.x - l2.B.x) * (l1.A.y - l1.B.y) = 0 := by
        simp only [cross, Pt.sub_x, Pt.sub_y] at h; linear_combination h
      rw [this, abs_zero]; exact sepsilon_pos
    · intro h; simp at h
  · simp only [Bool.not_eq_false] at c
    simp [c]

/-- A strict intersection is never returned. -/
example : Line.intersection_line_line ⟨⟨0, 0⟩, ⟨2, 2⟩, true, true⟩ ⟨⟨0, 2⟩, ⟨2, 0⟩, true, true⟩ true = none :=
  (C12_intersection_none_iff _ _ _).2 (Or.inr (Or.inr rfl))

/-- C12: lines without a common point, or with all points in common, give `None`. -/
theorem C12_intersection_parallel (l1 l2 : Line) (s : Bool) (h : Parallel (l1.B - l1.A) (l2.B - l2.A)) :
    Line.intersection_line_line l1 l2 s = none := by
  rw [C12_intersection_none_iff]
  right; left
  unfold Line.is_parallel det2x2_
  dsimp only
  have : (l1.A.x - l1.B.x) * (l2.A.y - l2.B.y) - (l2.A.x - l2.B.x) * (l1.A.y - l1.B.y) = 0 := by
    simp only [Parallel, cross, Pt.sub_x, Pt.sub_y] at h; linear_combination h
  rw [this, abs_zero]; exact sepsilon_pos

/-- Two parallel lines. -/
example : Line.intersection_line_line ⟨⟨0, 0⟩, ⟨4, 2⟩, true, true⟩ ⟨⟨0, 1⟩, ⟨-2, 0⟩, true, true⟩ false = none :=
  C12_intersection_parallel _ _ _ (by norm_num [Parallel, cross])

/-- C12, a failure: two perpendicular lines through the origin, given by points at distance `1e-5` of it, have
intersection `None`. -/
theorem C12_short_lines_counterexample :
    (⟨⟨0, 0⟩, ⟨1 / 10 ^ 5, 0⟩, true, true⟩ : Line).Valid ∧
    (⟨⟨0, 0⟩, ⟨0, 1 / 10 ^ 5⟩, true, true⟩ : Line).Valid ∧
    Line.intersection_line_line ⟨⟨0, 0⟩, ⟨1 / 10 ^ 5, 0⟩, true, true⟩ ⟨⟨0, 0⟩, ⟨0, 1 / 10 ^ 5⟩, true, true⟩ = none := by
  refine ⟨?_, ?_, ?_⟩
  · unfold Line.Valid allclose npClose; norm_num [abs_of_pos]
  · unfold Line.Valid allclose npClose; norm_num [abs_of_pos]
  · rw [C12_intersection_none_iff]
    right; left
    unfold Line.is_parallel det2x2_ sepsilon_
    norm_num [abs_of_pos]

/-! ## C13 -/

/-- C13: parallel lines are reported parallel, perpendicular lines are reported perpendicular. -/
theorem C13_parallel_perp_complete (l1 l2 : Line) :
    (Parallel (l1.B - l1.A) (l2.B - l2.A) → l1.is_parallel l2) ∧
    (Perp (l1.B - l1.A) (l2.B - l2.A) → l1.is_perpendicular l2) := by
  constructor
  · intro h
    unfold Line.is_parallel det2x2_
    dsimp only
    have : (l1.A.x - l1.B.x) * (l2.A.y - l2.B.y) - (l2.A.x - l2.B.x) * (l1.A.y - l1.B.y) = 0 := by
      simp only [Parallel, cross, Pt.sub_x, Pt.sub_y] at h; linear_combination h
    rw [this, abs_zero]; exact sepsilon_pos
  · intro h
    unfold Line.is_perpendicular
    have : dot_ (l1.B - l1.A) (l2.B - l2.A) = 0 := h
    rw [this]; exact approx_equal_refl _

/-- C13: a positive answer of `is_parallel` means that the sine of the angle of the two lines is below the
tolerance divided by the distances between the defining points; and conversely. -/
theorem C13_parallel_iff (l1 l2 : Line) (h1 : l1.Valid) (h2 : l2.Valid) :
    l1.is_parallel l2 ↔
      |cross (l1.B - l1.A) (l2.B - l2.A)| / (dist l1.A l1.B * dist l2.A l2.B) <
        1 / 2 ^ 26 / (dist l1.A l1.B * dist l2.A l2.B) := by
  have p1 : 0 < dist l1.A l1.B := Real.sqrt_pos.2 (sqDist_pos (ne_of_not_allclose h1))
  have p2 : 0 < dist l2.A l2.B := Real.sqrt_pos.2 (sqDist_pos (ne_of_not_allclose h2))
  have : cross (l1.B - l1.A) (l2.B - l2.A) =
      (l1.A.x - l1.B.x) * (l2.A.y - l2.B.y) - (l2.A.x - l2.B.x) * (l1.A.y - l1.B.y) := by
    simp only [cross, Pt.sub_x, Pt.sub_y]; ring
  rw [div_lt_div_iff_of_pos_right (mul_pos p1 p2), this]
  rfl

/-- C13: a positive answer of `is_perpendicular` bounds the cosine of the angle by the tolerance divided by the
distances between the defining points. -/
theorem C13_perp_sound (l1 l2 : Line) (h1 : l1.Valid) (h2 : l2.Valid) (h : l1.is_perpendicular l2) :
    |dot (l1.B - l1.A) (l2.B - l2.A)| / (dist l1.A l1.B * dist l2.A l2.B) ≤
      2 / 10 ^ 9 / (dist l1.A l1.B * dist l2.A l2.B) := by
  have p1 : 0 < dist l1.A l1.B := Real.sqrt_pos.2 (sqDist_pos (ne_of_not_allclose h1))
  have p2 : 0 < dist l2.A l2.B := Real.sqrt_pos.2 (sqDist_pos (ne_of_not_allclose h2))
  rw [div_le_div_iff_of_pos_right (mul_pos p1 p2)]
  exact approx_equal_zero_bound h

/-- The bounds for the lines through `(0, 0), (3, 4)` and `(1, 0), (-3, 3)`, which are perpendicular and not parallel. -/
example : ¬ (⟨⟨0, 0⟩, ⟨3, 4⟩, true, true⟩ : Line).is_parallel ⟨⟨1, 0⟩, ⟨-3, 3⟩, true, true⟩ ∧
    |dot ((⟨3, 4⟩ : Pt) - ⟨0, 0⟩) ((⟨-3, 3⟩ : Pt) - ⟨1, 0⟩)| / (Spec.dist (⟨0, 0⟩ : Pt) ⟨3, 4⟩ * Spec.dist (⟨1, 0⟩ : Pt) ⟨-3, 3⟩)
      ≤ 2 / 10 ^ 9 / (Spec.dist (⟨0, 0⟩ : Pt) ⟨3, 4⟩ * Spec.dist (⟨1, 0⟩ : Pt) ⟨-3, 3⟩) := by
  have h1 : (⟨⟨0, 0⟩, ⟨3, 4⟩, true, true⟩ : Line).Valid := by unfold Line.Valid allclose npClose; norm_num
  have h2 : (⟨⟨1, 0⟩, ⟨-3, 3⟩, true, true⟩ : Line).Valid := by unfold Line.Valid allclose npClose; norm_num
  have d1 : Spec.dist (⟨0, 0⟩ : Pt) ⟨3, 4⟩ = 5 := by
    unfold Spec.dist sqDist; rw [Real.sqrt_eq_iff_mul_self_eq] <;> norm_num
  have d2 : Spec.dist (⟨1, 0⟩ : Pt) ⟨-3, 3⟩ = 5 := by
    unfold Spec.dist sqDist; rw [Real.sqrt_eq_iff_mul_self_eq] <;> norm_num
  refine ⟨?_, ?_⟩
  · rw [C13_parallel_iff _ _ h1 h2, d1, d2]
    norm_num [cross, abs_of_pos]
  · exact C13_perp_sound _ _ h1 h2 ((C13_parallel_perp_complete _ _).2 (by norm_num [Perp, dot]))

/-- C13, a failure: two perpendicular lines given by points at distance `1e-5` are reported parallel, and two
parallel lines given by points at distance `1e-5` are reported perpendicular. -/
theorem C13_short_lines_counterexample :
    (⟨⟨0, 0⟩, ⟨1 / 10 ^ 5, 0⟩, true, true⟩ : Line).is_parallel ⟨⟨0, 0⟩, ⟨0, 1 / 10 ^ 5⟩, true, true⟩ ∧
    (⟨⟨0, 0⟩, ⟨1 / 10 ^ 5, 0⟩, true, true⟩ : Line).is_perpendicular ⟨⟨0, 1⟩, ⟨1 / 10 ^ 5, 1⟩, true, true⟩ := by
  constructor
  · unfold Line.is_parallel det2x2_ sepsilon_
    norm_num [abs_of_pos]
  · unfold Line.is_perpendicular approx_equal_ isclose dot_
    right
    norm_num [abs_of_pos]

example : (⟨⟨0, 0⟩, ⟨3, 4⟩, true, true⟩ : Line).is_perpendicular ⟨⟨1, 0⟩, ⟨-3, 3⟩, true, true⟩ ∧
    (⟨⟨0, 0⟩, ⟨3, 4⟩, true, true⟩ : Line).Valid ∧ (⟨⟨1, 0⟩, ⟨-3, 3⟩, true, true⟩ : Line).Valid := by
  refine ⟨?_, ?_, ?_⟩
  · apply (C13_parallel_perp_complete _ _).2; simp [Perp, dot]; norm_num
  · unfold Line.Valid allclose npClose; norm_num
  · unfold Line.Valid allclose npClose; norm_num

example : (⟨⟨0, 0⟩, ⟨3, 4⟩, true, true⟩ : Line).Valid ∧ (⟨⟨1, 0⟩, ⟨3, 4⟩, true, true⟩ : Line).Valid ∧
    ¬ (⟨⟨0, 0⟩, ⟨3, 4⟩, true, true⟩ : Line).is_parallel ⟨⟨1, 0⟩, ⟨3, 4⟩, true, true⟩ := by
  refine ⟨?_, ?_, ?_⟩
  · unfold Line.Valid allclose npClose; norm_num
  · unfold Line.Valid allclose npClose; norm_num
  · unfold Line.is_parallel det2x2_ sepsilon_; norm_num [abs_of_pos]
