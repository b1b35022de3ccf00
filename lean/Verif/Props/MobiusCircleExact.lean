import Verif.Props.MobiusCircle
import Verif.Lemmas.Ellipse
import Mathlib.Analysis.Real.Pi.Irrational
import Mathlib.Topology.Instances.AddCircle.DenseSubgroup
import Mathlib.Analysis.SpecialFunctions.Trigonometric.Bounds

/-! C53, the exact condition under which the loops of `Mobius.transform_circle` end.  The angles tried are `s, s + 0.1, s + 0.2, …`; they are dense
modulo `2π` because `π` is irrational. -/

open Spec Real Classical

theorem exists_small_step {δ : ℝ} (hδ : 0 < δ) : ∃ m k : ℤ, 0 < m ∧ |(m : ℝ) * (1 / 10) + k * (2 * π)| < δ := by
  have hd : Dense (AddSubgroup.closure {(1 / 10 : ℝ), 2 * π} : Set ℝ) := by
    rw [dense_addSubgroupClosure_pair_iff]
    have : (1 / 10 : ℝ) / (2 * π) = ((1 / 20 : ℚ) : ℝ) / π := by push_cast; field_simp; norm_num
    rw [this]
    exact irrational_pi.ratCast_div (by norm_num)
  obtain ⟨x, hx, hm⟩ := hd.exists_mem_open (isOpen_Ioo (a := (0 : ℝ)) (b := min δ 1)) ⟨min δ 1 / 2, by
    have : 0 < min δ 1 := lt_min hδ one_pos
    constructor <;> linarith⟩
  obtain ⟨m, k, rfl⟩ := AddSubgroup.mem_closure_pair.1 hx
  simp only [zsmul_eq_mul, Set.mem_Ioo] at hm
  obtain ⟨h1, h2⟩ := hm
  have h3 := h2.trans_le (min_le_left _ _)
  have h4 := h2.trans_le (min_le_right _ _)
  have p3 := pi_gt_three
  rcases lt_trichotomy m 0 with h | h | h
  · refine ⟨-m, -k, by omega, ?_⟩
    push_cast
    rw [abs_lt]
    constructor <;> linarith
  · exfalso
    subst h
    simp only [Int.cast_zero, zero_mul, zero_add] at h1 h4
    have hk : 0 < (k : ℝ) := by
      by_contra hc
      push Not at hc
      nlinarith
    have : (1 : ℝ) ≤ k := by exact_mod_cast (Int.cast_pos.1 hk)
    nlinarith
  · exact ⟨m, k, h, by rw [abs_lt]; constructor <;> linarith⟩

/-- The angles `s + n / 10` come as close as wanted to every angle, modulo `2π`. -/
theorem angles_dense (s θ : ℝ) {ε : ℝ} (hε : 0 < ε) : ∃ (n : ℕ) (k : ℤ), |s + n * (1 / 10) - (θ + k * (2 * π))| < ε := by
  have hd : Dense (AddSubgroup.closure {(1 / 10 : ℝ), 2 * π} : Set ℝ) := by
    rw [dense_addSubgroupClosure_pair_iff]
    have : (1 / 10 : ℝ) / (2 * π) = ((1 / 20 : ℚ) : ℝ) / π := by push_cast; field_simp; norm_num
    rw [this]
    exact irrational_pi.ratCast_div (by norm_num)
  obtain ⟨x, hx, hm⟩ := hd.exists_mem_open (isOpen_Ioo (a := θ - s - ε / 2) (b := θ - s + ε / 2)) ⟨θ - s, by constructor <;> linarith⟩
  obtain ⟨m, k, rfl⟩ := AddSubgroup.mem_closure_pair.1 hx
  simp only [zsmul_eq_mul, Set.mem_Ioo] at hm
  obtain ⟨h1, h2⟩ := hm
  have hN : (0 : ℝ) ≤ (m.natAbs : ℝ) := Nat.cast_nonneg _
  obtain ⟨m', k', hm', hs⟩ := exists_small_step (δ := ε / (2 * ((m.natAbs : ℝ) + 1))) (by positivity)
  obtain ⟨n, hn⟩ : ∃ n : ℕ, (n : ℤ) = m + m.natAbs * m' := by
    refine ⟨(m + m.natAbs * m').toNat, Int.toNat_of_nonneg ?_⟩
    have : (m.natAbs : ℤ) * 1 ≤ m.natAbs * m' := mul_le_mul_of_nonneg_left (by omega) (by omega)
    omega
  refine ⟨n, -(k + m.natAbs * k'), ?_⟩
  have hn' : (n : ℝ) = m + m.natAbs * m' := by
    have := congrArg (Int.cast : ℤ → ℝ) hn
    push_cast at this ⊢
    simpa using this
  rw [hn']
  push_cast
  have e : s + ((m : ℝ) + m.natAbs * m') * (1 / 10) - (θ + -(k + m.natAbs * k') * (2 * π)) =
      (m * (1 / 10) + k * (2 * π) - (θ - s)) + m.natAbs * (m' * (1 / 10) + k' * (2 * π)) := by ring
  simp only [Nat.cast_natAbs, Int.cast_abs] at *
  rw [e]
  have hb : |(|(m : ℝ)|) * (m' * (1 / 10) + k' * (2 * π))| ≤ ε / 2 := by
    rw [abs_mul, abs_abs]
    have : |(m : ℝ)| * |(m' : ℝ) * (1 / 10) + k' * (2 * π)| ≤ |(m : ℝ)| * (ε / (2 * (|(m : ℝ)| + 1))) :=
      mul_le_mul_of_nonneg_left hs.le hN
    refine this.trans ?_
    rw [mul_div_assoc', div_le_div_iff₀ (by positivity) (by norm_num)]
    nlinarith
  have ha : |(m : ℝ) * (1 / 10) + k * (2 * π) - (θ - s)| < ε / 2 := by rw [abs_lt]; constructor <;> linarith
  refine (abs_add_le _ _).trans_lt ?_
  linarith

/-- All the points tried by a loop are close to `M` only if all the points of the circle are. -/
theorem loop_all_iff (circ : Circle) (hc : circ.Valid) (s : ℝ) (M : Pt) :
    (∀ n : ℕ, allclose (Mobius.loopPoint circ s n) M) ↔ ∀ P, OnCircle circ.center circ.radius P → allclose P M := by
  have hr : 0 < circ.radius := hc
  constructor
  · intro h P hP
    have hu : ((P.x - circ.center.x) / circ.radius) ^ 2 + ((P.y - circ.center.y) / circ.radius) ^ 2 = 1 := by
      unfold OnCircle sqDist at hP
      field_simp
      linarith
    obtain ⟨θ, hx, hy⟩ := exists_angle hu
    have hPx : P.x = circ.center.x + circ.radius * cos θ := by rw [← hx]; field_simp; ring
    have hPy : P.y = circ.center.y + circ.radius * sin θ := by rw [← hy]; field_simp; ring
    have near : ∀ ε : ℝ, 0 < ε → |P.x - M.x| ≤ 1 / 10 ^ 8 + 1 / 10 ^ 5 * |M.x| + ε ∧ |P.y - M.y| ≤ 1 / 10 ^ 8 + 1 / 10 ^ 5 * |M.y| + ε := by
      intro ε hε
      obtain ⟨n, k, hn⟩ := angles_dense s θ (ε := ε / circ.radius) (by positivity)
      have h1 := h n
      unfold allclose npClose Mobius.loopPoint Circle.point_from_angle unit_vector_ at h1
      simp only [Bool.false_eq_true, if_false, Pt.add_x, Pt.add_y, Pt.smul_x, Pt.smul_y] at h1
      obtain ⟨t, ht⟩ : ∃ t, t = s + (n : ℝ) * (1 / 10) := ⟨_, rfl⟩
      rw [← ht] at h1 hn
      have c1 := abs_cos_sub_cos_le t (θ + k * (2 * π))
      have c2 := abs_sin_sub_sin_le t (θ + k * (2 * π))
      rw [cos_add_int_mul_two_pi] at c1
      rw [sin_add_int_mul_two_pi] at c2
      have hk : |t - (θ + k * (2 * π))| * circ.radius < ε := (lt_div_iff₀ hr).1 hn
      have d1 : |circ.radius * cos t - circ.radius * cos θ| ≤ ε := by
        rw [← mul_sub, abs_mul, abs_of_pos hr]; nlinarith
      have d2 : |circ.radius * sin t - circ.radius * sin θ| ≤ ε := by
        rw [← mul_sub, abs_mul, abs_of_pos hr]; nlinarith
      rw [hPx, hPy]
      obtain ⟨h1x, h1y⟩ := h1
      rw [abs_le] at d1 d2 h1x h1y ⊢
      rw [abs_le]
      refine ⟨⟨?_, ?_⟩, ?_, ?_⟩ <;> linarith
    unfold allclose npClose
    constructor
    · exact le_of_forall_pos_le_add fun ε hε => (near ε hε).1
    · exact le_of_forall_pos_le_add fun ε hε => (near ε hε).2
  · intro h n
    exact h _ (loopPoint_on _ _ _)

/-- C53, pole `M` on the circle, the three outcomes and exactly when they occur: the loop runs forever iff every point of the circle is `np.allclose`
to `M`; otherwise the line through the images of two points of the circle is returned, or `ValueError` if these images are `np.allclose`. -/
theorem C53_exact (f : Mobius) (h : Matrix.det f.M ≠ 0) (circ : Circle) (hc : circ.Valid) (M : Pt)
    (hM : OnCircle circ.center circ.radius M) (hi : f.transform (.fin M) = .ok .inf) :
    (f.transform_circle circ = .error .diverges ↔ ∀ P, OnCircle circ.center circ.radius P → allclose P M) ∧
    ((∃ P, OnCircle circ.center circ.radius P ∧ ¬ allclose P M) →
      ∃ P Q A B : Pt, OnCircle circ.center circ.radius P ∧ OnCircle circ.center circ.radius Q ∧
        f.transform (.fin P) = .ok (.fin A) ∧ f.transform (.fin Q) = .ok (.fin B) ∧
        ((¬ allclose A B ∧ f.transform_circle circ = .ok (.line ⟨A, B, true, true⟩)) ∨
         (allclose A B ∧ f.transform_circle circ = .error (.valueError "`A` and `B` must be distinct.")))) := by
  obtain ⟨hc0, hV, ev⟩ := transform_circle_eval f h circ M hM hi
  have fin : ∀ P, ¬ allclose P M → ∃ A, f.transform (.fin P) = .ok (.fin A) := by
    intro P hP
    obtain ⟨A, hA, -⟩ := f.transform_spec ((det_ne_iff _).1 h) (.fin P)
    cases A with
    | fin A => exact ⟨A, hA⟩
    | inf =>
      exfalso
      have i1 := (C49_inverse f h (.fin P)).1
      have i2 := (C49_inverse f h (.fin M)).1
      rw [hA, Res.ok_bind] at i1
      rw [hi, Res.ok_bind, i1] at i2
      have : P = M := by simpa using i2
      exact hP (this ▸ allclose_refl P)
  have second : (∃ P, OnCircle circ.center circ.radius P ∧ ¬ allclose P M) →
      ∃ P Q A B : Pt, OnCircle circ.center circ.radius P ∧ OnCircle circ.center circ.radius Q ∧
        f.transform (.fin P) = .ok (.fin A) ∧ f.transform (.fin Q) = .ok (.fin B) ∧
        ((¬ allclose A B ∧ f.transform_circle circ = .ok (.line ⟨A, B, true, true⟩)) ∨
         (allclose A B ∧ f.transform_circle circ = .error (.valueError "`A` and `B` must be distinct."))) := by
    rintro ⟨P0, hP0, hP0'⟩
    have ex : ∀ s : ℝ, ∃ n : ℕ, ¬ allclose (Mobius.loopPoint circ s n) M := by
      intro s
      by_contra hn
      push Not at hn
      exact hP0' ((loop_all_iff circ hc s M).1 hn P0 hP0)
    obtain ⟨n, hn, hn'⟩ := firstIndex_of_exists (ex 0)
    obtain ⟨m, hm, hm'⟩ := firstIndex_of_exists (ex ((n : ℝ) * (1 / 10) + 3))
    obtain ⟨A, hA⟩ := fin _ hn'
    obtain ⟨B, hB⟩ := fin _ hm'
    refine ⟨_, _, A, B, loopPoint_on _ _ _, loopPoint_on _ _ _, hA, hB, ?_⟩
    rw [ev, hn, Res.ok_bind, hm, Res.ok_bind, hA, Res.ok_bind, hB, Res.ok_bind]
    by_cases hAB : allclose A B
    · right
      refine ⟨hAB, ?_⟩
      simp only [mkLineX, mkLine, if_pos hAB]
      rfl
    · left
      refine ⟨hAB, ?_⟩
      simp only [mkLineX, mkLine, if_neg hAB]
      rfl
  refine ⟨⟨?_, ?_⟩, second⟩
  · intro hd
    by_contra hn
    push Not at hn
    obtain ⟨P, Q, A, B, -, -, -, -, ⟨-, e⟩ | ⟨-, e⟩⟩ := second hn
    · rw [hd] at e; simp at e
    · rw [hd] at e; simp at e
  · intro hall
    rw [ev]
    have : firstIndex (fun n => ¬ allclose (Mobius.loopPoint circ 0 n) M) = .error .diverges := by
      unfold firstIndex
      rw [dif_neg]
      rintro ⟨n, hn⟩
      exact hn ((loop_all_iff circ hc 0 M).2 hall n)
    rw [this]
    rfl

/-- The unit circle about `(1, 0)` and `z ↦ 1/z`: the point `(2, 0)` is not close to the pole, so that the loop ends. -/
example : OnCircle (⟨1, 0⟩ : Pt) 1 ⟨0, 0⟩ ∧ OnCircle (⟨1, 0⟩ : Pt) 1 ⟨2, 0⟩ ∧ ¬ allclose ⟨2, 0⟩ ⟨0, 0⟩ ∧
    mobInv.transform_circle ⟨⟨1, 0⟩, 1⟩ ≠ .error .diverges := by
  have h1 : OnCircle (⟨1, 0⟩ : Pt) 1 ⟨0, 0⟩ := by norm_num [OnCircle, sqDist]
  have h2 : OnCircle (⟨1, 0⟩ : Pt) 1 ⟨2, 0⟩ := by norm_num [OnCircle, sqDist]
  have h3 : ¬ allclose ⟨2, 0⟩ ⟨0, 0⟩ := by unfold allclose npClose; norm_num
  refine ⟨h1, h2, h3, fun h => h3 ?_⟩
  exact (C53_exact mobInv mobInv_det ⟨⟨1, 0⟩, 1⟩ (by unfold Circle.Valid; norm_num) ⟨0, 0⟩ h1 mobInv_pole).1.1 h _ h2
