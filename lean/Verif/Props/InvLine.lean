import Verif.Props.Inversion
import Verif.Props.Triangle

/-!
# C26: images of lines under inversions
-/

open Spec Real Classical

/-- A line through the pole is its own image. -/
theorem line_through_pole_fixed {O A B : Pt} {k : ℝ} (hAB : A ≠ B) (hO : OnLine A B O) (hk : k ≠ 0) :
    InvMapsOnto O k (OnLine A B) (OnLine A B) := by
  have key : ∀ P Q, IsInverse O k P Q → OnLine A B P → OnLine A B Q := by
    intro P Q h hP
    obtain ⟨h0, hQ⟩ := isInverse_iff.1 h
    obtain ⟨m, hm⟩ : ∃ m, m = k / dot (P - O) (P - O) := ⟨_, rfl⟩
    rw [← hm] at hQ
    rw [onLine_iff_cross hAB] at *
    have : cross (B - A) (Q - A) = (1 - m) * cross (B - A) (O - A) + m * cross (B - A) (P - A) := by
      rw [hQ]; simp only [cross, Pt.add_x, Pt.add_y, Pt.smul_x, Pt.smul_y, Pt.sub_x, Pt.sub_y]; ring
    rw [this, hO, hP]; ring
  exact fun P Q h => ⟨key P Q h, key Q P (isInverse_symm hk h)⟩

/-- C26: a line through the pole is returned unchanged, and it is its own image. -/
theorem C26_through_pole (iota : Inversion) (hk : iota.power ≠ 0) (l : Line) (hl : l.Valid) (h : OnLine l.A l.B iota.pole) :
    iota.invert_line l = .ok (some (.line l)) ∧ InvMapsOnto iota.pole iota.power (OnLine l.A l.B) (OnLine l.A l.B) := by
  refine ⟨?_, line_through_pole_fixed (ne_of_not_allclose hl) h hk⟩
  unfold Inversion.invert_line
  dsimp only
  rw [if_pos]
  rw [collinear_of_valid hl]
  right
  exact h

/-- The diagonal through the pole `(1, 1)` is its own image. -/
example : (⟨⟨1, 1⟩, 4⟩ : Inversion).invert_line ⟨⟨0, 0⟩, ⟨2, 2⟩, true, true⟩ = .ok (some (.line ⟨⟨0, 0⟩, ⟨2, 2⟩, true, true⟩)) :=
  (C26_through_pole ⟨⟨1, 1⟩, 4⟩ (by norm_num) ⟨⟨0, 0⟩, ⟨2, 2⟩, true, true⟩
    (by unfold Line.Valid allclose npClose; norm_num [abs_of_pos]) (by unfold OnLine; exact ⟨1 / 2, by ext <;> norm_num⟩)).1

/-- C26, partial: the image of a line that avoids the pole, beyond the tolerance, is a circle through the pole which
contains exactly, besides the pole, the inverses of the points of the line.  Missing: lines with a defining point
`np.allclose` to the pole; they are returned unchanged or rejected (see the counterexamples). -/
theorem C26_invert_line_partial (iota : Inversion) (hk : iota.power ≠ 0) (l : Line) (hl : l.Valid)
    (h : ¬ OnLine l.A l.B iota.pole) (hA : ¬ allclose l.A iota.pole) (hB : ¬ allclose l.B iota.pole)
    (hA' : ¬ allclose iota.pole l.A) (hB' : ¬ allclose iota.pole l.B) :
    ∃ c, iota.invert_line l = .ok (some (.circle c)) ∧ 0 < c.radius ∧ OnCircle c.center c.radius iota.pole ∧
      InvMapsOnto iota.pole iota.power (OnLine l.A l.B) (OnCircle c.center c.radius) := by
  obtain ⟨Ap, eA, -, -, iA⟩ := C24_invert iota l.A hA'
  obtain ⟨Bp, eB, -, -, iB⟩ := C24_invert iota l.B hB'
  have hAB := ne_of_not_allclose hl
  have hnc : ¬ Collinear iota.pole Ap Bp := by
    obtain ⟨nA, fA⟩ := isInverse_iff.1 iA
    obtain ⟨nB, fB⟩ := isInverse_iff.1 iB
    have pA := dot_self_pos nA
    have pB := dot_self_pos nB
    obtain ⟨mA, hmA⟩ : ∃ m, m = iota.power / dot (l.A - iota.pole) (l.A - iota.pole) := ⟨_, rfl⟩
    obtain ⟨mB, hmB⟩ : ∃ m, m = iota.power / dot (l.B - iota.pole) (l.B - iota.pole) := ⟨_, rfl⟩
    have hm1 : mA ≠ 0 := by rw [hmA]; exact div_ne_zero hk pA.ne'
    have hm2 : mB ≠ 0 := by rw [hmB]; exact div_ne_zero hk pB.ne'
    rw [← hmA] at fA
    rw [← hmB] at fB
    rw [onLine_iff_cross hAB] at h
    intro hc
    apply h
    unfold Collinear at hc
    have : cross (Ap - iota.pole) (Bp - iota.pole) = mA * mB * cross (l.B - l.A) (iota.pole - l.A) := by
      rw [fA, fB]; simp only [cross, Pt.add_x, Pt.add_y, Pt.smul_x, Pt.smul_y, Pt.sub_x, Pt.sub_y]; ring
    rw [this] at hc
    exact (mul_eq_zero.1 hc).resolve_left (mul_ne_zero hm1 hm2)
  obtain ⟨c, hc, hr, oO, oA, oB, -⟩ := C40_circumcircle ⟨iota.pole, Ap, Bp⟩ hnc
  refine ⟨c, ?_, hr, oO, ?_⟩
  · unfold Inversion.invert_line
    dsimp only
    rw [if_neg (by rw [collinear_of_valid hl]; push Not; exact ⟨⟨hA, hB⟩, h⟩), eA, eB]
    dsimp only
    rw [hc]
    rfl
  · dsimp only at oO oA oB
    have hD : sqDist c.center iota.pole = c.radius ^ 2 := by rw [sqDist_comm]; exact oO
    have qA := (inv_circle_through_pole hD hk (isInverse_symm hk iA)).1 oA
    have qB := (inv_circle_through_pole hD hk (isInverse_symm hk iB)).1 oB
    have hCO : c.center ≠ iota.pole := by
      intro e; rw [e] at hD
      have : sqDist iota.pole iota.pole = 0 := sqDist_eq_zero.2 rfl
      rw [this] at hD
      have := pow_pos hr 2
      linarith
    intro P Q hPQ
    rw [inv_circle_through_pole hD hk (isInverse_symm hk hPQ), onLine_iff_cross hAB]
    obtain ⟨u, hu⟩ : ∃ u, u = c.center - iota.pole := ⟨_, rfl⟩
    have hup : 0 < u.x ^ 2 + u.y ^ 2 := by
      have := sqDist_pos hCO
      rw [hu]; exact this
    rw [← hu] at qA qB ⊢
    simp only [dot, Pt.sub_x, Pt.sub_y] at qA qB ⊢
    simp only [cross, Pt.sub_x, Pt.sub_y]
    have e1 : u.x * (l.B.x - l.A.x) + u.y * (l.B.y - l.A.y) = 0 := by linarith
    -- the direction of the line is orthogonal to `u`
    have e2 : (u.x ^ 2 + u.y ^ 2) * ((l.B.x - l.A.x) * (P.y - l.A.y) - (l.B.y - l.A.y) * (P.x - l.A.x)) =
        (u.x * (l.B.y - l.A.y) - u.y * (l.B.x - l.A.x)) * (-(u.x * (P.x - l.A.x) + u.y * (P.y - l.A.y))) := by
      linear_combination (u.x * (P.y - l.A.y) - u.y * (P.x - l.A.x)) * e1
    have e3 : u.x * (l.B.y - l.A.y) - u.y * (l.B.x - l.A.x) ≠ 0 := by
      intro h0
      have hx : (u.x ^ 2 + u.y ^ 2) * (l.B.x - l.A.x) = 0 := by linear_combination u.x * e1 - u.y * h0
      have hy : (u.x ^ 2 + u.y ^ 2) * (l.B.y - l.A.y) = 0 := by linear_combination u.y * e1 + u.x * h0
      have hx' := (mul_eq_zero.1 hx).resolve_left hup.ne'
      have hy' := (mul_eq_zero.1 hy).resolve_left hup.ne'
      exact hAB (by ext <;> linarith)
    constructor
    · intro h0
      rw [h0, mul_zero] at e2
      have := (mul_eq_zero.1 e2.symm).resolve_left e3
      linarith
    · intro h0
      have : u.x * (P.x - l.A.x) + u.y * (P.y - l.A.y) = 0 := by linarith
      rw [this, neg_zero, mul_zero] at e2
      exact (mul_eq_zero.1 e2).resolve_left hup.ne'

/-- The hypotheses of `C26_invert_line_partial` hold for the line `y = 2` and the unit circle. -/
example : (⟨⟨0, 2⟩, ⟨1, 2⟩, true, true⟩ : Line).Valid ∧ ¬ OnLine (⟨0, 2⟩ : Pt) ⟨1, 2⟩ ⟨0, 0⟩ ∧
    ¬ allclose (⟨0, 2⟩ : Pt) ⟨0, 0⟩ ∧ ¬ allclose (⟨1, 2⟩ : Pt) ⟨0, 0⟩ ∧
    ¬ allclose (⟨0, 0⟩ : Pt) ⟨0, 2⟩ ∧ ¬ allclose (⟨0, 0⟩ : Pt) ⟨1, 2⟩ := by
  refine ⟨?_, ?_, ?_, ?_, ?_, ?_⟩
  · unfold Line.Valid allclose npClose; norm_num
  · rw [onLine_iff_cross (by simp)]; norm_num [cross]
  all_goals unfold allclose npClose; norm_num

/-- C26, failure: the line `y = 0` through `(0, 0)` and `(1, 0)` is returned unchanged by the inversion of pole
`(0, 10^-9)` and power 1, although it does not pass through the pole; the point `(1, 0)` of the line has its inverse
outside the line. -/
theorem C26_near_pole_counterexample :
    (⟨⟨0, 1 / 10 ^ 9⟩, 1⟩ : Inversion).invert_line ⟨⟨0, 0⟩, ⟨1, 0⟩, true, true⟩ =
      .ok (some (.line ⟨⟨0, 0⟩, ⟨1, 0⟩, true, true⟩)) ∧
    ¬ InvMapsOnto (⟨0, 1 / 10 ^ 9⟩ : Pt) 1 (OnLine ⟨0, 0⟩ ⟨1, 0⟩) (OnLine ⟨0, 0⟩ ⟨1, 0⟩) := by
  constructor
  · unfold Inversion.invert_line
    dsimp only
    rw [if_pos]
    rw [collinear_iff]
    left; right; left
    unfold allclose npClose; norm_num
  · intro h
    obtain ⟨Q, hQ⟩ := isInverse_exists (O := ⟨0, 1 / 10 ^ 9⟩) (P := ⟨1, 0⟩) 1 (by simp)
    have h1 := (h _ _ hQ).1 (onLine_right _ _)
    rw [onLine_iff_cross (by simp)] at h1
    obtain ⟨-, h2, h3⟩ := hQ
    simp only [cross, dot, Pt.sub_x, Pt.sub_y] at h1 h2 h3
    nlinarith

/-- C26, failure: a line whose first point is `np.allclose` to the pole only in one order of the arguments is rejected
with `ValueError`. -/
theorem C26_raises_counterexample :
    (⟨⟨1000, 0⟩, 1⟩ : Inversion).invert_line ⟨⟨1000 + 100001 / 10 ^ 7, 0⟩, ⟨0, 1⟩, true, true⟩ =
      .error (.valueError "`B` is not a point.") := by
  unfold Inversion.invert_line
  dsimp only
  rw [if_neg]
  · have : (⟨⟨1000, 0⟩, 1⟩ : Inversion).invert (.fin ⟨1000 + 100001 / 10 ^ 7, 0⟩) = .inf := by
      unfold Inversion.invert
      dsimp only
      rw [if_pos]
      unfold allclose npClose; norm_num [abs_of_pos]
    rw [this]
  · rw [collinear_iff]
    push Not
    refine ⟨⟨?_, ?_, ?_⟩, ?_⟩
    · unfold allclose npClose; norm_num
    · unfold allclose npClose; norm_num [abs_of_pos]
    · unfold allclose npClose; norm_num
    · norm_num [Collinear, cross]
