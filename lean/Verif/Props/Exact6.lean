import Verif.Props.Exact5
import Verif.Props.Equality
import Verif.Props.EllipseAngle

/-!
# Exact conditions: equality of ellipses, single intersection points

As in `Props/Exact.lean`.
-/

open Spec Real Classical

/-! ### C77 -/

theorem deg_eq_rad (x : Ellipse) : x.deg = x.rad * (180 / π) := by
  have := pi_ne_zero
  unfold Ellipse.rad Ellipse.deg
  split_ifs
  · field_simp
  · rfl

/-- C77, the exact condition: two ellipses with the same points are reported equal exactly when either they are not circular and are given
with the semi-axes in the same order, or they are circular and their angles modulo 180 degrees are within the tolerance of `np.isclose`. -/
theorem C77_exact (e f : Ellipse) (he : e.Valid) (hf : f.Valid) (h : ∀ P, OnE e P ↔ OnE f P) :
    e.is_equal f ↔ (e.rmajor ≠ e.rminor ∧ e.rmajor = f.rmajor) ∨
      (e.rmajor = e.rminor ∧ npClose (pyMod e.deg 180) (pyMod f.deg 180)) := by
  obtain ⟨hcen, k1, k2, k3⟩ := ellipse_params0 he hf (fun P => (h P).1)
  have hπ := pi_pos
  obtain ⟨a1, b1⟩ := he
  obtain ⟨a2, b2⟩ := hf
  have hcs := sin_sq_add_cos_sq (e.rad - f.rad)
  have hdeg : e.is_equal f ↔ npClose e.center.x f.center.x ∧ npClose e.center.y f.center.y ∧ npClose e.rmajor f.rmajor ∧
    npClose e.rminor f.rminor ∧ npClose (pyMod e.deg 180) (pyMod f.deg 180) := Iff.rfl
  rw [hdeg, hcen]
  by_cases hcirc : f.rmajor = f.rminor
  · rw [hcirc] at k1 k2
    have r1 : e.rmajor = f.rminor := by
      apply (pow_left_inj₀ a1.le b2.le two_ne_zero).1
      apply mul_left_cancel₀ (show f.rminor ^ 2 ≠ 0 by positivity)
      linear_combination k1 - e.rmajor ^ 2 * f.rminor ^ 2 * hcs
    have r2 : e.rminor = f.rminor := by
      apply (pow_left_inj₀ b1.le b2.le two_ne_zero).1
      apply mul_left_cancel₀ (show f.rminor ^ 2 ≠ 0 by positivity)
      linear_combination k2 - e.rminor ^ 2 * f.rminor ^ 2 * hcs
    rw [r1, r2, hcirc]
    simp [npClose_refl]
  · have hne : f.rmajor ^ 2 - f.rminor ^ 2 ≠ 0 := by
      intro h0
      exact hcirc ((pow_left_inj₀ a2.le b2.le two_ne_zero).1 (by linarith))
    rcases mul_eq_zero.1 ((mul_eq_zero.1 k3).resolve_left hne) with h0 | h0
    · -- swapped semi-axes
      rw [h0] at k1 k2 hcs
      have s2 : sin (e.rad - f.rad) ^ 2 = 1 := by linarith
      rw [s2] at k1 k2
      have r1 : e.rmajor = f.rminor := by
        apply (pow_left_inj₀ a1.le b2.le two_ne_zero).1
        apply mul_left_cancel₀ (show f.rmajor ^ 2 ≠ 0 by positivity)
        linarith
      have r2 : e.rminor = f.rmajor := by
        apply (pow_left_inj₀ b1.le a2.le two_ne_zero).1
        apply mul_left_cancel₀ (show f.rminor ^ 2 ≠ 0 by positivity)
        linarith
      rw [r1, r2]
      constructor
      · rintro ⟨-, -, -, -, h5⟩
        exfalso
        obtain ⟨n, hn⟩ := cos_eq_zero_iff.1 h0
        have e1 : e.deg = f.deg + (2 * n + 1) * 90 := by
          rw [deg_eq_rad, deg_eq_rad, show e.rad = f.rad + (2 * n + 1) * π / 2 by linarith]
          field_simp
          ring
        have p0 := pyMod_nonneg f.deg (show (0 : ℝ) < 180 by norm_num)
        have p1 := pyMod_lt f.deg (show (0 : ℝ) < 180 by norm_num)
        have q0 := pyMod_nonneg e.deg (show (0 : ℝ) < 180 by norm_num)
        have q1 := pyMod_lt e.deg (show (0 : ℝ) < 180 by norm_num)
        obtain ⟨m, hm⟩ : ∃ m : ℤ, pyMod e.deg 180 - pyMod f.deg 180 = (2 * m + 1) * 90 := by
          refine ⟨n - ⌊e.deg / 180⌋ + ⌊f.deg / 180⌋, ?_⟩
          unfold pyMod
          push_cast
          linear_combination e1
        have hodd : 90 ≤ |pyMod e.deg 180 - pyMod f.deg 180| := by
          rw [hm]
          rcases le_or_gt 0 m with h | h
          · have : (0 : ℝ) ≤ m := by exact_mod_cast h
            rw [abs_of_nonneg (by positivity)]
            linarith
          · have : (m : ℝ) ≤ -1 := by exact_mod_cast (by omega : m ≤ -1)
            rw [abs_of_neg (by linarith)]
            linarith
        unfold npClose at h5
        rw [abs_of_nonneg p0] at h5
        linarith
      · rintro (⟨-, h1⟩ | ⟨h1, -⟩)
        · exact absurd h1.symm hcirc
        · exact absurd h1.symm hcirc
    · rw [h0] at k1 k2 hcs
      have c2 : cos (e.rad - f.rad) ^ 2 = 1 := by linarith
      rw [c2] at k1 k2
      have r1 : e.rmajor = f.rmajor := by
        apply (pow_left_inj₀ a1.le a2.le two_ne_zero).1
        apply mul_left_cancel₀ (show f.rminor ^ 2 ≠ 0 by positivity)
        linarith
      have r2 : e.rminor = f.rminor := by
        apply (pow_left_inj₀ b1.le b2.le two_ne_zero).1
        apply mul_left_cancel₀ (show f.rmajor ^ 2 ≠ 0 by positivity)
        linarith
      rw [r1, r2]
      refine ⟨fun _ => Or.inl ⟨hcirc, rfl⟩, fun _ => ⟨npClose_refl _, npClose_refl _, npClose_refl _, npClose_refl _, ?_⟩⟩
      obtain ⟨n, hn⟩ := sin_eq_zero_iff.1 h0
      have e1 : e.deg = f.deg + n * 180 := by
        rw [deg_eq_rad, deg_eq_rad, show e.rad = f.rad + n * π by linarith]
        field_simp
      rw [e1, pyMod_add_int_mul _ (by norm_num)]
      exact npClose_refl _

/-- The ellipse with semi-axes 2 and 1 and angle 0, and the same one with angle 180. -/
example : ∀ P, OnE ⟨⟨0, 0⟩, 2, 1, 0, true⟩ P ↔ OnE ⟨⟨0, 0⟩, 2, 1, 180, true⟩ P := by
  intro P
  unfold OnE
  have h := onEllipse_half_turns (O := ⟨0, 0⟩) (a := 2) (b := 1) (α := 0) 1 (P := P)
  unfold Ellipse.rad
  simp only [if_true]
  rw [show (0 : ℝ) * (π / 180) = 0 by ring, show (180 : ℝ) * (π / 180) = 0 + ((1 : ℤ) : ℝ) * π by push_cast; ring, h]

/-! ### C21, C70 -/

/-- C21, the exact condition for a single returned point: it is on the circle exactly when the line is tangent to the circle there. -/
theorem C21_one_exact (c : Circle) (l : Line) (hl : l.Valid) (P : Pt) (h : intersection_circle_line c l = .one P) :
    OnCircle c.center c.radius P ↔ ∀ X, (OnLine l.A l.B X ∧ OnCircle c.center c.radius X) ↔ X = P := by
  obtain ⟨hon, hp⟩ := C21_one c l hl P h
  constructor
  · intro hP X
    constructor
    · rintro ⟨h1, h2⟩
      obtain ⟨s, rfl⟩ := hon
      obtain ⟨t, rfl⟩ := h1
      have hne := sqDist_pos (ne_of_not_allclose hl)
      unfold OnCircle at hP h2
      unfold Perp dot at hp
      unfold sqDist at hne hP h2
      simp only [Pt.add_x, Pt.add_y, Pt.smul_x, Pt.smul_y, Pt.sub_x, Pt.sub_y] at hP h2 hp
      have : (t - s) ^ 2 * ((l.A.x - l.B.x) ^ 2 + (l.A.y - l.B.y) ^ 2) = 0 := by
        linear_combination h2 - hP + 2 * (t - s) * hp
      have hts : t = s := by
        have := (mul_eq_zero.1 this).resolve_right hne.ne'
        have := pow_eq_zero_iff (two_ne_zero) |>.1 this
        linarith
      rw [hts]
    · rintro rfl
      exact ⟨hon, hP⟩
  · intro h; exact ((h P).2 rfl).2

/-- C70, the exact condition for a single returned point: it is on the ellipse or circle exactly when the line is tangent there. -/
theorem C70_exact (x : EllArg) (hx : ValidArg x) (l : Line) (hl : l.Valid) (P : Pt)
    (h : intersection_ellipse_line x l = .ok (.one P)) :
    OnArg x P ↔ ∀ X, (OnLine l.A l.B X ∧ OnArg x X) ↔ X = P := by
  cases x with
  | circ c =>
    unfold intersection_ellipse_line at h
    simp only [Except.ok.injEq] at h
    exact C21_one_exact c l hl P h
  | ell e =>
    obtain ⟨d1, h1⟩ := ofEllipse_spec (x := .ell e) hx
    rcases iel_cases e hx l with ⟨m, h2, -⟩ | ⟨l2, v, -, hon, ⟨-, h2⟩ | ⟨I, h3, h2⟩ | ⟨I, J, h3, h2⟩⟩
    · rw [h] at h2; simp at h2
    · rw [h] at h2; simp at h2
    · rw [h] at h2
      simp only [Except.ok.injEq, PtRes.one.injEq] at h2
      have hi := (transform_injective_iff _).2 d1
      obtain ⟨g, -, -, hg, -⟩ := inverse_some _ d1
      have key := C21_one_exact _ _ v I h3
      rw [h2, ← h1, key]
      constructor
      · intro hk X
        obtain ⟨Y, rfl⟩ : ∃ Y, (Affine.ofEllipse (.ell e)).transform Y = X := ⟨_, hg X⟩
        rw [← hon, ← h1, hi.eq_iff]
        exact hk Y
      · intro hk Y
        have := hk ((Affine.ofEllipse (.ell e)).transform Y)
        rw [← hon, ← h1, hi.eq_iff] at this
        exact this
    · rw [h] at h2; simp at h2

/-- The single point returned for the unit circle and the line `y = 1` is on the circle and is the only common point. -/
example (P : Pt) (h : intersection_circle_line ⟨⟨0, 0⟩, 1⟩ ⟨⟨0, 1⟩, ⟨1, 1⟩, true, true⟩ = .one P) (hP : OnCircle ⟨0, 0⟩ 1 P) : P = ⟨0, 1⟩ :=
  (((C21_one_exact ⟨⟨0, 0⟩, 1⟩ _ (by unfold Line.Valid allclose npClose; norm_num) P h).1 hP ⟨0, 1⟩).1
    ⟨onLine_left _ _, by norm_num [OnCircle, sqDist]⟩).symm

/-- The same with the circle taken as an ellipse. -/
example (P : Pt) (h : intersection_ellipse_line (.circ ⟨⟨0, 0⟩, 1⟩) ⟨⟨0, 1⟩, ⟨1, 1⟩, true, true⟩ = .ok (.one P))
    (hP : OnArg (.circ ⟨⟨0, 0⟩, 1⟩) P) : P = ⟨0, 1⟩ := by
  refine (((C70_exact (.circ ⟨⟨0, 0⟩, 1⟩) ?_ _ (by unfold Line.Valid allclose npClose; norm_num) P h).1 hP ⟨0, 1⟩).1
    ⟨onLine_left _ _, ?_⟩).symm
  · show Circle.Valid _; unfold Circle.Valid; norm_num
  · show OnCircle _ _ _; norm_num [OnCircle, sqDist]
