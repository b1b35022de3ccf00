import Verif.Lemmas.TriGasketSteps
import Verif.Props.Line

/-! The hole in a corner of the triangular gasket. -/

open Spec Real Classical GV

namespace TriGasket

/-- The angle `BAC`: `u` is the direction of the bisector, `w` orthogonal to it, `σ` and `γ` the sine and the cosine of the half-angle. -/
structure Corner (A B C u w : Pt) (σ γ β κ : ℝ) : Prop where
  uu : dot u u = 1
  ww : dot w w = 1
  uw : dot u w = 0
  hσ : 0 < σ
  hγ : 0 < γ
  sq : σ ^ 2 + γ ^ 2 = 1
  hβ : 0 < β
  hκ : 0 < κ
  hB : B = A + β • (γ • u - σ • w)
  hC : C = A + κ • (γ • u + σ • w)

namespace Corner

variable {A B C u w : Pt} {σ γ β κ : ℝ}

theorem mirror (h : Corner A B C u w σ γ β κ) : Corner A C B u (-w) σ γ κ β where
  uu := h.uu
  ww := by have := h.ww; simp only [dot, Pt.neg_x, Pt.neg_y] at *; linear_combination this
  uw := by have := h.uw; simp only [dot, Pt.neg_x, Pt.neg_y] at *; linear_combination -this
  hσ := h.hσ
  hγ := h.hγ
  sq := h.sq
  hβ := h.hκ
  hκ := h.hβ
  hB := by rw [h.hC]; ext <;> simp
  hC := by rw [h.hB]; ext <;> simp only [Pt.add_x, Pt.add_y, Pt.smul_x, Pt.smul_y, Pt.sub_x, Pt.sub_y, Pt.neg_x, Pt.neg_y] <;> ring

theorem σ_lt (h : Corner A B C u w σ γ β κ) : σ < 1 := by
  have := h.sq; have := h.hγ; have := h.hσ; nlinarith

/-- `w` is `u` turned by a right angle, one way or the other. -/
theorem frame (h : Corner A B C u w σ γ β κ) : ∃ s : ℝ, s ^ 2 = 1 ∧ w.x = -s * u.y ∧ w.y = s * u.x := by
  have uu := h.uu
  have ww := h.ww
  have uw := h.uw
  unfold dot at uu ww uw
  refine ⟨u.x * w.y - u.y * w.x, ?_, ?_, ?_⟩
  · linear_combination (w.x * w.x + w.y * w.y) * uu + ww - (u.x * w.x + u.y * w.y) * uw
  · linear_combination (-w.x) * uu + u.x * uw
  · linear_combination (-w.y) * uu + u.y * uw

end Corner

/-- The intersection of the tangent with the second side, when it is found. -/
theorem corner_meet {A B C u w : Pt} {σ γ β κ : ℝ} (h : Corner A B C u w σ γ β κ) {l : ℝ} (hl : 0 < l) {τ I : Pt}
    (hτ : τ = (σ * l) • (⟨u.y, -u.x⟩ : Pt)) (e1 : ¬ allclose (A + (l - σ * l) • u) (A + (l - σ * l) • u + τ)) (e2 : ¬ allclose A C)
    (hI : Line.intersection_line_line ⟨A + (l - σ * l) • u, A + (l - σ * l) • u + τ, true, true⟩ ⟨A, C, true, true⟩ = some I) :
    I = A + (l * (1 - σ) / γ) • (γ • u + σ • w) := by
  obtain ⟨s, hs, wx, wy⟩ := h.frame
  have hσ := h.hσ
  have hγ := h.hγ
  have hκ := h.hκ
  obtain ⟨-, un⟩ := C12_intersection_sound ⟨A + (l - σ * l) • u, A + (l - σ * l) • u + τ, true, true⟩ ⟨A, C, true, true⟩ e1 e2 _ _ hI
  refine (un _ ⟨-(l * (1 - σ) / γ) * s / l, ?_⟩ ⟨l * (1 - σ) / γ / κ, ?_⟩).symm
  · dsimp only
    rw [hτ]
    ext
    · simp only [Pt.add_x, Pt.smul_x, Pt.sub_x, wx]; field_simp; ring
    · simp only [Pt.add_y, Pt.smul_y, Pt.sub_y, wy]; field_simp; ring
  · dsimp only
    rw [h.hC]
    ext
    · simp only [Pt.add_x, Pt.smul_x, Pt.sub_x]; field_simp; ring
    · simp only [Pt.add_y, Pt.smul_y, Pt.sub_y]; field_simp; ring

/-- The incircle of the small isosceles triangle. -/
theorem corner_incircle {A B C u w : Pt} {σ γ β κ : ℝ} (h : Corner A B C u w σ γ β κ) {t : ℝ} (ht : 0 < t) :
    (⟨A, A + t • (γ • u + σ • w), A + t • (γ • u - σ • w)⟩ : Triangle).incircle =
      .ok ⟨A + (t * γ / (1 + σ)) • u, σ * (t * γ / (1 + σ))⟩ := by
  have hσ := h.hσ
  have hγ := h.hγ
  have sq := h.sq
  have h1 := h.σ_lt
  have uu := h.uu
  have ww := h.ww
  have uw := h.uw
  unfold dot at uu ww uw
  have da : Spec.dist (A + t • (γ • u + σ • w)) (A + t • (γ • u - σ • w)) = 2 * t * σ := by
    rw [dist_eq_iff (by positivity)]
    simp only [sqDist, Pt.add_x, Pt.add_y, Pt.smul_x, Pt.smul_y, Pt.sub_x, Pt.sub_y]
    linear_combination 4 * t ^ 2 * σ ^ 2 * ww
  have db : Spec.dist A (A + t • (γ • u - σ • w)) = t := by
    rw [dist_eq_iff ht.le]
    simp only [sqDist, Pt.add_x, Pt.add_y, Pt.smul_x, Pt.smul_y, Pt.sub_x, Pt.sub_y]
    linear_combination t ^ 2 * (γ ^ 2 * uu + σ ^ 2 * ww - 2 * γ * σ * uw + sq)
  have dc : Spec.dist (A + t • (γ • u + σ • w)) A = t := by
    rw [dist_eq_iff ht.le]
    simp only [sqDist, Pt.add_x, Pt.add_y, Pt.smul_x, Pt.smul_y]
    linear_combination t ^ 2 * (γ ^ 2 * uu + σ ^ 2 * ww + 2 * γ * σ * uw + sq)
  unfold Triangle.incircle
  dsimp only
  rw [distance_eq, distance_eq, distance_eq, da, db, dc]
  have hq : (2 * t * σ + t + t) / 2 * ((2 * t * σ + t + t) / 2 - 2 * t * σ) * ((2 * t * σ + t + t) / 2 - t) * ((2 * t * σ + t + t) / 2 - t) =
      (t ^ 2 * σ * γ) ^ 2 := by
    linear_combination (-(t ^ 4 * σ ^ 2)) * sq
  have hp : 2 * t * σ + t + t ≠ 0 := by positivity
  rw [hq, pySqrt, if_neg (not_lt.2 (sq_nonneg _)), Real.sqrt_sq (by positivity), Res.ok_bind, if_neg hp]
  have hc : ((2 * t * σ) • A + t • (A + t • (γ • u + σ • w)) + t • (A + t • (γ • u - σ • w))) / (2 * t * σ + t + t) =
      A + (t * γ / (1 + σ)) • u := by
    have : 2 * t * σ + t + t = 2 * t * (1 + σ) := by ring
    rw [this]
    ext
    · simp only [Pt.add_x, Pt.smul_x, Pt.sub_x, Pt.div_x]; field_simp; ring
    · simp only [Pt.add_y, Pt.smul_y, Pt.sub_y, Pt.div_y]; field_simp; ring
  have hr : t ^ 2 * σ * γ / ((2 * t * σ + t + t) / 2) = σ * (t * γ / (1 + σ)) := by
    field_simp
    ring
  rw [hc, hr, mkCircle_pos (by positivity)]

/-- The first lines of `side_side_circle`. -/
theorem corner_point {A B C u w : Pt} {σ γ β κ : ℝ} (h : Corner A B C u w σ γ β κ) {l : ℝ} (hl : 0 < l) :
    side_side_circle A B C ⟨A + l • u, σ * l⟩ = (do
      let tangent ← mkLine (A + (l - σ * l) • u) (A + (l - σ * l) • u + (σ * l) • (⟨u.y, -u.x⟩ : Pt))
      let lineAC ← mkLine A C
      let lineAB ← mkLine A B
      let T ← mkTriangleO A (Line.intersection_line_line tangent lineAC) (Line.intersection_line_line tangent lineAB)
      let incircle ← T.incircle
      return ⟨incircle, [.cll A B C incircle, .ccl ⟨A + l • u, σ * l⟩ incircle A B, .ccl ⟨A + l • u, σ * l⟩ incircle A C]⟩) := by
  have uu := h.uu
  unfold dot at uu
  have hv : (⟨A.x, A.y⟩ : ℂ) - ⟨(A + l • u).x, (A + l • u).y⟩ = ⟨-l * u.x, -l * u.y⟩ := by
    apply Complex.ext <;> simp
  have hn : ‖(⟨-l * u.x, -l * u.y⟩ : ℂ)‖ = l := by
    rw [Complex.norm_def, Complex.normSq_mk, show -l * u.x * (-l * u.x) + -l * u.y * (-l * u.y) = l ^ 2 by linear_combination l ^ 2 * uu,
      Real.sqrt_sq hl.le]
  have hz : (⟨(A + l • u).x, (A + l • u).y⟩ : ℂ) + ((σ * l : ℝ) : ℂ) * (⟨-l * u.x, -l * u.y⟩ : ℂ) / ((l : ℝ) : ℂ) =
      ⟨(A + (l - σ * l) • u).x, (A + (l - σ * l) • u).y⟩ := by
    have : ((σ * l : ℝ) : ℂ) * (⟨-l * u.x, -l * u.y⟩ : ℂ) / ((l : ℝ) : ℂ) = ⟨-(σ * l) * u.x, -(σ * l) * u.y⟩ := by
      rw [div_eq_iff (by exact_mod_cast hl.ne')]
      apply Complex.ext <;> simp <;> ring
    rw [this]
    apply Complex.ext <;> simp <;> ring
  unfold side_side_circle
  dsimp only
  rw [hv, hn, Gasket.pyDivC, if_neg hl.ne', Res.ok_bind, hz]
  dsimp only
  have hτ : (⟨-((⟨(A + (l - σ * l) • u).x, (A + (l - σ * l) • u).y⟩ : Pt) - (A + l • u)).y,
      ((⟨(A + (l - σ * l) • u).x, (A + (l - σ * l) • u).y⟩ : Pt) - (A + l • u)).x⟩ : Pt) = (σ * l) • (⟨u.y, -u.x⟩ : Pt) := by
    ext
    · simp; ring
    · simp; ring
  rw [hτ]

/-- The circle drawn in a corner, when the function succeeds. -/
theorem corner_ok {A B C u w : Pt} {σ γ β κ : ℝ} (h : Corner A B C u w σ γ β κ) {l : ℝ} (hl : 0 < l) {st : Step}
    (hr : side_side_circle A B C ⟨A + l • u, σ * l⟩ = .ok st) :
    st = ⟨⟨A + ((1 - σ) / (1 + σ) * l) • u, σ * ((1 - σ) / (1 + σ) * l)⟩,
      [.cll A B C ⟨A + ((1 - σ) / (1 + σ) * l) • u, σ * ((1 - σ) / (1 + σ) * l)⟩,
        .ccl ⟨A + l • u, σ * l⟩ ⟨A + ((1 - σ) / (1 + σ) * l) • u, σ * ((1 - σ) / (1 + σ) * l)⟩ A B,
        .ccl ⟨A + l • u, σ * l⟩ ⟨A + ((1 - σ) / (1 + σ) * l) • u, σ * ((1 - σ) / (1 + σ) * l)⟩ A C]⟩ := by
  have hσ := h.hσ
  have hγ := h.hγ
  have h1 := h.σ_lt
  rw [corner_point h hl] at hr
  obtain ⟨tg, e1, hr⟩ := Res.bind_ok.1 hr
  obtain ⟨l1, e2, hr⟩ := Res.bind_ok.1 hr
  obtain ⟨l2, e3, hr⟩ := Res.bind_ok.1 hr
  obtain ⟨T, e4, hr⟩ := Res.bind_ok.1 hr
  obtain ⟨inc, e5, hr⟩ := Res.bind_ok.1 hr
  have hst := Res.pure_ok.1 hr
  obtain ⟨n1, rfl⟩ := mkLine_ok.1 e1
  obtain ⟨n2, rfl⟩ := mkLine_ok.1 e2
  obtain ⟨n3, rfl⟩ := mkLine_ok.1 e3
  cases hP1 : Line.intersection_line_line ⟨A + (l - σ * l) • u, A + (l - σ * l) • u + (σ * l) • (⟨u.y, -u.x⟩ : Pt), true, true⟩ ⟨A, C, true, true⟩ with
  | none => rw [hP1] at e4; simp [mkTriangleO] at e4
  | some P1 =>
    cases hP2 : Line.intersection_line_line ⟨A + (l - σ * l) • u, A + (l - σ * l) • u + (σ * l) • (⟨u.y, -u.x⟩ : Pt), true, true⟩ ⟨A, B, true, true⟩ with
    | none => rw [hP1, hP2] at e4; simp [mkTriangleO] at e4
    | some P2 =>
      rw [hP1, hP2] at e4
      have q1 := corner_meet h hl rfl n1 n2 hP1
      have q2 := corner_meet h.mirror hl rfl n1 n3 hP2
      have e4' : (⟨A, P1, P2⟩ : Triangle) = T := by simpa [mkTriangleO] using e4
      have ht : 0 < l * (1 - σ) / γ := by
        have : 0 < 1 - σ := by linarith
        positivity
      have q3 : A + (l * (1 - σ) / γ) • (γ • u + σ • -w) = A + (l * (1 - σ) / γ) • (γ • u - σ • w) := by
        ext <;> simp only [Pt.add_x, Pt.add_y, Pt.smul_x, Pt.smul_y, Pt.sub_x, Pt.sub_y, Pt.neg_x, Pt.neg_y] <;> ring
      rw [← e4', q1, q2, q3, corner_incircle h ht] at e5
      have e5' := Except.ok.inj e5
      have hk : l * (1 - σ) / γ * γ / (1 + σ) = (1 - σ) / (1 + σ) * l := by field_simp
      rw [hk] at e5'
      rw [e5', hst]

end TriGasket
