import Verif.Lemmas.Gasket
import Verif.Props.MobiusCircle

/-! Images of discs by Möbius transformations. -/

open Spec Real Classical

/-- Negative inside the circle, zero on it, positive outside. -/
noncomputable def side (c : Circle) (P : XPt) : ℝ := Complex.normSq (num P - cpx c.center * den P) - c.radius ^ 2 * Complex.normSq (den P)

theorem side_fin (c : Circle) (P : Pt) : side c (.fin P) = sqDist P c.center - c.radius ^ 2 := by
  simp [side, cpx, sqDist, Complex.normSq_apply]
  ring

theorem side_inf (c : Circle) : side c .inf = 1 := by simp [side]

theorem mem_disc_iff (c : Circle) (X : XPt) : X ∈ (disc c).inside ↔ side c X < 0 := by
  cases X with
  | fin P => rw [mem_disc_fin, side_fin, sub_neg]
  | inf => rw [side_inf]; simp [mem_disc_inf]

theorem mem_edge_iff (c : Circle) (X : XPt) : X ∈ (disc c).edge ↔ side c X = 0 := by
  cases X with
  | fin P => rw [mem_edge_fin, side_fin, sub_eq_zero]
  | inf => rw [side_inf]; simp [mem_edge_inf]

theorem mem_outside_iff (c : Circle) (X : XPt) : X ∈ (outside c).inside ↔ 0 < side c X := by
  cases X with
  | fin P => rw [mem_outside_fin, side_fin, sub_pos]
  | inf => rw [side_inf]; simp [mem_outside_inf]

/-- The sides of a circle are sent to the sides of its image. -/
theorem side_image (f : Mobius) (h : Matrix.det f.M ≠ 0) (circ : Circle) (hc : circ.Valid)
    (hD : Complex.normSq (f.c * cpx circ.center + f.d) - circ.radius ^ 2 * Complex.normSq f.c ≠ 0) :
    ∃ c' : Circle, f.transform_circle circ = .ok (.circle c') ∧ c'.Valid ∧ ∀ P Q, f.transform P = .ok Q →
      ∃ k : ℝ, 0 < k ∧ side c' Q * (Complex.normSq (f.c * cpx circ.center + f.d) - circ.radius ^ 2 * Complex.normSq f.c) = k * side circ P := by
  have h0 : f.a * f.d - f.b * f.c ≠ 0 := (det_ne_iff _).1 h
  have hp : ∀ P, OnCircle circ.center circ.radius P → f.transform (.fin P) ≠ .ok .inf := by
    intro P hP e
    rw [C49_transform _ h] at e
    have e' : IsMobImage f.a f.b f.c f.d (.fin P) .inf := e
    simp only [IsMobImage, num_fin, den_fin, num_inf, den_inf, mul_one, mul_zero] at e'
    apply hD
    rw [onCircle_iff_norm] at hP
    have : f.c * cpx circ.center + f.d = -(f.c * (cpx P - cpx circ.center)) := by linear_combination -e'
    rw [this, Complex.normSq_neg, Complex.normSq_mul, hP]
    ring
  obtain ⟨c', D, e1, v, -, -, d1, o1, r1⟩ := transform_circle_explicit f h circ hc hp
  rw [← d1] at hD ⊢
  refine ⟨c', e1, v, ?_⟩
  intro P Q e
  rw [C49_transform _ h] at e
  have e' : IsMobImage f.a f.b f.c f.d P Q := e
  obtain ⟨μ, hμ, m1, m2⟩ := (mobImage_iff (by intro e; apply h0; linear_combination e) Q P).1 (mobImage_symm h0 e')
  have hμ' : 0 < Complex.normSq μ := Complex.normSq_pos.2 hμ
  refine ⟨Complex.normSq μ, hμ', ?_⟩
  obtain ⟨U, hU⟩ : ∃ U, U = f.a * cpx circ.center + f.b := ⟨_, rfl⟩
  obtain ⟨V, hV⟩ : ∃ V, V = f.c * cpx circ.center + f.d := ⟨_, rfl⟩
  have m3 : V * num Q - U * den Q = μ * (num P - cpx circ.center * den P) := by
    rw [hU, hV]; linear_combination m1 - cpx circ.center * m2
  have hs : Complex.normSq μ * side circ P =
      Complex.normSq (V * num Q - U * den Q) - circ.radius ^ 2 * Complex.normSq (-f.c * num Q + f.a * den Q) := by
    rw [m3, m2, Complex.normSq_mul, Complex.normSq_mul, side]; ring
  rw [hs]
  rw [← hU, ← hV] at o1
  rw [← hV] at d1
  cases Q with
  | inf =>
    rw [side_inf]
    simp only [num_inf, den_inf, mul_one, mul_zero, sub_zero, add_zero, Complex.normSq_neg]
    rw [← d1]; ring
  | fin Q =>
    have id := circle_identity U V f.a f.c (cpx Q) circ.radius
    rw [← d1, ← o1, ← mul_sub, Complex.normSq_mul, Complex.normSq_ofReal,
      show f.a * V - U * f.c = f.a * f.d - f.b * f.c by rw [hU, hV]; ring] at id
    simp only [num_fin, den_fin, mul_one]
    apply mul_left_cancel₀ hD
    rw [id, side]
    simp only [num_fin, den_fin, mul_one, map_one]
    rw [r1]
    field_simp

/-- C53 for discs: when the pole of the transformation is outside the circle, the inside goes to the inside. -/
theorem disc_image (f : Mobius) (h : Matrix.det f.M ≠ 0) (circ : Circle) (hc : circ.Valid)
    (hD : 0 < Complex.normSq (f.c * cpx circ.center + f.d) - circ.radius ^ 2 * Complex.normSq f.c) :
    ∃ c' : Circle, f.transform_circle circ = .ok (.circle c') ∧ c'.Valid ∧ ∀ P Q, f.transform P = .ok Q →
      (P ∈ (disc circ).inside ↔ Q ∈ (disc c').inside) ∧ (P ∈ (disc circ).edge ↔ Q ∈ (disc c').edge) ∧
      (P ∈ (outside circ).inside ↔ Q ∈ (outside c').inside) := by
  obtain ⟨c', e, v, hs⟩ := side_image f h circ hc hD.ne'
  refine ⟨c', e, v, ?_⟩
  intro P Q e
  obtain ⟨k, hk, hkk⟩ := hs P Q e
  simp only [mem_disc_iff, mem_edge_iff, mem_outside_iff]
  generalize Complex.normSq (f.c * cpx circ.center + f.d) - circ.radius ^ 2 * Complex.normSq f.c = D at hkk hD
  refine ⟨?_, ?_, ?_⟩
  · rw [← neg_pos, ← neg_pos (a := side c' Q), ← mul_pos_iff_of_pos_left hk, ← mul_pos_iff_of_pos_right (a := -side c' Q) hD,
      mul_neg, neg_mul, hkk]
  · constructor
    · intro e; rw [e, mul_zero] at hkk; exact (mul_eq_zero.1 hkk).resolve_right hD.ne'
    · intro e; rw [e, zero_mul] at hkk; exact (mul_eq_zero.1 hkk.symm).resolve_left hk.ne'
  · rw [← mul_pos_iff_of_pos_left hk, ← mul_pos_iff_of_pos_right (a := side c' Q) hD, hkk]
