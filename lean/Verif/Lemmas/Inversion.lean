import Verif.Lemmas.Basic

/-!
# Spec-level facts on inversions and mirror symmetries
-/

open Spec

namespace Spec

theorem dot_self_pos {P O : Pt} (h : P ≠ O) : 0 < dot (P - O) (P - O) := by
  have := sqDist_pos h
  simp only [sqDist, dot, Pt.sub_x, Pt.sub_y] at *
  nlinarith

/-- The inverse in formula. -/
theorem isInverse_iff {O P Q : Pt} {k : ℝ} :
    IsInverse O k P Q ↔ P ≠ O ∧ Q = O + (k / dot (P - O) (P - O)) • (P - O) := by
  unfold IsInverse
  constructor
  · rintro ⟨h, hc, hd⟩
    refine ⟨h, ?_⟩
    have hp := dot_self_pos h
    obtain ⟨n, hn⟩ : ∃ n, n = dot (P - O) (P - O) := ⟨_, rfl⟩
    rw [← hn] at hp ⊢
    simp only [cross, dot, Pt.sub_x, Pt.sub_y] at hc hd hn
    ext
    · simp; field_simp; rw [hn]; linear_combination (P.x - O.x) * hd - (P.y - O.y) * hc
    · simp; field_simp; rw [hn]; linear_combination (P.y - O.y) * hd + (P.x - O.x) * hc
  · rintro ⟨h, rfl⟩
    have hp := dot_self_pos h
    refine ⟨h, ?_, ?_⟩
    · simp [cross]; ring
    · obtain ⟨n, hn⟩ : ∃ n, n = dot (P - O) (P - O) := ⟨_, rfl⟩
      rw [← hn] at hp ⊢
      simp only [dot, Pt.sub_x, Pt.sub_y] at hn
      simp [dot]; field_simp; rw [hn]; ring

theorem isInverse_symm {O P Q : Pt} {k : ℝ} (hk : k ≠ 0) (h : IsInverse O k P Q) : IsInverse O k Q P := by
  obtain ⟨h0, h1, h2⟩ := h
  refine ⟨?_, ?_, ?_⟩
  · rintro rfl; apply hk; rw [← h2]; simp [dot]
  · simp only [cross] at *; linarith
  · simp only [dot] at *; linarith

theorem isInverse_unique {O P Q Q' : Pt} {k : ℝ} (h : IsInverse O k P Q) (h' : IsInverse O k P Q') : Q = Q' := by
  rw [isInverse_iff] at h h'; rw [h.2, h'.2]

theorem isInverse_exists {O P : Pt} (k : ℝ) (h : P ≠ O) : ∃ Q, IsInverse O k P Q :=
  ⟨_, isInverse_iff.2 ⟨h, rfl⟩⟩

theorem InvMapsOnto.symm {O : Pt} {k : ℝ} {S T : Pt → Prop} (hk : k ≠ 0) (h : InvMapsOnto O k S T) :
    InvMapsOnto O k T S := fun P Q hPQ => (h Q P (isInverse_symm hk hPQ)).symm

/-- Image of a circle that does not pass through the pole. -/
theorem inv_circle_image {O C C' : Pt} {k r r' s : ℝ} (hk : k ≠ 0)
    (hs : s * (sqDist C O - r ^ 2) = k) (hC : C' = O + s • (C - O)) (hr : r' ^ 2 = s ^ 2 * r ^ 2) :
    InvMapsOnto O k (OnCircle C r) (OnCircle C' r') := by
  intro P Q h
  obtain ⟨h0, hQ⟩ := isInverse_iff.1 h
  have hp := dot_self_pos h0
  have hs0 : s ≠ 0 := by rintro rfl; apply hk; rw [← hs]; ring
  obtain ⟨n, hn⟩ : ∃ n, n = dot (P - O) (P - O) := ⟨_, rfl⟩
  rw [← hn] at hp hQ
  have key : n * (sqDist Q C' - r' ^ 2) = s * k * (sqDist P C - r ^ 2) := by
    rw [hr, hC, hQ]
    simp only [sqDist, Pt.sub_x, Pt.sub_y, Pt.add_x, Pt.add_y, Pt.smul_x, Pt.smul_y, dot] at *
    field_simp
    rw [← hs]
    rw [hn]
    ring
  unfold OnCircle
  constructor
  · intro h
    rw [h, sub_self, mul_zero] at key
    rcases mul_eq_zero.1 key with h' | h'
    · exact absurd h' hp.ne'
    · linarith
  · intro h
    rw [h, sub_self, mul_zero] at key
    rcases mul_eq_zero.1 key.symm with h' | h'
    · exact absurd h' (mul_ne_zero hs0 hk)
    · linarith

/-- Image of a circle through the pole: the line of equation `2 (C - O).(Q - O) = k`. -/
theorem inv_circle_through_pole {O C : Pt} {k r : ℝ} (hD : sqDist C O = r ^ 2) (hk : k ≠ 0) {P Q : Pt}
    (h : IsInverse O k P Q) : OnCircle C r P ↔ 2 * dot (C - O) (Q - O) = k := by
  obtain ⟨h0, hQ⟩ := isInverse_iff.1 h
  have hp := dot_self_pos h0
  obtain ⟨n, hn⟩ : ∃ n, n = dot (P - O) (P - O) := ⟨_, rfl⟩
  rw [← hn] at hp hQ
  have key : n * (2 * dot (C - O) (Q - O) - k) = -k * (sqDist P C - r ^ 2) := by
    rw [hQ, ← hD]
    simp only [sqDist, Pt.sub_x, Pt.sub_y, Pt.add_x, Pt.add_y, Pt.smul_x, Pt.smul_y, dot] at *
    field_simp
    rw [hn]
    ring
  unfold OnCircle
  constructor
  · intro h
    rw [h, sub_self, mul_zero] at key
    rcases mul_eq_zero.1 key with h' | h'
    · exact absurd h' hp.ne'
    · linarith
  · intro h
    rw [h, sub_self, mul_zero] at key
    rcases mul_eq_zero.1 key.symm with h' | h'
    · exact absurd h' (neg_ne_zero.2 hk)
    · linarith

end Spec
