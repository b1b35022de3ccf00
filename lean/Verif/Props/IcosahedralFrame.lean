import Verif.Model.IcosahedralGasket
import Verif.Props.TriangularGasketExact
import Verif.Props.EllipticalChains

/-!
# C109: the matrix of a face in `ApollonianIcosahedralGasket.py`
-/

open Spec Real Classical

namespace Icosahedral

/-- Three unit vectors, perpendicular to each other, the third one is the cross product of the others. -/
structure Frame (p q n : Pt3) : Prop where
  pp : dot3 p p = 1
  qq : dot3 q q = 1
  nn : dot3 n n = 1
  pq : dot3 p q = 0
  pn : dot3 p n = 0
  qn : dot3 q n = 0
  hn : npCross p q = n

/-- The point with given coordinates in a frame. -/
noncomputable def at3 (A p q n : Pt3) (v : Pt3) : Pt3 := A + v.x • p + v.y • q + v.z • n

noncomputable def mat (A p q n : Pt3) : Matrix (Fin 4) (Fin 4) ℝ :=
  !![p.x, q.x, n.x, A.x; p.y, q.y, n.y, A.y; p.z, q.z, n.z, A.z; 0, 0, 0, 1]

theorem applyMat_mat (A p q n v : Pt3) : applyMat (mat A p q n) v = at3 A p q n v := by
  unfold applyMat mat at3
  simp only [Matrix.mulVec, dotProduct, Fin.sum_univ_four]
  ext
  · simp; ring
  · simp; ring
  · simp; ring

theorem vdiv_ok {v : Pt3} {s : ℝ} (h : s ≠ 0) : vdiv v s = .ok ⟨v.x / s, v.y / s, v.z / s⟩ := by
  unfold vdiv npDiv
  rw [if_neg h, if_neg h, if_neg h]
  rfl

theorem vdiv_zero (v : Pt3) : vdiv v 0 = .error .nonFinite := by
  unfold vdiv npDiv
  rw [if_pos rfl, if_pos rfl]
  rfl

theorem vlength_sq (v : Pt3) : vlength v ^ 2 = dot3 v v := by
  unfold vlength
  rw [sq_sqrt (by positivity)]
  unfold dot3
  ring

theorem vlength_eq {v : Pt3} {l : ℝ} (hl : 0 ≤ l) (h : dot3 v v = l ^ 2) : vlength v = l := by
  unfold vlength
  rw [show v.x ^ 2 + v.y ^ 2 + v.z ^ 2 = l ^ 2 by rw [← h]; unfold dot3; ring, sqrt_sq hl]

theorem dot3_self_zero {v : Pt3} (h : dot3 v v = 0) : v = ⟨0, 0, 0⟩ := by
  unfold dot3 at h
  ext
  · dsimp only; nlinarith [mul_self_nonneg v.x, mul_self_nonneg v.y, mul_self_nonneg v.z]
  · dsimp only; nlinarith [mul_self_nonneg v.x, mul_self_nonneg v.y, mul_self_nonneg v.z]
  · dsimp only; nlinarith [mul_self_nonneg v.x, mul_self_nonneg v.y, mul_self_nonneg v.z]

theorem dot3_self_pos {v : Pt3} (h : v ≠ ⟨0, 0, 0⟩) : 0 < dot3 v v := by
  rcases lt_or_eq_of_le (show 0 ≤ dot3 v v by unfold dot3; nlinarith [mul_self_nonneg v.x, mul_self_nonneg v.y, mul_self_nonneg v.z]) with h1 | h1
  · exact h1
  · exact absurd (dot3_self_zero h1.symm) h

theorem vlength_pos {v : Pt3} (h : v ≠ ⟨0, 0, 0⟩) : 0 < vlength v := by
  have h1 := dot3_self_pos h
  unfold vlength
  rw [sqrt_pos]
  unfold dot3 at h1
  nlinarith

theorem collinear3_iff (A B C : Pt3) : Collinear3 A B C ↔ npCross (B - A) (C - A) = ⟨0, 0, 0⟩ := by
  constructor
  · rintro (rfl | ⟨t, rfl⟩)
    · unfold npCross; ext <;> simp
    · unfold npCross; ext <;> simp <;> ring
  · intro h
    by_cases hAB : A = B
    · exact .inl hAB
    · right
      have hb : B - A ≠ ⟨0, 0, 0⟩ := by
        intro e
        apply hAB
        rw [Pt3.ext_iff] at e
        simp only [Pt3.sub_x, Pt3.sub_y, Pt3.sub_z] at e
        ext <;> linarith [e.1, e.2.1, e.2.2]
      have pos := dot3_self_pos hb
      refine ⟨dot3 (B - A) (C - A) / dot3 (B - A) (B - A), ?_⟩
      rw [Pt3.ext_iff] at h
      unfold npCross at h
      simp only [Pt3.sub_x, Pt3.sub_y, Pt3.sub_z] at h
      obtain ⟨h1, h2, h3⟩ := h
      unfold dot3 at pos ⊢
      simp only [Pt3.sub_x, Pt3.sub_y, Pt3.sub_z] at pos ⊢
      obtain ⟨D, hD⟩ : ∃ D, D = (B.x - A.x) * (B.x - A.x) + (B.y - A.y) * (B.y - A.y) + (B.z - A.z) * (B.z - A.z) := ⟨_, rfl⟩
      rw [← hD] at pos ⊢
      ext
      · simp only [Pt3.add_x, Pt3.smul_x, Pt3.sub_x]
        rw [← sub_eq_iff_eq_add', div_mul_eq_mul_div, eq_div_iff pos.ne', hD]
        linear_combination (-(B.y - A.y)) * h3 + (B.z - A.z) * h2
      · simp only [Pt3.add_y, Pt3.smul_y, Pt3.sub_y]
        rw [← sub_eq_iff_eq_add', div_mul_eq_mul_div, eq_div_iff pos.ne', hD]
        linear_combination (B.x - A.x) * h3 - (B.z - A.z) * h1
      · simp only [Pt3.add_z, Pt3.smul_z, Pt3.sub_z]
        rw [← sub_eq_iff_eq_add', div_mul_eq_mul_div, eq_div_iff pos.ne', hD]
        linear_combination (B.y - A.y) * h1 - (B.x - A.x) * h2

theorem Frame.rows {p q n : Pt3} (f : Frame p q n) : p.x * p.x + q.x * q.x + n.x * n.x = 1 ∧ p.y * p.y + q.y * q.y + n.y * n.y = 1 ∧
    p.z * p.z + q.z * q.z + n.z * n.z = 1 ∧ p.x * p.y + q.x * q.y + n.x * n.y = 0 ∧ p.x * p.z + q.x * q.z + n.x * n.z = 0 ∧
    p.y * p.z + q.y * q.z + n.y * n.z = 0 := by
  obtain ⟨pp, qq, nn, pq, pn, qn, -⟩ := f
  unfold dot3 at pp qq nn pq pn qn
  obtain ⟨R, hR⟩ : ∃ R : Matrix (Fin 3) (Fin 3) ℝ, R = !![p.x, q.x, n.x; p.y, q.y, n.y; p.z, q.z, n.z] := ⟨_, rfl⟩
  have h1 : R.transpose * R = 1 := by
    rw [hR]
    ext i j
    fin_cases i <;> fin_cases j <;> simp [Matrix.mul_apply, Fin.sum_univ_three] <;> linarith
  have h2 : R * R.transpose = 1 := mul_eq_one_comm.1 h1
  have e : ∀ i j, (R * R.transpose) i j = (1 : Matrix (Fin 3) (Fin 3) ℝ) i j := fun i j => by rw [h2]
  have a1 := e 0 0
  have a2 := e 1 1
  have a3 := e 2 2
  have a4 := e 0 1
  have a5 := e 0 2
  have a6 := e 1 2
  rw [hR] at a1 a2 a3 a4 a5 a6
  simp [Matrix.mul_apply, Fin.sum_univ_three] at a1 a2 a3 a4 a5 a6
  exact ⟨a1, a2, a3, a4, a5, a6⟩

theorem Frame.expand {p q n : Pt3} (f : Frame p q n) (v : Pt3) : v = dot3 p v • p + dot3 q v • q + dot3 n v • n := by
  obtain ⟨r1, r2, r3, r4, r5, r6⟩ := f.rows
  unfold dot3
  ext
  · simp only [Pt3.add_x, Pt3.smul_x]; linear_combination (-v.x) * r1 - v.y * r4 - v.z * r5
  · simp only [Pt3.add_y, Pt3.smul_y]; linear_combination (-v.x) * r4 - v.y * r2 - v.z * r6
  · simp only [Pt3.add_z, Pt3.smul_z]; linear_combination (-v.x) * r5 - v.y * r6 - v.z * r3

/-- What `transfoMatrix` computes. -/
theorem transfo_ok {A B C : Pt3} (h : ¬ Collinear3 A B C) : ∃ (p q n : Pt3) (a b c : ℝ), Frame p q n ∧ 0 < a ∧ 0 < c ∧ B = A + a • p ∧
    C = A + b • p + c • q ∧ transfoMatrix A B C = .ok ⟨mat A p q n, ⟨a, 0⟩, ⟨b, c⟩⟩ := by
  have hN : npCross (B - A) (C - A) ≠ ⟨0, 0, 0⟩ := fun e => h ((collinear3_iff A B C).2 e)
  have hb : B - A ≠ ⟨0, 0, 0⟩ := by
    intro e
    apply hN
    rw [e]
    unfold npCross
    ext <;> simp
  unfold transfoMatrix
  dsimp only
  obtain ⟨b, hbe⟩ : ∃ b, b = B - A := ⟨_, rfl⟩
  obtain ⟨c, hce⟩ : ∃ c, c = C - A := ⟨_, rfl⟩
  rw [← hbe, ← hce] at hN ⊢
  rw [← hbe] at hb
  have hν := vlength_pos hN
  have hL := vlength_pos hb
  have ν2 := vlength_sq (npCross b c)
  have L2 := vlength_sq b
  obtain ⟨ν, hνe⟩ : ∃ ν, ν = vlength (npCross b c) := ⟨_, rfl⟩
  obtain ⟨L, hLe⟩ : ∃ L, L = vlength b := ⟨_, rfl⟩
  rw [← hνe] at hν ν2 ⊢
  rw [← hLe] at hL L2 ⊢
  rw [vdiv_ok hν.ne', Res.ok_bind]
  obtain ⟨n, hn⟩ : ∃ n : Pt3, n = ⟨(npCross b c).x / ν, (npCross b c).y / ν, (npCross b c).z / ν⟩ := ⟨_, rfl⟩
  rw [← hn]
  have nx : ν * n.x = b.y * c.z - b.z * c.y := by rw [hn]; unfold npCross; field_simp
  have ny : ν * n.y = b.z * c.x - b.x * c.z := by rw [hn]; unfold npCross; field_simp
  have nz : ν * n.z = b.x * c.y - b.y * c.x := by rw [hn]; unfold npCross; field_simp
  unfold dot3 npCross at ν2
  dsimp only at ν2
  unfold dot3 at L2
  have nn : n.x * n.x + n.y * n.y + n.z * n.z = 1 := by
    have : ν ^ 2 * (n.x * n.x + n.y * n.y + n.z * n.z) = ν ^ 2 * 1 := by
      rw [← nx, ← ny, ← nz] at ν2
      linear_combination (-1 : ℝ) * ν2
    exact mul_left_cancel₀ (by positivity) this
  have nb : n.x * b.x + n.y * b.y + n.z * b.z = 0 := by
    have : ν * (n.x * b.x + n.y * b.y + n.z * b.z) = 0 := by linear_combination b.x * nx + b.y * ny + b.z * nz
    exact (mul_eq_zero.1 this).resolve_left hν.ne'
  have nc : n.x * c.x + n.y * c.y + n.z * c.z = 0 := by
    have : ν * (n.x * c.x + n.y * c.y + n.z * c.z) = 0 := by linear_combination c.x * nx + c.y * ny + c.z * nz
    exact (mul_eq_zero.1 this).resolve_left hν.ne'
  have hq : vlength (npCross n b) = L := by
    apply vlength_eq hL.le
    unfold dot3 npCross
    dsimp only
    linear_combination (b.x * b.x + b.y * b.y + b.z * b.z) * nn - L2 - (n.x * b.x + n.y * b.y + n.z * b.z) * nb
  rw [hq, vdiv_ok hL.ne', Res.ok_bind, vdiv_ok hL.ne', Res.ok_bind]
  obtain ⟨q, hqe⟩ : ∃ q : Pt3, q = ⟨(npCross n b).x / L, (npCross n b).y / L, (npCross n b).z / L⟩ := ⟨_, rfl⟩
  obtain ⟨p, hpe⟩ : ∃ p : Pt3, p = ⟨b.x / L, b.y / L, b.z / L⟩ := ⟨_, rfl⟩
  rw [← hqe, ← hpe]
  have px : b.x = L * p.x := by rw [hpe]; field_simp
  have py : b.y = L * p.y := by rw [hpe]; field_simp
  have pz : b.z = L * p.z := by rw [hpe]; field_simp
  have qx : q.x = n.y * p.z - n.z * p.y := by rw [hqe, hpe]; unfold npCross; field_simp
  have qy : q.y = n.z * p.x - n.x * p.z := by rw [hqe, hpe]; unfold npCross; field_simp
  have qz : q.z = n.x * p.y - n.y * p.x := by rw [hqe, hpe]; unfold npCross; field_simp
  have pp : p.x * p.x + p.y * p.y + p.z * p.z = 1 := by
    have : L ^ 2 * (p.x * p.x + p.y * p.y + p.z * p.z) = L ^ 2 * 1 := by
      rw [mul_one]
      conv_rhs => rw [L2, px, py, pz]
      ring
    exact mul_left_cancel₀ (by positivity) this
  have np : n.x * p.x + n.y * p.y + n.z * p.z = 0 := by
    have : L * (n.x * p.x + n.y * p.y + n.z * p.z) = 0 := by rw [← nb, px, py, pz]; ring
    exact (mul_eq_zero.1 this).resolve_left hL.ne'
  have fr : Frame p q n := by
    refine ⟨pp, ?_, nn, ?_, ?_, ?_, ?_⟩
    · unfold dot3
      rw [qx, qy, qz]
      linear_combination (p.x * p.x + p.y * p.y + p.z * p.z) * nn + pp - (n.x * p.x + n.y * p.y + n.z * p.z) * np
    · unfold dot3; rw [qx, qy, qz]; ring
    · unfold dot3; linear_combination np
    · unfold dot3; rw [qx, qy, qz]; ring
    · unfold npCross
      rw [qx, qy, qz]
      ext
      · dsimp only; linear_combination n.x * pp - p.x * np
      · dsimp only; linear_combination n.y * pp - p.y * np
      · dsimp only; linear_combination n.z * pp - p.z * np
  have qc : q.x * c.x + q.y * c.y + q.z * c.z = ν / L := by
    rw [eq_div_iff hL.ne', qx, qy, qz]
    rw [py, pz] at nx
    rw [px, pz] at ny
    rw [px, py] at nz
    linear_combination (-n.x) * nx - n.y * ny - n.z * nz + ν * nn
  refine ⟨p, q, n, L, p.x * c.x + p.y * c.y + p.z * c.z, ν / L, fr, hL, by positivity, ?_, ?_, ?_⟩
  · rw [Pt3.ext_iff] at hbe
    simp only [Pt3.sub_x, Pt3.sub_y, Pt3.sub_z] at hbe
    ext
    · simp only [Pt3.add_x, Pt3.smul_x]; linarith [hbe.1]
    · simp only [Pt3.add_y, Pt3.smul_y]; linarith [hbe.2.1]
    · simp only [Pt3.add_z, Pt3.smul_z]; linarith [hbe.2.2]
  · rw [Pt3.ext_iff] at hce
    simp only [Pt3.sub_x, Pt3.sub_y, Pt3.sub_z] at hce
    obtain ⟨c1, c2, c3⟩ := hce
    rw [← qc]
    have e := fr.expand c
    unfold dot3 at e
    rw [nc, Pt3.ext_iff] at e
    simp only [Pt3.add_x, Pt3.add_y, Pt3.add_z, Pt3.smul_x, Pt3.smul_y, Pt3.smul_z] at e
    ext
    · simp only [Pt3.add_x, Pt3.smul_x]; linarith [e.1]
    · simp only [Pt3.add_y, Pt3.smul_y]; linarith [e.2.1]
    · simp only [Pt3.add_z, Pt3.smul_z]; linarith [e.2.2]
  · have e1 : p.x * b.x + p.y * b.y + p.z * b.z = L := by rw [px, py, pz]; linear_combination L * pp
    have e2 : q.x * b.x + q.y * b.y + q.z * b.z = 0 := by rw [px, py, pz, qx, qy, qz]; ring
    rw [← qc]
    conv_rhs => rw [← e1, ← e2]
    simp [Matrix.mulVec, dotProduct, Fin.sum_univ_three, mat]
    rfl

end Icosahedral
