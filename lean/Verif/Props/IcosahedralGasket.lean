import Verif.Props.IcosahedralFrame

/-!
# C109: the flattened spheres on a face, `ApollonianIcosahedralGasket.py`
-/

open Spec Real Classical

namespace Icosahedral

variable {A B C p q n : Pt3}

theorem at3_sqDist (f : Frame p q n) (v w : Pt3) : sqDist3 (at3 A p q n v) (at3 A p q n w) = sqDist3 v w := by
  obtain ⟨pp, qq, nn, pq, pn, qn, -⟩ := f
  unfold dot3 at pp qq nn pq pn qn
  unfold sqDist3 at3
  simp only [Pt3.add_x, Pt3.add_y, Pt3.add_z, Pt3.smul_x, Pt3.smul_y, Pt3.smul_z]
  linear_combination (v.x - w.x) ^ 2 * pp + (v.y - w.y) ^ 2 * qq + (v.z - w.z) ^ 2 * nn + 2 * (v.x - w.x) * (v.y - w.y) * pq +
    2 * (v.x - w.x) * (v.z - w.z) * pn + 2 * (v.y - w.y) * (v.z - w.z) * qn

theorem vol3_frame (f : Frame p q n) : vol3 p q n = 1 := by
  have nn := f.nn
  have hn := f.hn
  unfold npCross at hn
  rw [Pt3.ext_iff] at hn
  dsimp only at hn
  obtain ⟨h1, h2, h3⟩ := hn
  unfold dot3 at nn
  unfold vol3
  linear_combination nn + n.x * h1 + n.y * h2 + n.z * h3

theorem at3_vol (f : Frame p q n) (O P Q R : Pt3) : vol3 (at3 A p q n P - at3 A p q n O) (at3 A p q n Q - at3 A p q n O) (at3 A p q n R - at3 A p q n O) =
    vol3 (P - O) (Q - O) (R - O) := by
  have e : vol3 (at3 A p q n P - at3 A p q n O) (at3 A p q n Q - at3 A p q n O) (at3 A p q n R - at3 A p q n O) =
      vol3 (P - O) (Q - O) (R - O) * vol3 p q n := by
    unfold vol3 at3
    simp only [Pt3.add_x, Pt3.add_y, Pt3.add_z, Pt3.smul_x, Pt3.smul_y, Pt3.smul_z, Pt3.sub_x, Pt3.sub_y, Pt3.sub_z]
    ring
  rw [e, vol3_frame f, mul_one]

/-- The coordinates in a frame. -/
noncomputable def coords (A p q n : Pt3) (X : Pt3) : Pt3 := ⟨dot3 p (X - A), dot3 q (X - A), dot3 n (X - A)⟩

theorem at3_coords (f : Frame p q n) (X : Pt3) : at3 A p q n (coords A p q n X) = X := by
  have e := f.expand (X - A)
  rw [Pt3.ext_iff] at e
  simp only [Pt3.add_x, Pt3.add_y, Pt3.add_z, Pt3.smul_x, Pt3.smul_y, Pt3.smul_z, Pt3.sub_x, Pt3.sub_y, Pt3.sub_z] at e
  unfold at3 coords
  ext
  · simp only [Pt3.add_x, Pt3.smul_x]; linarith [e.1]
  · simp only [Pt3.add_y, Pt3.smul_y]; linarith [e.2.1]
  · simp only [Pt3.add_z, Pt3.smul_z]; linarith [e.2.2]

theorem dot_at3 (f : Frame p q n) (v w : Pt3) : dot3 (at3 A p q n v - at3 A p q n w) n = v.z - w.z := by
  obtain ⟨-, -, nn, -, pn, qn, -⟩ := f
  unfold dot3 at nn pn qn
  unfold dot3 at3
  simp only [Pt3.add_x, Pt3.add_y, Pt3.add_z, Pt3.smul_x, Pt3.smul_y, Pt3.smul_z, Pt3.sub_x, Pt3.sub_y, Pt3.sub_z]
  linear_combination (v.x - w.x) * pn + (v.y - w.y) * qn + (v.z - w.z) * nn

theorem at3_inj (f : Frame p q n) {v w : Pt3} (h : at3 A p q n v = at3 A p q n w) : v = w := by
  have e := at3_sqDist (A := A) f v w
  rw [h] at e
  unfold sqDist3 at e
  ext <;> nlinarith [sq_nonneg (v.x - w.x), sq_nonneg (v.y - w.y), sq_nonneg (v.z - w.z)]

theorem at3_zero : at3 A p q n ⟨0, 0, 0⟩ = A := by
  unfold at3
  ext <;> simp

/-- Two displacements with the same values at three points that are not on a line. -/
theorem displacement_unique {f g : Pt3 → Pt3} (hf : Displacement f) (hg : Displacement g) {a b c : ℝ} (ha : 0 < a) (hc : 0 < c)
    (h0 : f ⟨0, 0, 0⟩ = g ⟨0, 0, 0⟩) (h1 : f ⟨a, 0, 0⟩ = g ⟨a, 0, 0⟩) (h2 : f ⟨b, c, 0⟩ = g ⟨b, c, 0⟩) (hs : ∀ X, ∃ v, g v = X) : f = g := by
  funext v
  obtain ⟨w, hw⟩ := hs (f v)
  have d0 := hf.1 v ⟨0, 0, 0⟩
  have d1 := hf.1 v ⟨a, 0, 0⟩
  have d2 := hf.1 v ⟨b, c, 0⟩
  have d3 := hf.2 ⟨0, 0, 0⟩ ⟨a, 0, 0⟩ ⟨b, c, 0⟩ v
  rw [h0, ← hw, hg.1] at d0
  rw [h1, ← hw, hg.1] at d1
  rw [h2, ← hw, hg.1] at d2
  rw [h0, h1, h2, ← hw, hg.2] at d3
  rw [← hw]
  congr 1
  unfold sqDist3 at d0 d1 d2
  unfold vol3 at d3
  simp only [Pt3.sub_x, Pt3.sub_y, Pt3.sub_z] at d3
  have ex : w.x = v.x := by
    have : 2 * a * (w.x - v.x) = 0 := by linear_combination d0 - d1
    rcases mul_eq_zero.1 this with h | h
    · linarith
    · linarith
  have ey : w.y = v.y := by
    rw [ex] at d0 d2
    have : 2 * c * (w.y - v.y) = 0 := by linear_combination d0 - d2
    rcases mul_eq_zero.1 this with h | h
    · linarith
    · linarith
  have ez : w.z = v.z := by
    have : a * c * (w.z - v.z) = 0 := by linear_combination d3
    rcases mul_eq_zero.1 this with h | h
    · exact absurd h (by positivity)
    · linarith
  ext <;> assumption

end Icosahedral

open Icosahedral

/-- C109: for three points that are not on a line, the matrix of `transfoMatrix` is a displacement of space, the only one that takes the origin to the
first point and the points `P` and `Q`, at height zero, to the others; `P` is on the positive half of the first axis and `Q` is on its left. -/
theorem C109_frame (A B C : Pt3) (h : ¬ Collinear3 A B C) : ∃ tm, transfoMatrix A B C = .ok tm ∧ Displacement (applyMat tm.Mat) ∧
    Function.Bijective (applyMat tm.Mat) ∧ applyMat tm.Mat ⟨0, 0, 0⟩ = A ∧ applyMat tm.Mat (flat3 tm.P) = B ∧ applyMat tm.Mat (flat3 tm.Q) = C ∧
    0 < tm.P.x ∧ tm.P.y = 0 ∧ 0 < tm.Q.y ∧
    ∀ f, Displacement f → f ⟨0, 0, 0⟩ = A → f (flat3 tm.P) = B → f (flat3 tm.Q) = C → f = applyMat tm.Mat := by
  obtain ⟨p, q, n, a, b, c, f, ha, hc, hB, hC, e⟩ := transfo_ok h
  have fe : applyMat (mat A p q n) = at3 A p q n := funext fun v => applyMat_mat A p q n v
  have D : Displacement (at3 A p q n) := ⟨at3_sqDist f, at3_vol f⟩
  have e1 : at3 A p q n (flat3 ⟨a, 0⟩) = B := by rw [hB]; unfold at3 flat3; ext <;> simp
  have e2 : at3 A p q n (flat3 ⟨b, c⟩) = C := by rw [hC]; unfold at3 flat3; ext <;> simp
  refine ⟨_, e, ?_⟩
  dsimp only
  rw [fe]
  refine ⟨D, ⟨fun v w => at3_inj f, fun X => ⟨_, at3_coords f X⟩⟩, at3_zero, e1, e2, ha, rfl, hc, ?_⟩
  intro g hg g0 g1 g2
  exact displacement_unique hg D ha hc (g0.trans at3_zero.symm) (g1.trans e1.symm) (g2.trans e2.symm) fun X => ⟨_, at3_coords f X⟩

/-- C109: for three points of a line the matrix has `nan` entries. -/
theorem C109_flat (A B C : Pt3) (h : Collinear3 A B C) : transfoMatrix A B C = .error .nonFinite := by
  rw [collinear3_iff] at h
  unfold transfoMatrix
  dsimp only
  rw [h]
  have : vlength ⟨0, 0, 0⟩ = 0 := by unfold vlength; simp
  rw [this, vdiv_zero]
  rfl

namespace Icosahedral

variable {A B C p q n : Pt3} {h : ℝ}

theorem lens_mem (f : Frame p q n) (c : Circle) (v : Pt3) :
    (at3 A p q n v ∈ (lens (at3 A p q n (flat3 c.center)) c.radius n h).points ↔ sqDist ⟨v.x, v.y⟩ c.center + (v.z / h) ^ 2 ≤ c.radius ^ 2) ∧
    (at3 A p q n v ∈ (lens (at3 A p q n (flat3 c.center)) c.radius n h).edge ↔ sqDist ⟨v.x, v.y⟩ c.center + (v.z / h) ^ 2 = c.radius ^ 2) ∧
    (at3 A p q n v ∈ (lens (at3 A p q n (flat3 c.center)) c.radius n h).interior ↔ sqDist ⟨v.x, v.y⟩ c.center + (v.z / h) ^ 2 < c.radius ^ 2) := by
  have e : sqDist3 (at3 A p q n v) (at3 A p q n (flat3 c.center)) - dot3 (at3 A p q n v - at3 A p q n (flat3 c.center)) n ^ 2 +
      (dot3 (at3 A p q n v - at3 A p q n (flat3 c.center)) n / h) ^ 2 = sqDist ⟨v.x, v.y⟩ c.center + (v.z / h) ^ 2 := by
    rw [at3_sqDist f, dot_at3 f]
    unfold sqDist3 flat3 sqDist
    dsimp only
    rw [sub_zero]
    ring
  unfold Figure.interior lens
  simp only [Set.mem_setOf_eq, Set.mem_diff]
  rw [e]
  exact ⟨Iff.rfl, Iff.rfl, (lt_iff_le_and_ne).symm⟩

/-- The surface drawn for a circle. -/
theorem surface (f : Frame p q n) (hh : 0 < h) (c : Circle) (hc : 0 < c.radius) :
    at3 A p q n '' pretty_sphere h c = (lens (at3 A p q n (flat3 c.center)) c.radius n h).edge := by
  ext X
  constructor
  · rintro ⟨v, ⟨d, hd, rfl⟩, rfl⟩
    rw [(lens_mem f c _).2.1]
    unfold sqDist
    dsimp only
    rw [zero_add, mul_div_cancel_left₀ _ hh.ne']
    linear_combination c.radius ^ 2 * hd
  · intro hX
    rw [← at3_coords (A := A) f X] at hX ⊢
    obtain ⟨v, hv⟩ : ∃ v, v = coords A p q n X := ⟨_, rfl⟩
    rw [← hv] at hX ⊢
    rw [(lens_mem f c v).2.1] at hX
    unfold sqDist at hX
    dsimp only at hX
    refine ⟨v, ⟨⟨(v.x - c.center.x) / c.radius, (v.y - c.center.y) / c.radius, v.z / h / c.radius⟩, ?_, ?_⟩, rfl⟩
    · dsimp only
      rw [div_pow, div_pow, div_pow, ← add_div, ← add_div, hX, div_self (by positivity)]
    · ext
      · dsimp only; field_simp; ring
      · dsimp only; field_simp; ring
      · dsimp only; field_simp; ring

theorem inTriangle3_at {P Q R M : Pt} (hM : InTriangle P Q R M) :
    InTriangle3 (at3 A p q n (flat3 P)) (at3 A p q n (flat3 Q)) (at3 A p q n (flat3 R)) (at3 A p q n (flat3 M)) := by
  obtain ⟨u, v, w, hu, hv, hw, hs, rfl⟩ := hM
  refine ⟨u, v, w, hu, hv, hw, hs, ?_⟩
  unfold at3 flat3
  have e : u = 1 - v - w := by linarith
  subst e
  ext
  · simp; ring
  · simp; ring
  · simp; ring

theorem line3_at (P Q : Pt) (X : Pt3) :
    X ∈ lineSet3 (at3 A p q n (flat3 P)) (at3 A p q n (flat3 Q)) ↔ ∃ M ∈ lineSet P Q, X = at3 A p q n (flat3 M) := by
  unfold lineSet3 lineSet OnLine
  simp only [Set.mem_setOf_eq]
  have e : ∀ t : ℝ, at3 A p q n (flat3 P) + t • (at3 A p q n (flat3 Q) - at3 A p q n (flat3 P)) = at3 A p q n (flat3 (P + t • (Q - P))) := by
    intro t
    unfold at3 flat3
    ext
    · simp; ring
    · simp; ring
    · simp; ring
  constructor
  · rintro ⟨t, rfl⟩
    exact ⟨_, ⟨t, rfl⟩, e t⟩
  · rintro ⟨M, ⟨t, rfl⟩, rfl⟩
    exact ⟨t, (e t).symm⟩

end Icosahedral

namespace Icosahedral

variable {A B C p q n : Pt3} {h : ℝ}

/-- The lines of the sides have no points inside the triangle. -/
theorem off_lines {P Q R X : Pt} (hc : ¬ Collinear P Q R) (hX : InTriangle P Q R X) : ¬ OnLine P Q X ∧ ¬ OnLine Q R X ∧ ¬ OnLine R P X := by
  obtain ⟨u, v, w, hu, hv, hw, hs, rfl⟩ := hX
  unfold Collinear cross at hc
  simp only [Pt.sub_x, Pt.sub_y] at hc
  have e : u = 1 - v - w := by linarith
  refine ⟨?_, ?_, ?_⟩
  · rintro ⟨t, ht⟩
    rw [Pt.ext_iff] at ht
    simp only [Pt.add_x, Pt.add_y, Pt.smul_x, Pt.smul_y, Pt.sub_x, Pt.sub_y] at ht
    obtain ⟨h1, h2⟩ := ht
    subst e
    apply hc
    have : w * ((Q.x - P.x) * (R.y - P.y) - (Q.y - P.y) * (R.x - P.x)) = 0 := by
      linear_combination (Q.x - P.x) * h2 - (Q.y - P.y) * h1
    exact (mul_eq_zero.1 this).resolve_left hw.ne'
  · rintro ⟨t, ht⟩
    rw [Pt.ext_iff] at ht
    simp only [Pt.add_x, Pt.add_y, Pt.smul_x, Pt.smul_y, Pt.sub_x, Pt.sub_y] at ht
    obtain ⟨h1, h2⟩ := ht
    have e2 : v = 1 - u - w := by linarith
    subst e2
    apply hc
    have : u * ((Q.x - P.x) * (R.y - P.y) - (Q.y - P.y) * (R.x - P.x)) = 0 := by
      linear_combination (R.x - Q.x) * h2 - (R.y - Q.y) * h1
    exact (mul_eq_zero.1 this).resolve_left hu.ne'
  · rintro ⟨t, ht⟩
    rw [Pt.ext_iff] at ht
    simp only [Pt.add_x, Pt.add_y, Pt.smul_x, Pt.smul_y, Pt.sub_x, Pt.sub_y] at ht
    obtain ⟨h1, h2⟩ := ht
    subst e
    apply hc
    have : v * ((Q.x - P.x) * (R.y - P.y) - (Q.y - P.y) * (R.x - P.x)) = 0 := by
      linear_combination (P.x - R.x) * h2 - (P.y - R.y) * h1
    exact (mul_eq_zero.1 this).resolve_left hv.ne'

theorem far_of_apart {c d : Circle} (hc : 0 < c.radius) (hd : 0 < d.radius) (ha : (disc c).Apart (disc d)) :
    (c.radius + d.radius) ^ 2 ≤ sqDist c.center d.center := by
  by_contra hn
  push Not at hn
  obtain ⟨r, hr⟩ : ∃ r, r = c.radius := ⟨_, rfl⟩
  obtain ⟨s, hs⟩ : ∃ s, s = d.radius := ⟨_, rfl⟩
  rw [← hr, ← hs] at hn
  rw [← hr] at hc
  rw [← hs] at hd
  have hrs : r + s ≠ 0 := by positivity
  have e1 : sqDist ((s / (r + s)) • c.center + (r / (r + s)) • d.center) c.center = (r / (r + s)) ^ 2 * sqDist c.center d.center := by
    unfold sqDist
    simp only [Pt.add_x, Pt.add_y, Pt.smul_x, Pt.smul_y]
    field_simp
    ring
  have e2 : sqDist ((s / (r + s)) • c.center + (r / (r + s)) • d.center) d.center = (s / (r + s)) ^ 2 * sqDist c.center d.center := by
    unfold sqDist
    simp only [Pt.add_x, Pt.add_y, Pt.smul_x, Pt.smul_y]
    field_simp
    ring
  refine Set.disjoint_left.1 ha ⟨_, rfl, ?_⟩ ⟨(s / (r + s)) • c.center + (r / (r + s)) • d.center, rfl, ?_⟩
  · rw [e1, ← hr]
    calc (r / (r + s)) ^ 2 * sqDist c.center d.center < (r / (r + s)) ^ 2 * (r + s) ^ 2 := mul_lt_mul_of_pos_left hn (by positivity)
      _ = r ^ 2 := by field_simp
  · rw [e2, ← hs]
    calc (s / (r + s)) ^ 2 * sqDist c.center d.center < (s / (r + s)) ^ 2 * (r + s) ^ 2 := mul_lt_mul_of_pos_left hn (by positivity)
      _ = s ^ 2 := by field_simp

/-- A body and a side. -/
theorem lens_line (f : Frame p q n) {c : Circle} {U V T : Pt} (hd : ∀ X, sqDist X c.center < c.radius ^ 2 → ¬ OnLine U V X)
    (hT : circleSet c ∩ lineSet U V = {T}) :
    (lens (at3 A p q n (flat3 c.center)) c.radius n h).points ∩ lineSet3 (at3 A p q n (flat3 U)) (at3 A p q n (flat3 V)) = {at3 A p q n (flat3 T)} := by
  have mT : T ∈ circleSet c ∩ lineSet U V := by rw [hT]; rfl
  have key : ∀ M, at3 A p q n (flat3 M) ∈ (lens (at3 A p q n (flat3 c.center)) c.radius n h).points ↔ sqDist M c.center ≤ c.radius ^ 2 := by
    intro M
    rw [(lens_mem f c (flat3 M)).1]
    unfold flat3
    rw [zero_div, zero_pow two_ne_zero, add_zero]
  ext X
  rw [Set.mem_inter_iff, Set.mem_singleton_iff, line3_at]
  constructor
  · rintro ⟨h1, M, hM, rfl⟩
    rw [key] at h1
    rcases lt_or_eq_of_le h1 with h2 | h2
    · exact absurd hM (hd M h2)
    · have : M ∈ circleSet c ∩ lineSet U V := ⟨h2, hM⟩
      rw [hT] at this
      rw [Set.mem_singleton_iff.1 this]
  · rintro rfl
    exact ⟨(key T).2 (le_of_eq mT.1), T, mT.2, rfl⟩

/-- Two bodies. -/
theorem lens_lens (f : Frame p q n) (hh : 0 < h) {c d : Circle} (hc : 0 < c.radius) (hd : 0 < d.radius)
    (hs : sqDist c.center d.center = (c.radius + d.radius) ^ 2) {T : Pt} (h1 : T ∈ circleSet c) (h2 : T ∈ circleSet d) :
    (lens (at3 A p q n (flat3 c.center)) c.radius n h).points ∩ (lens (at3 A p q n (flat3 d.center)) d.radius n h).points = {at3 A p q n (flat3 T)} := by
  have hT := (EllipticalChains.tangent_unique (P := T) (w := 0) hc hd le_rfl hs (by rw [add_zero]; exact le_of_eq h1) (by rw [add_zero]; exact le_of_eq h2)).1
  ext X
  rw [Set.mem_inter_iff, Set.mem_singleton_iff]
  constructor
  · intro hX
    rw [← at3_coords (A := A) f X] at hX ⊢
    obtain ⟨v, hv⟩ : ∃ v, v = coords A p q n X := ⟨_, rfl⟩
    rw [← hv] at hX ⊢
    rw [(lens_mem f c v).1, (lens_mem f d v).1] at hX
    obtain ⟨e, ez⟩ := EllipticalChains.tangent_unique hc hd (sq_nonneg _) hs hX.1 hX.2
    rw [← hT] at e
    have z0 : v.z = 0 := by
      have := pow_eq_zero_iff two_ne_zero |>.1 ez
      rcases div_eq_zero_iff.1 this with k | k
      · exact k
      · exact absurd k hh.ne'
    congr 1
    rw [Pt.ext_iff] at e
    ext
    · exact e.1
    · exact e.2
    · exact z0
  · rintro rfl
    rw [(lens_mem f c _).1, (lens_mem f d _).1]
    unfold flat3
    rw [zero_div, zero_pow two_ne_zero, add_zero, add_zero]
    exact ⟨le_of_eq h1, le_of_eq h2⟩

/-- The bodies of a packing of the triangle. -/
theorem packing_at (f : Frame p q n) (hh : 0 < h) {P Q R : Pt} (hc : ¬ Collinear P Q R) {L : List Circle}
    (g1 : ∃ cA cB cC TA TB TC rest, L = cA :: cB :: cC :: rest ∧
      MalfattiConfig P Q R cA.center cA.radius cB.center cB.radius cC.center cC.radius TA TB TC ∧ ∀ c ∈ rest, Leans c (walls P Q R L))
    (g2 : ∀ c ∈ L, 0 < c.radius ∧ ∀ X, sqDist X c.center < c.radius ^ 2 → InTriangle P Q R X) (g3 : L.Pairwise fun c d => (disc c).Apart (disc d)) :
    LensPacking (at3 A p q n (flat3 P)) (at3 A p q n (flat3 Q)) (at3 A p q n (flat3 R)) n h
      (L.map fun c => (at3 A p q n (flat3 c.center), c.radius)) := by
  have off1 : ∀ c ∈ L, ∀ X, sqDist X c.center < c.radius ^ 2 → ¬ OnLine P Q X := fun c hc' X hX => (off_lines hc ((g2 c hc').2 X hX)).1
  have off2 : ∀ c ∈ L, ∀ X, sqDist X c.center < c.radius ^ 2 → ¬ OnLine Q R X := fun c hc' X hX => (off_lines hc ((g2 c hc').2 X hX)).2.1
  have off3 : ∀ c ∈ L, ∀ X, sqDist X c.center < c.radius ^ 2 → ¬ OnLine R P X := fun c hc' X hX => (off_lines hc ((g2 c hc').2 X hX)).2.2
  refine ⟨?_, ?_, ?_, ?_, ?_, ?_⟩
  · intro c hc'
    obtain ⟨d, hd, rfl⟩ := List.mem_map.1 hc'
    exact (g2 d hd).1
  · intro c hc'
    obtain ⟨d, hd, rfl⟩ := List.mem_map.1 hc'
    refine inTriangle3_at ((g2 d hd).2 d.center ?_)
    have := (g2 d hd).1
    unfold sqDist
    nlinarith
  · intro c hc' X h0 hX
    obtain ⟨d, hd, rfl⟩ := List.mem_map.1 hc'
    dsimp only at hX
    rw [← at3_coords (A := A) f X] at hX h0 ⊢
    obtain ⟨v, hv⟩ : ∃ v, v = coords A p q n X := ⟨_, rfl⟩
    rw [← hv] at hX h0 ⊢
    rw [(lens_mem f d v).2.2] at hX
    have h1 := dot_at3 (A := A) f v (flat3 P)
    rw [show dot3 (at3 A p q n v - at3 A p q n (flat3 P)) n = dot3 n (at3 A p q n v - at3 A p q n (flat3 P)) by unfold dot3; ring, h0] at h1
    have z0 : v.z = 0 := by unfold flat3 at h1; dsimp only at h1; linarith
    have ev : v = flat3 ⟨v.x, v.y⟩ := by
      unfold flat3
      ext
      · rfl
      · rfl
      · exact z0
    rw [ev]
    refine inTriangle3_at ((g2 d hd).2 _ ?_)
    linarith [sq_nonneg (v.z / h)]
  · rw [List.pairwise_map]
    refine List.Pairwise.imp_of_mem ?_ g3
    intro c d hc' hd' hcd
    have hfar := far_of_apart (g2 c hc').1 (g2 d hd').1 hcd
    rw [Set.disjoint_left]
    intro X h1 h2
    dsimp only at h1 h2
    rw [← at3_coords (A := A) f X] at h1 h2
    rw [(lens_mem f c _).2.2] at h1
    rw [(lens_mem f d _).2.2] at h2
    exact EllipticalChains.balls_apart (g2 c hc').1 (g2 d hd').1 (sq_nonneg _) hfar h1 h2
  · obtain ⟨cA, cB, cC, TA, TB, TC, rest, rfl, M, -⟩ := g1
    have line : ∀ {c : Circle} {U V : Pt}, (∀ X, sqDist X c.center < c.radius ^ 2 → ¬ OnLine U V X) → TangentLine c.center c.radius U V →
        Meets1 (lens (at3 A p q n (flat3 c.center)) c.radius n h).points (lineSet3 (at3 A p q n (flat3 U)) (at3 A p q n (flat3 V))) := by
      intro c U V ho ht
      obtain ⟨T, t1, t2, t3⟩ := ht
      refine ⟨_, lens_line (T := T) f ho ?_⟩
      ext X
      rw [Set.mem_inter_iff, Set.mem_singleton_iff]
      constructor
      · rintro ⟨k1, k2⟩
        exact t3 X k2 k1
      · rintro rfl
        exact ⟨t2, t1⟩
    have ext : ∀ {O₁ O₂ : Pt} {r s : ℝ}, ExtTangent O₁ r O₂ s → sqDist O₁ O₂ = (r + s) ^ 2 := by
      intro O₁ O₂ r s h
      rw [← dist_sq, h]
    have mA : cA ∈ cA :: cB :: cC :: rest := by simp
    have mB : cB ∈ cA :: cB :: cC :: rest := by simp
    have mC : cC ∈ cA :: cB :: cC :: rest := by simp
    exact ⟨_, _, _, _, rfl, line (off1 _ mA) M.tanA.1, line (off3 _ mA) M.tanA.2, line (off1 _ mB) M.tanB.2, line (off2 _ mB) M.tanB.1,
      line (off3 _ mC) M.tanC.1, line (off2 _ mC) M.tanC.2, ⟨_, lens_lens f hh M.posA M.posB (ext M.tAB) M.cAB.1 M.cAB.2⟩,
      ⟨_, lens_lens f hh M.posB M.posC (ext M.tBC) M.cBC.1 M.cBC.2⟩, ⟨_, lens_lens f hh M.posA M.posC (ext M.tAC) M.cAC.1 M.cAC.2⟩⟩
  · intro c hc'
    have key : ∀ d ∈ L, ∀ (S : Set Pt) (T : Pt), S ∈ walls P Q R L → circleSet d ∩ S = {T} →
        ∃ S' ∈ walls3 (at3 A p q n (flat3 P)) (at3 A p q n (flat3 Q)) (at3 A p q n (flat3 R))
          ((L.map fun c => (at3 A p q n (flat3 c.center), c.radius)).map fun c => lens c.1 c.2 n h),
          (lens (at3 A p q n (flat3 d.center)) d.radius n h).points ∩ S' = {at3 A p q n (flat3 T)} := by
      intro d hd S T hS hT
      rcases hS with rfl | rfl | rfl | ⟨e, he, rfl⟩
      · exact ⟨_, .inl rfl, lens_line f (off1 d hd) hT⟩
      · exact ⟨_, .inr (.inl rfl), lens_line f (off2 d hd) hT⟩
      · exact ⟨_, .inr (.inr (.inl rfl)), lens_line f (off3 d hd) hT⟩
      · have hde : d ≠ e := by
          rintro rfl
          rw [Set.inter_self] at hT
          have pos := (g2 d hd).1
          have m1 : (⟨d.center.x + d.radius, d.center.y⟩ : Pt) ∈ circleSet d := by
            unfold circleSet OnCircle sqDist
            simp
          have m2 : (⟨d.center.x - d.radius, d.center.y⟩ : Pt) ∈ circleSet d := by
            unfold circleSet OnCircle sqDist
            simp
          rw [hT, Set.mem_singleton_iff] at m1 m2
          have := m1.trans m2.symm
          rw [Pt.ext_iff] at this
          dsimp only at this
          linarith [this.1]
        have hap : (disc d).Apart (disc e) := by
          obtain ⟨i, hi, rfl⟩ := List.getElem_of_mem hd
          obtain ⟨j, hj, rfl⟩ := List.getElem_of_mem he
          rw [List.pairwise_iff_getElem] at g3
          rcases lt_trichotomy i j with k | k | k
          · exact g3 i j hi hj k
          · exact absurd (by subst k; rfl) hde
          · exact (g3 j i hj hi k).symm
        have mT : T ∈ circleSet d ∩ circleSet e := by rw [hT]; rfl
        have far := far_of_apart (g2 d hd).1 (g2 e he).1 hap
        have near : sqDist d.center e.center = (d.radius + e.radius) ^ 2 := by
          apply le_antisymm _ far
          have t1 : Spec.dist d.center T = d.radius := by
            rw [dist_eq_iff (g2 d hd).1.le, sqDist_comm]; exact mT.1
          have t2 : Spec.dist T e.center = e.radius := by
            rw [dist_eq_iff (g2 e he).1.le]; exact mT.2
          have := specDist_triangle d.center T e.center
          rw [t1, t2] at this
          rw [← dist_sq]
          exact pow_le_pow_left₀ (Real.sqrt_nonneg _) this 2
        refine ⟨(lens (at3 A p q n (flat3 e.center)) e.radius n h).points, .inr (.inr (.inr ⟨_, ?_, rfl⟩)),
          lens_lens f hh (g2 d hd).1 (g2 e he).1 near mT.1 mT.2⟩
        rw [List.map_map]
        exact List.mem_map.2 ⟨e, he, rfl⟩
    obtain ⟨cA, cB, cC, TA, TB, TC, rest, eL, M, hl⟩ := g1
    rw [← List.map_drop] at hc'
    obtain ⟨d, hd, rfl⟩ := List.mem_map.1 hc'
    rw [eL] at hd
    have hd' : d ∈ rest := by simpa using hd
    have hdL : d ∈ L := by rw [eL]; simp [hd']
    obtain ⟨S1, m1, S2, m2, S3, m3, P1, P2, P3, n12, n13, n23, i1, i2, i3⟩ := hl d hd'
    have inj : ∀ {X Y : Pt}, X ≠ Y → at3 A p q n (flat3 X) ≠ at3 A p q n (flat3 Y) := by
      intro X Y hne e
      have := at3_inj f e
      unfold flat3 at this
      rw [Pt3.ext_iff] at this
      exact hne (Pt.ext this.1 this.2.1)
    refine ⟨_, _, _, inj n12, inj n13, inj n23, ?_⟩
    rintro X (rfl | rfl | rfl)
    · exact key d hdL S1 P1 m1 i1
    · exact key d hdL S2 P2 m2 i2
    · exact key d hdL S3 P3 m3 i3

end Icosahedral

/-- C109: on a triangle of space the script draws, when it finishes, the surfaces of flattened balls: three, then seven, then three times more at each pass;
they are a packing of the triangle. -/
theorem C109_face (h : ℝ) (hh : 0 < h) (A B C : Pt3) (hn : ¬ Collinear3 A B C) (depth : ℕ) (L : List (Set Pt3)) (hL : drawFace h A B C depth = .ok L) :
    ∃ n, UnitNormal A B C n ∧ ∃ S : List (Pt3 × ℝ), L = (S.map fun c => (lens c.1 c.2 n h).edge) ∧ LensPacking A B C n h S ∧
      2 * L.length + 1 = 7 * 3 ^ (depth + 1) := by
  obtain ⟨p, q, n, a, b, c, f, ha, hc, hB, hC, e⟩ := transfo_ok hn
  unfold drawFace at hL
  rw [e, Res.ok_bind] at hL
  dsimp only at hL
  obtain ⟨circles, ec, hL⟩ := Res.bind_ok.1 hL
  rw [← Res.pure_ok.1 hL]
  have fe : applyMat (mat A p q n) = at3 A p q n := funext fun v => applyMat_mat A p q n v
  have e0 : at3 A p q n (flat3 ⟨0, 0⟩) = A := at3_zero
  have e1 : at3 A p q n (flat3 ⟨a, 0⟩) = B := by rw [hB]; unfold at3 flat3; ext <;> simp
  have e2 : at3 A p q n (flat3 ⟨b, c⟩) = C := by rw [hC]; unfold at3 flat3; ext <;> simp
  have nc : ¬ Collinear ⟨0, 0⟩ ⟨a, 0⟩ ⟨b, c⟩ := by
    unfold Collinear cross
    simp only [Pt.sub_x, Pt.sub_y, sub_zero, zero_mul]
    positivity
  obtain ⟨g0, g1, g2, g3⟩ := C101_gasket _ _ _ depth circles nc ec
  have pk := packing_at (A := A) (h := h) f hh nc g1 g2 g3
  rw [e0, e1, e2] at pk
  refine ⟨n, ?_, _, ?_, pk, ?_⟩
  · have nn := f.nn
    have pn := f.pn
    have qn := f.qn
    have vv := vol3_frame f
    rw [hB, hC]
    unfold dot3 at nn pn qn
    unfold vol3 at vv
    refine ⟨nn, ?_, ?_, ?_⟩
    · unfold dot3
      simp only [Pt3.add_x, Pt3.add_y, Pt3.add_z, Pt3.smul_x, Pt3.smul_y, Pt3.smul_z, Pt3.sub_x, Pt3.sub_y, Pt3.sub_z]
      linear_combination a * pn
    · unfold dot3
      simp only [Pt3.add_x, Pt3.add_y, Pt3.add_z, Pt3.smul_x, Pt3.smul_y, Pt3.smul_z, Pt3.sub_x, Pt3.sub_y, Pt3.sub_z]
      linear_combination b * pn + c * qn
    · have : vol3 (A + a • p - A) (A + b • p + c • q - A) n = a * c := by
        unfold vol3
        simp only [Pt3.add_x, Pt3.add_y, Pt3.add_z, Pt3.smul_x, Pt3.smul_y, Pt3.smul_z, Pt3.sub_x, Pt3.sub_y, Pt3.sub_z]
        linear_combination a * c * vv
      rw [this]
      positivity
  · rw [List.map_map]
    apply List.map_congr_left
    intro d hd
    rw [fe]
    exact surface f hh d (g2 d hd).1
  · rw [List.length_map]
    exact g0
