import Verif.Lemmas.Apollonian
import Verif.Props.Gasket

/-! From the products of the starting circles to a seed of a gasket. -/

open Spec Real Classical Gasket

/-- An inversion fixes a circle orthogonal to its own circle. -/
theorem fixed_region {iota : Inversion} (hk : 0 < iota.power) {c : Circle} (h : sqDist c.center iota.pole - c.radius ^ 2 = iota.power) :
    (disc c).image (mirror iota) = disc c ∧ (outside c).image (mirror iota) = outside c := by
  have e1 : iota.power / iota.power = 1 := div_self hk.ne'
  have hcen : c.center = iota.pole + (iota.power / iota.power) • (c.center - iota.pole) := by rw [e1]; ext <;> simp
  have hrad : c.radius = |iota.power / iota.power| * c.radius := by rw [e1]; simp
  exact ⟨(image_region hk.ne' h.symm hk.ne' hcen hrad).1 (by linarith), image_outside hk.ne' h.symm hk hcen hrad⟩

theorem disc_nonempty {c : Circle} (hc : c.Valid) : (disc c).inside.Nonempty := by
  have r : 0 < c.radius := hc
  refine ⟨.fin c.center, mem_disc_fin.2 ?_⟩
  unfold sqDist
  simpa using by positivity

theorem apart_of_lprod {a b : Circle} (ha : a.Valid) (hb : b.Valid) (h : 2 * (a.radius * b.radius) ≤ lprod a b) : (disc a).Apart (disc b) := by
  have ra : 0 < a.radius := ha
  have rb : 0 < b.radius := hb
  rw [disc_apart_iff ha hb]
  unfold Spec.dist
  apply Real.le_sqrt_of_sq_le
  unfold lprod at h
  linarith

theorem outside_apart {c0 c : Circle} (h0 : c0.Valid) (hc : c.Valid) (hlt : c.radius ≤ c0.radius)
    (h : lprod c c0 ≤ -(2 * (c.radius * c0.radius))) : (outside c0).Apart (disc c) := by
  have r0 : 0 < c0.radius := h0
  have r : 0 < c.radius := hc
  unfold lprod at h
  have hd : Spec.dist c.center c0.center ≤ c0.radius - c.radius := by
    unfold Spec.dist
    rw [Real.sqrt_le_left (by linarith)]
    linarith
  refine Set.disjoint_left.2 ?_
  rintro X hX ⟨P, rfl, hP⟩
  rw [mem_outside_fin] at hX
  have a1 : Spec.dist P c.center < c.radius := by
    unfold Spec.dist; rw [Real.sqrt_lt' r]; exact hP
  have a2 : c0.radius < Spec.dist P c0.center := by
    unfold Spec.dist; exact Real.lt_sqrt_of_sq_lt hX
  have tri := specDist_triangle P c.center c0.center
  linarith

/-- Tangent circles touch at one point; a negative radius stands for a circle tangent from inside. -/
theorem touch_signed {c1 c2 : Pt} {r1 r2 : ℝ} (hs : r1 + r2 ≠ 0) (h : sqDist c1 c2 = (r1 + r2) ^ 2) :
    ∃ T, (sqDist T c1 = r1 ^ 2 ∧ sqDist T c2 = r2 ^ 2) ∧ ∀ P, sqDist P c1 = r1 ^ 2 → sqDist P c2 = r2 ^ 2 → P = T := by
  obtain ⟨μ, hμ⟩ : ∃ μ, μ = r1 / (r1 + r2) := ⟨_, rfl⟩
  have hm : μ * (r1 + r2) = r1 := by rw [hμ]; field_simp
  have key : ∀ P, sqDist P (c1 + μ • (c2 - c1)) = (1 - μ) * sqDist P c1 + μ * sqDist P c2 - μ * (1 - μ) * sqDist c1 c2 := by
    intro P; unfold sqDist; simp only [Pt.add_x, Pt.add_y, Pt.smul_x, Pt.smul_y, Pt.sub_x, Pt.sub_y]; ring
  have hm2 : (1 - μ) * (r1 + r2) = r2 := by linear_combination -hm
  refine ⟨c1 + μ • (c2 - c1), ⟨?_, ?_⟩, ?_⟩
  · have e : sqDist (c1 + μ • (c2 - c1)) c1 = μ ^ 2 * sqDist c1 c2 := by
      unfold sqDist; simp only [Pt.add_x, Pt.add_y, Pt.smul_x, Pt.smul_y, Pt.sub_x, Pt.sub_y]; ring
    rw [e, h, ← mul_pow, hm]
  · have e : sqDist (c1 + μ • (c2 - c1)) c2 = (1 - μ) ^ 2 * sqDist c1 c2 := by
      unfold sqDist; simp only [Pt.add_x, Pt.add_y, Pt.smul_x, Pt.smul_y, Pt.sub_x, Pt.sub_y]; ring
    rw [e, h, ← mul_pow, hm2]
  · intro P h1 h2
    by_contra hne
    have hp := sqDist_pos hne
    rw [key, h1, h2, h] at hp
    have : (1 - μ) * r1 ^ 2 + μ * r2 ^ 2 - μ * (1 - μ) * (r1 + r2) ^ 2 = 0 := by
      have e : μ * (1 - μ) * (r1 + r2) ^ 2 = r1 * r2 := by linear_combination (1 - μ) * (r1 + r2) * hm + r1 * hm2
      rw [e]
      have h3 : (1 - μ) * r1 ^ 2 + μ * r2 ^ 2 = ((1 - μ) * r1 + μ * r2) * (r1 + r2) - r1 * r2 := by ring
      rw [h3]
      linear_combination r1 * hm2 + r2 * hm
    linarith

theorem touches_of {A B : Region} {a b : Circle} (hA : A.edge = (disc a).edge) (hB : B.edge = (disc b).edge) {r2 : ℝ} (h2 : r2 ^ 2 = b.radius ^ 2)
    (hs : a.radius + r2 ≠ 0) (h : sqDist a.center b.center = (a.radius + r2) ^ 2) : A.Touches B := by
  obtain ⟨T, ⟨t1, t2⟩, hu⟩ := touch_signed hs h
  refine ⟨.fin T, ⟨by rw [hA]; exact mem_edge_fin.2 t1, by rw [hB]; exact mem_edge_fin.2 (by rw [t2, h2])⟩, ?_⟩
  rintro Y ⟨h1, h2'⟩
  rw [hA] at h1
  rw [hB] at h2'
  cases Y with
  | inf => exact absurd h1 mem_edge_inf
  | fin P => rw [hu P (mem_edge_fin.1 h1) (by rw [h2]; exact mem_edge_fin.1 h2')]

/-! ### The mirror that swaps the outer and the inner circle -/

/-- `from_swapping_two_circles` for a circle inside another. -/
noncomputable def swapMirror (c0 inner : Circle) : Inversion :=
  ⟨c0.center + (c0.radius / (c0.radius + inner.radius)) • (inner.center - c0.center),
    c0.radius * inner.radius * ((c0.radius + inner.radius) ^ 2 - sqDist inner.center c0.center) / (c0.radius + inner.radius) ^ 2⟩

theorem swapMirror_eq {c0 inner : Circle} (h0 : c0.Valid) (hi : inner.Valid) (hlt : inner.radius < c0.radius)
    (h : lprod inner c0 ≤ -(2 * (inner.radius * c0.radius))) :
    Inversion.from_swapping_two_circles c0 inner = some (swapMirror c0 inner) := by
  have R0 : 0 < c0.radius := h0
  have r0 : 0 < inner.radius := hi
  unfold lprod at h
  have hd : distance_ c0.center inner.center ≤ c0.radius - inner.radius := by
    have e : distance_ c0.center inner.center = √(sqDist inner.center c0.center) := by
      simp only [distance_, vlength_, sqDist, dot1_, dot_, Pt.sub_x, Pt.sub_y]
      congr 1
      ring
    rw [e, Real.sqrt_le_left (by linarith)]
    linarith
  have hins : max c0.radius inner.radius ≥ distance_ c0.center inner.center + min c0.radius inner.radius := by
    rw [max_eq_left hlt.le, min_eq_right hlt.le]; linarith
  have hs : c0.radius / inner.radius / (1 + c0.radius / inner.radius) = c0.radius / (c0.radius + inner.radius) := by
    field_simp; ring
  unfold Inversion.from_swapping_two_circles
  dsimp only
  rw [if_neg hlt.ne', if_pos (Or.inl rfl), if_pos hins, hs]
  unfold swapMirror
  congr 2
  have hY : 0 < (c0.radius + inner.radius) ^ 2 - sqDist inner.center c0.center := by nlinarith
  have e : dot1_ (c0.center + (c0.radius / (c0.radius + inner.radius)) • (inner.center - c0.center) - inner.center) - inner.radius * inner.radius =
      -(inner.radius ^ 2 * ((c0.radius + inner.radius) ^ 2 - sqDist inner.center c0.center) / (c0.radius + inner.radius) ^ 2) := by
    simp only [dot1_, dot_, sqDist, Pt.add_x, Pt.add_y, Pt.smul_x, Pt.smul_y, Pt.sub_x, Pt.sub_y]
    field_simp
    ring
  rw [e, abs_neg, abs_of_pos (by positivity)]
  field_simp

section
variable {n : ℕ} {c0 inner : Circle} {r m : ℕ → Circle}

theorem ApSeed.gap_pos (h : ApSeed n c0 inner r m) : 0 < (c0.radius + inner.radius) ^ 2 - sqDist inner.center c0.center := by
  have h1 := h.i0
  have h2 := h.pos0
  have h3 := h.posi
  unfold lprod at h1
  nlinarith

theorem ApSeed.swap_power (h : ApSeed n c0 inner r m) : 0 < (swapMirror c0 inner).power := by
  have h1 := h.gap_pos
  have h2 := h.pos0
  have h3 := h.posi
  unfold swapMirror
  dsimp only
  positivity

/-- Powers of the pole of the swapping mirror: an affine combination. -/
theorem swap_pole (h0 : 0 < c0.radius) (hi : 0 < inner.radius) (P : Pt) :
    sqDist P (swapMirror c0 inner).pole = (swapMirror c0 inner).power +
      (inner.radius * (sqDist P c0.center - c0.radius ^ 2) + c0.radius * (sqDist P inner.center - inner.radius ^ 2)) / (c0.radius + inner.radius) := by
  unfold swapMirror
  dsimp only
  have key : ∀ μ : ℝ, sqDist P (c0.center + μ • (inner.center - c0.center)) = (1 - μ) * sqDist P c0.center + μ * sqDist P inner.center -
      μ * (1 - μ) * sqDist inner.center c0.center := by
    intro μ; unfold sqDist; simp only [Pt.add_x, Pt.add_y, Pt.smul_x, Pt.smul_y, Pt.sub_x, Pt.sub_y]; ring
  rw [key]
  field_simp
  ring

theorem ApSeed.swap_chain (h : ApSeed n c0 inner r m) {i : ℕ} (hi : i < n) :
    sqDist (r i).center (swapMirror c0 inner).pole - (r i).radius ^ 2 = (swapMirror c0 inner).power := by
  have h1 := h.ri i hi
  have h2 := h.r0 i
  have p0 := h.pos0
  have pi := h.posi
  unfold lprod at h1 h2
  rw [swap_pole p0 pi]
  have e1 : sqDist (r i).center c0.center - c0.radius ^ 2 = (r i).radius ^ 2 - 2 * ((r i).radius * c0.radius) := by linarith
  have e2 : sqDist (r i).center inner.center - inner.radius ^ 2 = (r i).radius ^ 2 + 2 * ((r i).radius * inner.radius) := by linarith
  rw [e1, e2]
  field_simp
  ring

theorem ApSeed.swap_apart (h : ApSeed n c0 inner r m) {i : ℕ} (hi : i < n) :
    2 * ((m i).radius * √(swapMirror c0 inner).power) ≤ lprod (m i) ⟨(swapMirror c0 inner).pole, √(swapMirror c0 inner).power⟩ := by
  have h1 := h.m0 i hi
  have h2 := h.mi i hi
  have h3 := h.key i hi
  have p0 := h.pos0
  have pi := h.posi
  have pm := h.posm i
  have hk := h.swap_power
  have hX : lprod (m i) ⟨(swapMirror c0 inner).pole, √(swapMirror c0 inner).power⟩ = c0.radius / (c0.radius + inner.radius) * lprod (m i) inner := by
    unfold lprod at h1 ⊢
    dsimp only
    rw [swap_pole p0 pi, Real.sq_sqrt hk.le]
    have e1 : sqDist (m i).center c0.center - c0.radius ^ 2 = (m i).radius ^ 2 := by linarith
    rw [e1]
    field_simp
    ring
  rw [hX]
  have hX0 : 0 < lprod (m i) inner := by nlinarith [mul_pos pm pi]
  refine le_of_sq_le_sq ?_ (by positivity)
  have e : (2 * ((m i).radius * √(swapMirror c0 inner).power)) ^ 2 = 4 * (m i).radius ^ 2 * (swapMirror c0 inner).power := by
    rw [mul_pow, mul_pow, Real.sq_sqrt hk.le]; ring
  rw [e]
  have hY : (c0.radius + inner.radius) ^ 2 - sqDist inner.center c0.center = 2 * (c0.radius * inner.radius) - lprod inner c0 := by
    unfold lprod; ring
  unfold swapMirror
  dsimp only
  rw [hY, mul_pow, div_pow, div_mul_eq_mul_div, mul_div_assoc', div_le_div_iff_of_pos_right (by positivity)]
  have := mul_le_mul_of_nonneg_left h3 p0.le
  linarith

theorem ApSeed.swap_swap (h : ApSeed n c0 inner r m) :
    (disc inner).image (mirror (swapMirror c0 inner)) = outside c0 ∧ (outside c0).image (mirror (swapMirror c0 inner)) = disc inner := by
  have p0 := h.pos0
  have pi := h.posi
  have hk := h.swap_power
  have hY := h.gap_pos
  have hD : sqDist inner.center (swapMirror c0 inner).pole - inner.radius ^ 2 =
      -(inner.radius ^ 2 * ((c0.radius + inner.radius) ^ 2 - sqDist inner.center c0.center) / (c0.radius + inner.radius) ^ 2) := by
    unfold swapMirror
    dsimp only
    unfold sqDist
    simp only [Pt.add_x, Pt.add_y, Pt.smul_x, Pt.smul_y, Pt.sub_x, Pt.sub_y]
    field_simp
    ring
  have hneg : sqDist inner.center (swapMirror c0 inner).pole - inner.radius ^ 2 < 0 := by
    rw [hD, neg_lt_zero]; positivity
  have hq : (swapMirror c0 inner).power / (sqDist inner.center (swapMirror c0 inner).pole - inner.radius ^ 2) = -(c0.radius / inner.radius) := by
    rw [hD]
    unfold swapMirror
    dsimp only
    field_simp
  have h1 := (image_region (iota := swapMirror c0 inner) (c := inner) (c' := c0) hk.ne' rfl hneg.ne (by
      rw [hq]
      unfold swapMirror
      ext
      · simp only [Pt.add_x, Pt.smul_x, Pt.sub_x]
        field_simp
        ring
      · simp only [Pt.add_y, Pt.smul_y, Pt.sub_y]
        field_simp
        ring) (by rw [hq, abs_neg, abs_of_pos (by positivity)]; field_simp)).2 (by linarith)
  refine ⟨h1.1, ?_⟩
  rw [← h1.1, Region.image_image (xinv_involutive _ hk.ne')]

end

/-! ### The seed -/

/-- The mirror with the circle `m`. -/
noncomputable def mirrorOf (m : Circle) : Inversion := ⟨m.center, m.radius ^ 2⟩

/-- The mirrors of the script. -/
noncomputable def apMirrors (n : ℕ) (c0 inner : Circle) (m : ℕ → Circle) : List Inversion :=
  (List.range n).map (fun i => mirrorOf (m i)) ++ [swapMirror c0 inner]

/-- The circle number `j` of the script. -/
noncomputable def apCircle (n : ℕ) (inner : Circle) (r : ℕ → Circle) (j : ℕ) : Circle := if j < n then r j else inner

/-- The starting regions: the outside of the outer circle, the chain and the inner circle. -/
def apRegions (n : ℕ) (c0 inner : Circle) (r : ℕ → Circle) : Set Region :=
  {s | s = outside c0 ∨ ∃ j ≤ n, s = disc (apCircle n inner r j)}

/-- The indices of the inner loop. -/
def apIndices (n i : ℕ) : List ℕ := (List.range (n + 1)).filter fun j => j ≠ i ∧ j ≠ (i + 1) % n

/-- The first generation. -/
noncomputable def apFirst (n : ℕ) (inner : Circle) (r m : ℕ → Circle) : List (Circle × ℕ) :=
  (List.range n).flatMap fun i => (apIndices n i).map fun j => (img (m i).center ((m i).radius ^ 2) (apCircle n inner r j), i)

theorem apMirrors_get {n : ℕ} {c0 inner : Circle} {m : ℕ → Circle} {j : ℕ} {iota : Inversion} (h : (apMirrors n c0 inner m)[j]? = some iota) :
    (j < n ∧ iota = mirrorOf (m j)) ∨ (j = n ∧ iota = swapMirror c0 inner) := by
  unfold apMirrors at h
  rcases Nat.lt_or_ge j n with hj | hj
  · rw [List.getElem?_append_left (by simpa using hj), List.getElem?_map, List.getElem?_range hj] at h
    exact Or.inl ⟨hj, by simpa using h.symm⟩
  · rw [List.getElem?_append_right (by simpa using hj)] at h
    simp only [List.length_map, List.length_range] at h
    have hjn : j - n = 0 := by
      by_contra hne
      obtain ⟨k, hk⟩ := Nat.exists_eq_succ_of_ne_zero hne
      rw [hk] at h
      simp at h
    rw [hjn] at h
    exact Or.inr ⟨by omega, by simpa using h.symm⟩

theorem apMirrors_lt {n : ℕ} {c0 inner : Circle} {m : ℕ → Circle} {j : ℕ} (hj : j < n) :
    (apMirrors n c0 inner m)[j]? = some (mirrorOf (m j)) := by
  unfold apMirrors
  rw [List.getElem?_append_left (by simpa using hj), List.getElem?_map, List.getElem?_range hj]
  rfl

theorem mem_apMirrors {n : ℕ} {c0 inner : Circle} {m : ℕ → Circle} {iota : Inversion} :
    iota ∈ apMirrors n c0 inner m ↔ (∃ i < n, iota = mirrorOf (m i)) ∨ iota = swapMirror c0 inner := by
  unfold apMirrors
  simp only [List.mem_append, List.mem_map, List.mem_range, List.mem_singleton]
  constructor
  · rintro (⟨i, h, rfl⟩ | h)
    · exact Or.inl ⟨i, h, rfl⟩
    · exact Or.inr h
  · rintro (⟨i, h, rfl⟩ | h)
    · exact Or.inl ⟨i, h, rfl⟩
    · exact Or.inr h

section
variable {n : ℕ} {c0 inner : Circle} {r m : ℕ → Circle}

theorem mirrorDisc_mirrorOf {c : Circle} (hc : 0 < c.radius) : mirrorDisc (mirrorOf c) = disc c := by
  unfold mirrorDisc mirrorOf
  dsimp only
  rw [Real.sqrt_sq hc.le]

theorem ApSeed.circle_pos (h : ApSeed n c0 inner r m) (j : ℕ) : (apCircle n inner r j).Valid := by
  unfold apCircle
  split_ifs
  · exact h.posr j
  · exact h.posi

theorem ApSeed.circles_apart (h : ApSeed n c0 inner r m) {j k : ℕ} (hj : j ≤ n) (hk : k ≤ n) (hjk : j ≠ k) :
    (disc (apCircle n inner r j)).Apart (disc (apCircle n inner r k)) := by
  refine apart_of_lprod (h.circle_pos j) (h.circle_pos k) ?_
  unfold apCircle
  by_cases h1 : j < n <;> by_cases h2 : k < n
  · rw [if_pos h1, if_pos h2]; exact h.rr j k h1 h2 hjk
  · rw [if_pos h1, if_neg h2]; exact (h.ri j h1).ge
  · rw [if_neg h1, if_pos h2, lprod_comm]
    have := (h.ri k h2).ge
    linarith
  · omega

theorem ApSeed.circle_inside (h : ApSeed n c0 inner r m) (j : ℕ) : (outside c0).Apart (disc (apCircle n inner r j)) := by
  refine outside_apart h.pos0 (h.circle_pos j) ?_ ?_
  · unfold apCircle
    split_ifs
    · exact (h.rlt j).le
    · exact h.ilt.le
  · unfold apCircle
    split_ifs
    · exact (h.r0 j).le
    · exact h.i0

/-- The circles fixed by a mirror. -/
theorem ApSeed.mirror_fixes (h : ApSeed n c0 inner r m) {i : ℕ} (hi : i < n) {j : ℕ} (hj : j ≤ n) (hij : ¬ (j ≠ i ∧ j ≠ (i + 1) % n)) :
    (disc (apCircle n inner r j)).image (mirror (mirrorOf (m i))) = disc (apCircle n inner r j) := by
  have hmod : (i + 1) % n < n := Nat.mod_lt _ (by omega)
  have hjn : j < n := by
    by_contra hc
    exact hij ⟨by omega, by omega⟩
  have h0 := h.mr0 i j hi hjn (by
    by_contra hc
    push Not at hc
    exact hij hc)
  unfold apCircle
  rw [if_pos hjn]
  refine (fixed_region (iota := mirrorOf (m i)) (pow_pos (h.posm i) 2) ?_).1
  unfold lprod at h0
  unfold mirrorOf
  dsimp only
  rw [sqDist_comm]
  linarith

theorem ApSeed.mirror_outside (h : ApSeed n c0 inner r m) {i : ℕ} (hi : i < n) :
    (outside c0).image (mirror (mirrorOf (m i))) = outside c0 := by
  have h0 := h.m0 i hi
  refine (fixed_region (iota := mirrorOf (m i)) (pow_pos (h.posm i) 2) ?_).2
  unfold lprod at h0
  unfold mirrorOf
  dsimp only
  rw [sqDist_comm]
  linarith

/-- The circles away from a mirror. -/
theorem ApSeed.mirror_apart (h : ApSeed n c0 inner r m) {i : ℕ} (hi : i < n) {j : ℕ} (hij : j ≠ i ∧ j ≠ (i + 1) % n) :
    2 * ((m i).radius * (apCircle n inner r j).radius) ≤ lprod (m i) (apCircle n inner r j) := by
  unfold apCircle
  by_cases hjn : j < n
  · rw [if_pos hjn]; exact h.mr i j hi hjn hij.1 hij.2
  · rw [if_neg hjn]; exact h.mi i hi

theorem ApSeed.swap_closed (h : ApSeed n c0 inner r m) {s : Region} (hs : s ∈ apRegions n c0 inner r) :
    s.image (mirror (swapMirror c0 inner)) ∈ apRegions n c0 inner r := by
  rcases hs with rfl | ⟨j, hj, rfl⟩
  · rw [h.swap_swap.2]
    exact Or.inr ⟨n, le_rfl, by unfold apCircle; rw [if_neg (by omega)]⟩
  · by_cases hjn : j < n
    · have : (disc (apCircle n inner r j)).image (mirror (swapMirror c0 inner)) = disc (apCircle n inner r j) := by
        unfold apCircle
        rw [if_pos hjn]
        exact (fixed_region h.swap_power (h.swap_chain hjn)).1
      rw [this]
      exact Or.inr ⟨j, hj, rfl⟩
    · have : apCircle n inner r j = inner := by unfold apCircle; rw [if_neg hjn]
      rw [this, h.swap_swap.1]
      exact Or.inl rfl

theorem ApSeed.seed (h : ApSeed n c0 inner r m) : GasketSeed (apMirrors n c0 inner m) (apRegions n c0 inner r) := by
  have hsw := h.swap_power
  have vs : (⟨(swapMirror c0 inner).pole, √(swapMirror c0 inner).power⟩ : Circle).Valid := Real.sqrt_pos.2 hsw
  have hns : ∀ i < n, (mirrorDisc (mirrorOf (m i))).Apart (mirrorDisc (swapMirror c0 inner)) := by
    intro i hi
    rw [mirrorDisc_mirrorOf (h.posm i)]
    exact apart_of_lprod (h.posm i) vs (h.swap_apart hi)
  refine ⟨?_, ?_, ?_, ?_⟩
  · intro iota hi
    rcases mem_apMirrors.1 hi with ⟨i, hi, rfl⟩ | rfl
    · exact pow_pos (h.posm i) 2
    · exact hsw
  · intro i j a b ha hb hij
    rcases apMirrors_get ha with ⟨hi, rfl⟩ | ⟨rfl, rfl⟩ <;> rcases apMirrors_get hb with ⟨hj, rfl⟩ | ⟨rfl, rfl⟩
    · rw [mirrorDisc_mirrorOf (h.posm i), mirrorDisc_mirrorOf (h.posm j)]
      exact apart_of_lprod (h.posm i) (h.posm j) (h.mm i j hi hj hij)
    · exact hns i hi
    · exact (hns j hj).symm
    · exact absurd rfl hij
  · intro s hs t ht hst
    rcases hs with rfl | ⟨j, hj, rfl⟩ <;> rcases ht with rfl | ⟨k, hk, rfl⟩
    · exact absurd rfl hst
    · exact h.circle_inside k
    · exact (h.circle_inside j).symm
    · exact h.circles_apart hj hk (by rintro rfl; exact hst rfl)
  · intro iota hm s hs
    rcases mem_apMirrors.1 hm with ⟨i, hi, rfl⟩ | rfl
    · rcases hs with rfl | ⟨j, hj, rfl⟩
      · left; rw [h.mirror_outside hi]; exact Or.inl rfl
      · by_cases hij : j ≠ i ∧ j ≠ (i + 1) % n
        · right
          refine ⟨?_, _, h.circle_pos j, rfl⟩
          rw [mirrorDisc_mirrorOf (h.posm i)]
          exact (apart_of_lprod (h.posm i) (h.circle_pos j) (h.mirror_apart hi hij)).symm
        · left
          rw [h.mirror_fixes hi hj hij]
          exact Or.inr ⟨j, hj, rfl⟩
    · exact Or.inl (h.swap_closed hs)

/-- The image of a circle away from a mirror. -/
theorem ApSeed.image_first (h : ApSeed n c0 inner r m) {i : ℕ} (hi : i < n) {j : ℕ} (hij : j ≠ i ∧ j ≠ (i + 1) % n) :
    (img (m i).center ((m i).radius ^ 2) (apCircle n inner r j)).Valid ∧
    disc (img (m i).center ((m i).radius ^ 2) (apCircle n inner r j)) = (disc (apCircle n inner r j)).image (mirror (mirrorOf (m i))) ∧
    (m i).radius ^ 2 < sqDist (apCircle n inner r j).center (m i).center - (apCircle n inner r j).radius ^ 2 := by
  have hq := h.posm i
  have hc : 0 < (apCircle n inner r j).radius := h.circle_pos j
  have hp := h.mirror_apart hi hij
  have hD : (m i).radius ^ 2 < sqDist (apCircle n inner r j).center (m i).center - (apCircle n inner r j).radius ^ 2 := by
    unfold lprod at hp
    rw [sqDist_comm]
    have := mul_pos hq hc
    linarith
  have hq2 : 0 < (m i).radius ^ 2 := pow_pos hq 2
  have hD0 : 0 < sqDist (apCircle n inner r j).center (m i).center - (apCircle n inner r j).radius ^ 2 := by linarith
  have hv : 0 < (m i).radius ^ 2 / (sqDist (apCircle n inner r j).center (m i).center - (apCircle n inner r j).radius ^ 2) := div_pos hq2 hD0
  refine ⟨mul_pos hv hc, ?_, hD⟩
  refine ((image_region (iota := mirrorOf (m i)) (c := apCircle n inner r j) (D := _) hq2.ne' rfl hD0.ne' rfl ?_).1 ?_).symm
  · change _ = |(m i).radius ^ 2 / (sqDist (apCircle n inner r j).center (m i).center - (apCircle n inner r j).radius ^ 2)| * _
    rw [abs_of_pos hv]
    rfl
  · change _ < sqDist (apCircle n inner r j).center (m i).center
    linarith

theorem mem_apIndices {i j : ℕ} : j ∈ apIndices n i ↔ j ≤ n ∧ (j ≠ i ∧ j ≠ (i + 1) % n) := by
  unfold apIndices
  rw [List.mem_filter, List.mem_range]
  simp only [ne_eq, decide_eq_true_eq]
  rw [Nat.lt_succ_iff]

theorem mem_apFirst {p : Circle × ℕ} : p ∈ apFirst n inner r m ↔ ∃ i < n, ∃ j ≤ n, (j ≠ i ∧ j ≠ (i + 1) % n) ∧
    p = (img (m i).center ((m i).radius ^ 2) (apCircle n inner r j), i) := by
  unfold apFirst
  simp only [List.mem_flatMap, List.mem_range, List.mem_map, mem_apIndices]
  constructor
  · rintro ⟨i, hi, j, ⟨hj, hij⟩, rfl⟩; exact ⟨i, hi, j, hj, hij, rfl⟩
  · rintro ⟨i, hi, j, hj, hij, rfl⟩; exact ⟨i, hi, j, ⟨hj, hij⟩, rfl⟩

theorem ApSeed.image_notMem (h : ApSeed n c0 inner r m) {i : ℕ} (hi : i < n) {j : ℕ} (hj : j ≤ n) (hij : j ≠ i ∧ j ≠ (i + 1) % n) :
    (disc (apCircle n inner r j)).image (mirror (mirrorOf (m i))) ∉ apRegions n c0 inner r := by
  obtain ⟨hv, he, -⟩ := h.image_first hi hij
  have hk : 0 < (mirrorOf (m i)).power := pow_pos (h.posm i) 2
  have hap : ∀ k, (k ≠ i ∧ k ≠ (i + 1) % n) → (disc (apCircle n inner r k)).Apart (mirrorDisc (mirrorOf (m i))) := by
    intro k hk
    rw [mirrorDisc_mirrorOf (h.posm i)]
    exact (apart_of_lprod (h.posm i) (h.circle_pos k) (h.mirror_apart hi hk)).symm
  have hin := (image_apart hk (h.circle_pos j) (hap j hij)).2
  rw [← he] at hin ⊢
  obtain ⟨X, hX⟩ := disc_nonempty hv
  have hinv := xinv_involutive (mirrorOf (m i)).pole hk.ne'
  -- a region fixed by the mirror would be the starting circle itself
  have bad : (disc (img (m i).center ((m i).radius ^ 2) (apCircle n inner r j))).image (mirror (mirrorOf (m i))) =
      disc (img (m i).center ((m i).radius ^ 2) (apCircle n inner r j)) → False := by
    intro hf
    rw [he, Region.image_image hinv] at hf
    have hX' : X ∈ (disc (apCircle n inner r j)).inside := by rw [hf, ← he]; exact hX
    exact Set.disjoint_left.1 (hap j hij) hX' (hin hX)
  rintro (hs | ⟨k, hk', hs⟩)
  · apply bad
    rw [hs, h.mirror_outside hi]
  · by_cases hik : k ≠ i ∧ k ≠ (i + 1) % n
    · have hX' : X ∈ (disc (apCircle n inner r k)).inside := by rw [← hs]; exact hX
      exact Set.disjoint_left.1 (hap k hik) hX' (hin hX)
    · apply bad
      rw [hs, h.mirror_fixes hi hk' hik]

theorem ApSeed.gasket (h : ApSeed n c0 inner r m) (hpow : ∀ iota ∈ apMirrors n c0 inner m, 1 / 2 ^ 26 ≤ iota.power) :
    GasketData (apMirrors n c0 inner m) (apRegions n c0 inner r) (apFirst n inner r m) := by
  refine C97_from_seed _ _ h.seed hpow _ ?_ ?_ ?_
  · intro p hp
    obtain ⟨i, hi, j, hj, hij, rfl⟩ := mem_apFirst.1 hp
    obtain ⟨hv, he, -⟩ := h.image_first hi hij
    refine ⟨hv, mirrorOf (m i), apMirrors_lt hi, _, Or.inr ⟨j, hj, rfl⟩, ?_, h.image_notMem hi hj hij, he⟩
    rw [mirrorDisc_mirrorOf (h.posm i)]
    exact (apart_of_lprod (h.posm i) (h.circle_pos j) (h.mirror_apart hi hij)).symm
  · intro i iota hm s hs hn
    rcases apMirrors_get hm with ⟨hi, rfl⟩ | ⟨-, rfl⟩
    · rcases hs with rfl | ⟨j, hj, rfl⟩
      · exact absurd (by rw [h.mirror_outside hi]; exact Or.inl rfl) hn
      · by_cases hij : j ≠ i ∧ j ≠ (i + 1) % n
        · exact ⟨_, mem_apFirst.2 ⟨i, hi, j, hj, hij, rfl⟩, (h.image_first hi hij).2.1.symm⟩
        · exact absurd (by rw [h.mirror_fixes hi hj hij]; exact Or.inr ⟨j, hj, rfl⟩) hn
    · exact absurd (h.swap_closed hs) hn
  · unfold apFirst
    rw [List.pairwise_flatMap]
    constructor
    · intro i hi
      rw [List.mem_range] at hi
      rw [List.pairwise_map]
      have hnd : (apIndices n i).Nodup := List.nodup_range.filter _
      refine List.Pairwise.imp_of_mem ?_ hnd
      intro j k hj hk hjk _ he
      obtain ⟨hj, hij⟩ := mem_apIndices.1 hj
      obtain ⟨hk, hik⟩ := mem_apIndices.1 hk
      dsimp only at he
      rw [(h.image_first hi hij).2.1, (h.image_first hi hik).2.1] at he
      have hinv := xinv_involutive (mirrorOf (m i)).pole (k := (mirrorOf (m i)).power) (pow_pos (h.posm i) 2).ne'
      have he' := congrArg (Region.image (mirror (mirrorOf (m i)))) he
      rw [Region.image_image hinv, Region.image_image hinv] at he'
      have hap := h.circles_apart hj hk hjk
      rw [he'] at hap
      obtain ⟨X, hX⟩ := disc_nonempty (h.circle_pos k)
      exact Set.disjoint_left.1 hap hX hX
    · refine List.Pairwise.imp ?_ (List.nodup_range (n := n))
      intro i k hik p hp q hq hpq
      obtain ⟨_, _, rfl⟩ := List.mem_map.1 hp
      obtain ⟨_, _, rfl⟩ := List.mem_map.1 hq
      exact absurd hpq hik

theorem length_apIndices {i : ℕ} (hn : 3 ≤ n) (hi : i < n) : (apIndices n i).length = n - 1 := by
  have hmod : (i + 1) % n < n := Nat.mod_lt _ (by omega)
  have hne : (i + 1) % n ≠ i := by
    rcases Nat.lt_or_ge (i + 1) n with h | h
    · rw [Nat.mod_eq_of_lt h]; omega
    · have : i + 1 = n := by omega
      rw [this, Nat.mod_self]; omega
  have h1 : apIndices n i = ((List.range (n + 1)).erase i).erase ((i + 1) % n) := by
    rw [(List.nodup_range.erase i).erase_eq_filter, List.nodup_range.erase_eq_filter, List.filter_filter]
    unfold apIndices
    congr 1
    funext x
    rw [Bool.eq_iff_iff]
    simp [and_comm]
  rw [h1, List.length_erase_of_mem, List.length_erase_of_mem (List.mem_range.2 (by omega)), List.length_range]
  · omega
  · rw [List.Nodup.mem_erase_iff List.nodup_range]
    exact ⟨hne, List.mem_range.2 (by omega)⟩

theorem length_apFirst (hn : 3 ≤ n) : (apFirst n inner r m).length = n * (n - 1) := by
  unfold apFirst
  rw [List.length_flatMap]
  have : (List.range n).map (fun i => ((apIndices n i).map fun j => (img (m i).center ((m i).radius ^ 2) (apCircle n inner r j), i)).length) =
      (List.range n).map fun _ => n - 1 := by
    apply List.map_congr_left
    intro i hi
    rw [List.length_map, length_apIndices hn (List.mem_range.1 hi)]
  rw [this]
  simp

/-- Every starting circle touches three different starting regions. -/
theorem ApSeed.touches (h : ApSeed n c0 inner r m) (hn : 3 ≤ n) {j : ℕ} (hj : j ≤ n) : ∃ q : Fin 3 → Region, Function.Injective q ∧
    ∀ i, q i ∈ apRegions n c0 inner r ∧ (disc (apCircle n inner r j)).Touches (q i) := by
  have p0 := h.pos0
  have pin := h.posi
  have inj3 : ∀ A B C : Region, A ≠ B → A ≠ C → B ≠ C → Function.Injective ![A, B, C] := by
    intro A B C h1 h2 h3 a b hab
    fin_cases a <;> fin_cases b <;> simp_all
  have dne : ∀ a b, a ≤ n → b ≤ n → a ≠ b → disc (apCircle n inner r a) ≠ disc (apCircle n inner r b) := by
    intro a b ha hb hab he
    have hap := h.circles_apart ha hb hab
    rw [he] at hap
    obtain ⟨X, hX⟩ := disc_nonempty (h.circle_pos b)
    exact Set.disjoint_left.1 hap hX hX
  have one : ∀ a, outside c0 ≠ disc (apCircle n inner r a) := by
    intro a he
    have : XPt.inf ∈ (disc (apCircle n inner r a)).inside := by rw [← he]; exact mem_outside_inf
    exact mem_disc_inf this
  have mem : ∀ a ≤ n, disc (apCircle n inner r a) ∈ apRegions n c0 inner r := fun a ha => Or.inr ⟨a, ha, rfl⟩
  have cr : ∀ a < n, apCircle n inner r a = r a := fun a ha => by unfold apCircle; rw [if_pos ha]
  have cn : apCircle n inner r n = inner := by unfold apCircle; rw [if_neg (by omega)]
  have tri : ∀ a < n, (disc (r a)).Touches (disc inner) := by
    intro a ha
    have := h.ri a ha
    have pr := h.posr a
    unfold lprod at this
    exact touches_of rfl rfl rfl (by positivity) (by linarith)
  by_cases hjn : j < n
  · have hmod : (j + 1) % n < n := Nat.mod_lt _ (by omega)
    have hne : j ≠ (j + 1) % n := by
      rcases Nat.lt_or_ge (j + 1) n with h | h
      · rw [Nat.mod_eq_of_lt h]; omega
      · have : j + 1 = n := by omega
        rw [this, Nat.mod_self]; omega
    refine ⟨![outside c0, disc (apCircle n inner r n), disc (apCircle n inner r ((j + 1) % n))],
      inj3 _ _ _ (one _) (one _) (dne _ _ le_rfl hmod.le (by omega)), ?_⟩
    have t1 : (disc (r j)).Touches (outside c0) := by
      have := h.r0 j
      have hl := h.rlt j
      unfold lprod at this
      exact touches_of (b := c0) (r2 := -c0.radius) rfl rfl (by ring) (by linarith) (by linarith)
    have t2 := tri j hjn
    have t3 : (disc (r j)).Touches (disc (r ((j + 1) % n))) := by
      have := h.next j hjn
      have pr := h.posr j
      have pr2 := h.posr ((j + 1) % n)
      unfold lprod at this
      exact touches_of rfl rfl rfl (by positivity) (by linarith)
    rw [cr j hjn]
    intro i
    fin_cases i
    · exact ⟨Or.inl rfl, t1⟩
    · exact ⟨mem n le_rfl, by simpa [cn] using t2⟩
    · exact ⟨mem _ hmod.le, by simpa [cr _ hmod] using t3⟩
  · have : j = n := by omega
    subst this
    refine ⟨![disc (apCircle j inner r 0), disc (apCircle j inner r 1), disc (apCircle j inner r 2)],
      inj3 _ _ _ (dne _ _ (by omega) (by omega) (by omega)) (dne _ _ (by omega) (by omega) (by omega)) (dne _ _ (by omega) (by omega) (by omega)), ?_⟩
    rw [cn]
    intro i
    fin_cases i
    · exact ⟨mem _ (by omega), by simpa [cr 0 (by omega)] using Region.Touches.symm (tri 0 (by omega))⟩
    · exact ⟨mem _ (by omega), by simpa [cr 1 (by omega)] using Region.Touches.symm (tri 1 (by omega))⟩
    · exact ⟨mem _ (by omega), by simpa [cr 2 (by omega)] using Region.Touches.symm (tri 2 (by omega))⟩

/-- Every circle of the first generation touches three different regions. -/
theorem ApSeed.touches_first (h : ApSeed n c0 inner r m) (hn : 3 ≤ n) (hpow : ∀ iota ∈ apMirrors n c0 inner m, 1 / 2 ^ 26 ≤ iota.power) :
    ∀ p ∈ apFirst n inner r m, ∃ q : Fin 3 → Region, Function.Injective q ∧
      ∀ i, q i ∈ GasketRegions (apMirrors n c0 inner m) (apRegions n c0 inner r) (apFirst n inner r m) 0 ∧ (disc p.1).Touches (q i) := by
  intro p hp
  obtain ⟨i, hi, j, hj, hij, rfl⟩ := mem_apFirst.1 hp
  obtain ⟨q, hq1, hq2⟩ := h.touches hn hj
  have hinv := xinv_involutive (mirrorOf (m i)).pole (k := (mirrorOf (m i)).power) (pow_pos (h.posm i) 2).ne'
  refine ⟨fun a => (q a).image (mirror (mirrorOf (m i))), ?_, ?_⟩
  · intro a b hab
    apply hq1
    have := congrArg (Region.image (mirror (mirrorOf (m i)))) hab
    simpa only [Region.image_image hinv] using this
  · intro a
    refine ⟨?_, ?_⟩
    · rcases (h.gasket hpow).closed i _ (apMirrors_lt hi) _ (hq2 a).1 with h' | ⟨c, hc, hci⟩
      · exact Or.inl h'
      · exact Or.inr ⟨0, le_rfl, _, rfl, _, hc, hci⟩
    · dsimp only
      rw [(h.image_first hi hij).2.1]
      exact Region.touches_image hinv (hq2 a).2

end
