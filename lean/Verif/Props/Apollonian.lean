import Verif.Lemmas.RingApollonian
import Verif.Model.Apollonian

/-! C99: the script `examples/ApollonianGasket.py` draws a packing, at every depth. -/

open Spec Real Classical Gasket

/-! ### The configuration for every `phi` -/

/-- The image of a circle of the symmetric configuration by the inversion of `SteinerChain`. -/
noncomputable def apMap (c0 : Circle) (phi : ℝ) (c : Circle) : Circle :=
  if phi = 0 then c else img (pole0 c0 phi) ((c0.radius / |phi|) ^ 2 - c0.radius ^ 2) c

theorem pole0_dist {c0 : Circle} {phi : ℝ} (hp : phi ≠ 0) : sqDist (pole0 c0 phi) c0.center = (c0.radius / |phi|) ^ 2 := by
  rw [div_pow, sq_abs]; simp [sqDist, pole0]; field_simp

theorem phi_lt_one {n : ℕ} (hn : 3 ≤ n) {phi : ℝ} (h : |phi| * (1 + sin (π / n)) < cos (π / n)) : |phi| < 1 := by
  obtain ⟨hs0, -⟩ := sine_bounds hn
  have := cos_le_one (π / n)
  nlinarith [abs_nonneg phi]

/-- The pole is outside the mirrors of the symmetric configuration. -/
theorem mirror0_power {c0 : Circle} (hc : c0.Valid) {n : ℕ} (hn : 3 ≤ n) {phi : ℝ} (shift : ℝ) (hp : phi ≠ 0)
    (h : |phi| * (1 + sin (π / n)) < cos (π / n)) (i : ℕ) :
    0 < sqDist (mirror0 c0 n shift i).center (pole0 c0 phi) - (mirror0 c0 n shift i).radius ^ 2 := by
  have hR : 0 < c0.radius := hc
  obtain ⟨hs0, -⟩ := sine_bounds hn
  have hc2 := cosine_bounds hn
  have hcp : 0 < cos (π / n) := by linarith
  have habs : 0 < |phi| := abs_pos.2 hp
  have hP0 : 0 < c0.radius / cos (π / n) := by positivity
  have hf := far_from_pole (O := c0.center) (I := pole0 c0 phi) (C := (mirror0 c0 n shift i).center) (d := c0.radius / |phi|)
    (m := c0.radius / cos (π / n)) (by positivity) hP0.le (pole0_dist hp) (by
      rw [sqDist_comm]; exact sqDist_polar_center _ _ _)
  have h1 : c0.radius / cos (π / n) * (1 + sin (π / n)) < c0.radius / |phi| := by
    rw [div_mul_eq_mul_div, div_lt_div_iff₀ hcp habs]
    nlinarith
  have h2 : c0.radius / cos (π / n) * sin (π / n) < c0.radius / |phi| - c0.radius / cos (π / n) := by linarith
  have h3 := pow_lt_pow_left₀ h2 (by positivity) (two_ne_zero)
  unfold mirror0 at hf ⊢
  dsimp only at hf ⊢
  linarith

theorem ap_seed {c0 : Circle} (hc : c0.Valid) {n : ℕ} (hn : 3 ≤ n) {phi : ℝ} (shift : ℝ) (h : |phi| * (1 + sin (π / n)) < cos (π / n)) :
    ApSeed n c0 (apMap c0 phi (inner0 c0 n)) (fun i => apMap c0 phi (chain0 c0 n shift i)) (fun i => apMap c0 phi (mirror0 c0 n shift i)) := by
  have hR : 0 < c0.radius := hc
  have h0 := seed0 hc hn shift
  by_cases hp : phi = 0
  · unfold apMap
    simp only [if_pos hp]
    exact h0
  · unfold apMap
    simp only [if_neg hp]
    have habs : 0 < |phi| := abs_pos.2 hp
    have hphi := phi_lt_one hn h
    have hd : c0.radius < c0.radius / |phi| := by rw [lt_div_iff₀ habs]; nlinarith
    have hpos : 0 < (c0.radius / |phi| - c0.radius) ^ 2 := pow_pos (by linarith) 2
    obtain ⟨h1, h2⟩ := pole0_power hc hn shift hphi hp
    exact h0.transport hd (pole0_dist hp) (fun i => lt_of_lt_of_le hpos (h1 i)) (mirror0_power hc hn shift hp h) (lt_of_lt_of_le hpos h2)

/-! ### What the script computes -/

theorem mapM_get {α β : Type} (f : α → Res β) {l : List α} {r : List β} (h : l.mapM f = .ok r) :
    r.length = l.length ∧ ∀ (i : ℕ) (a : α), l[i]? = some a → ∃ b, r[i]? = some b ∧ f a = .ok b := by
  induction l generalizing r with
  | nil =>
    rw [List.mapM_nil, Res.pure_ok] at h
    subst h
    exact ⟨rfl, by simp⟩
  | cons x l ih =>
    rw [List.mapM_cons] at h
    simp only [Res.bind_ok, Res.pure_ok] at h
    obtain ⟨b, hb, l', hl', rfl⟩ := h
    obtain ⟨hlen, hget⟩ := ih hl'
    refine ⟨by simp [hlen], ?_⟩
    intro i a ha
    cases i with
    | zero =>
      simp only [List.getElem?_cons_zero, Option.some.injEq] at ha
      subst ha
      exact ⟨b, by simp, hb⟩
    | succ i =>
      simp only [List.getElem?_cons_succ] at ha ⊢
      exact hget i a ha

/-- The circles before the inversion. -/
theorem phi0_list {c0 : Circle} (hc : c0.Valid) {n : ℕ} (hn : 3 ≤ n) (shift : ℝ) :
    SteinerChain_phi0_ c0 n shift = .ok ((List.range n).map (chain0 c0 n shift) ++ [inner0 c0 n]) := by
  have h0 := chain0_ok hc hn shift
  unfold SteinerChain_phi0_
  dsimp only
  rw [mapM_ok _ (chain0 c0 n shift), Res.ok_bind, mkCircle_pos (show 0 < c0.radius - 2 * (c0.radius / (1 + sin (π / n)) * sin (π / n)) from h0.ipos)]
  · rfl
  · intro i _
    exact mkCircle_pos (h0.pos i)

/-- The circle number `j` of the script. -/
noncomputable def apC (c0 : Circle) (n : ℕ) (phi shift : ℝ) (j : ℕ) : Circle :=
  apCircle n (apMap c0 phi (inner0 c0 n)) (fun i => apMap c0 phi (chain0 c0 n shift i)) j

theorem phi0_get {c0 : Circle} {n : ℕ} {shift : ℝ} (phi : ℝ) {j : ℕ} (hj : j ≤ n) :
    ∃ c, ((List.range n).map (chain0 c0 n shift) ++ [inner0 c0 n])[j]? = some c ∧ apMap c0 phi c = apC c0 n phi shift j ∧
      (c = inner0 c0 n ∨ ∃ i, c = chain0 c0 n shift i) := by
  unfold apC apCircle
  rcases Nat.lt_or_ge j n with h | h
  · refine ⟨chain0 c0 n shift j, ?_, by rw [if_pos h], Or.inr ⟨j, rfl⟩⟩
    rw [List.getElem?_append_left (by simpa using h), List.getElem?_map, List.getElem?_range h]
    rfl
  · have : j = n := by omega
    subst this
    refine ⟨inner0 c0 j, ?_, by rw [if_neg (by omega)], Or.inl rfl⟩
    rw [List.getElem?_append_right (by simp)]
    simp

/-- When `SteinerChain` returns, every circle in its list is the expected one. -/
theorem steiner_get {c0 : Circle} (hc : c0.Valid) {n : ℕ} (hn : 3 ≤ n) {phi shift : ℝ} (hphi : |phi| < 1) {st : SteinerRes}
    (h : SteinerChain c0 n phi shift = .ok st) : st.circles.length = n + 1 ∧
    ∀ j ≤ n, ∀ c, st.circles[j]? = some (.circle c) → c = apC c0 n phi shift j := by
  have hR : 0 < c0.radius := hc
  unfold SteinerChain at h
  rw [if_neg (by omega), phi0_list hc hn, Res.ok_bind] at h
  dsimp only at h
  have h' : ∃ circles, (if phi ≠ 0 then
        ((List.range n).map (chain0 c0 n shift) ++ [inner0 c0 n]).mapM
          (⟨(⟨c0.radius * (1 / phi), 0⟩ : Pt) + c0.center, c0.radius * c0.radius * (1 / phi * (1 / phi) - 1)⟩ : Inversion).invert_circle
        else .ok (((List.range n).map (chain0 c0 n shift) ++ [inner0 c0 n]).map GCircle.circle)) = (.ok circles : Res (List GCircle)) ∧
      st.circles = circles := by
    by_cases hp : phi ≠ 0
    · rw [if_pos hp] at h ⊢
      rw [Res.bind_ok] at h
      obtain ⟨circles, h1, h2⟩ := h
      refine ⟨circles, h1, ?_⟩
      split at h2
      · simp only [Res.bind_ok, Res.pure_ok] at h2
        obtain ⟨b, -, ell, -, rfl⟩ := h2
        rfl
      · cases h2
    · rw [if_neg hp] at h ⊢
      rw [Res.bind_ok] at h
      obtain ⟨circles, h1, h2⟩ := h
      refine ⟨circles, h1, ?_⟩
      split at h2
      · simp only [Res.bind_ok, Res.pure_ok] at h2
        obtain ⟨b, -, ell, -, rfl⟩ := h2
        rfl
      · cases h2
  obtain ⟨circles, h1, hst⟩ := h'
  rw [hst]
  by_cases hp : phi = 0
  · rw [if_neg (by simpa using hp)] at h1
    injection h1 with h1
    subst h1
    refine ⟨by simp, ?_⟩
    intro j hj c hcj
    obtain ⟨c1, e1, e2, -⟩ := phi0_get (c0 := c0) (shift := shift) phi hj
    rw [List.getElem?_map, e1] at hcj
    simp only [Option.map_some, Option.some.injEq, GCircle.circle.injEq] at hcj
    rw [← e2, ← hcj]
    unfold apMap
    rw [if_pos hp]
  · rw [if_pos hp] at h1
    obtain ⟨hlen, hget⟩ := mapM_get _ h1
    refine ⟨by rw [hlen]; simp, ?_⟩
    intro j hj c hcj
    obtain ⟨c1, e1, e2, e3⟩ := phi0_get (c0 := c0) (shift := shift) phi hj
    obtain ⟨g, hg, hinv⟩ := hget j c1 e1
    rw [hcj] at hg
    injection hg with hg
    subst hg
    obtain ⟨D, hD, hD0, hcen, hrad, -⟩ := invert_circle_explicit hinv
    dsimp only at hD hcen hrad
    have habs : 0 < |phi| := abs_pos.2 hp
    have hd : c0.radius < c0.radius / |phi| := by rw [lt_div_iff₀ habs]; nlinarith
    have hpos : 0 < (c0.radius / |phi| - c0.radius) ^ 2 := pow_pos (by linarith) 2
    have hk : c0.radius * c0.radius * (1 / phi * (1 / phi) - 1) = (c0.radius / |phi|) ^ 2 - c0.radius ^ 2 := by
      rw [div_pow, sq_abs]; field_simp
    have hkpos : 0 < (c0.radius / |phi|) ^ 2 - c0.radius ^ 2 := by nlinarith
    obtain ⟨p1, p2⟩ := pole0_power hc hn shift hphi hp
    have hDp : 0 < D := by
      rw [hD]
      rcases e3 with rfl | ⟨i, rfl⟩
      · exact lt_of_lt_of_le hpos p2
      · exact lt_of_lt_of_le hpos (p1 i)
    rw [hk] at hcen hrad
    rw [abs_of_pos (div_pos hkpos hDp)] at hrad
    rw [← e2]
    unfold apMap
    rw [if_neg hp]
    unfold img pole0
    rw [← hD]
    cases c
    dsimp only at hcen hrad
    rw [hcen, hrad]

/-- `from_fixing_three_circles` finds the mirror. -/
theorem fixing_mirror {n : ℕ} {c0 inner : Circle} {r m : ℕ → Circle} (h : ApSeed n c0 inner r m) {i : ℕ} (hi : i < n) {iota : Inversion}
    (hf : Inversion.from_fixing_three_circles c0 (r i) (r ((i + 1) % n)) = .ok iota) : iota = mirrorOf (m i) := by
  have hmod : (i + 1) % n < n := Nat.mod_lt _ (by omega)
  unfold Inversion.from_fixing_three_circles at hf
  rw [Res.bind_ok] at hf
  obtain ⟨o, ho, hf⟩ := hf
  cases o with
  | none => cases hf
  | some R =>
    dsimp only at hf
    rw [Res.pure_ok] at hf
    obtain ⟨-, hu⟩ := C16_radical_center_three _ _ _ R ho
    have e0 := h.m0 i hi
    have e1 := h.mr0 i i hi hi (Or.inl rfl)
    have e2 := h.mr0 i _ hi hmod (Or.inr rfl)
    unfold lprod at e0 e1 e2
    have hR : (m i).center = R := by
      apply hu
      · unfold specPower; linarith
      · unfold specPower; linarith
    subst hR
    rw [← hf]
    unfold mirrorOf
    congr 1
    rw [power_eq]
    unfold specPower
    linarith

/-! ### The mirrors for every `phi` -/

/-- The vector of the mirror number `i`. -/
noncomputable def apM (c0 : Circle) (n : ℕ) (phi shift : ℝ) (i : ℕ) : GV :=
  if phi = 0 then GV.circ (mirror0 c0 n shift i)
  else GV.reflect (GV.invV (pole0 c0 phi) ((c0.radius / |phi|) ^ 2 - c0.radius ^ 2)) (GV.circ (mirror0 c0 n shift i))

/-- The vector of the last mirror. -/
noncomputable def apW (c0 : Circle) (n : ℕ) (phi : ℝ) : GV := GV.swapV (-GV.circ c0) (GV.circ (apMap c0 phi (inner0 c0 n)))

/-- The circles of the Steiner chain and the mirrors, for every `phi` between -1 and 1. -/
structure ApRing (c0 : Circle) (n : ℕ) (phi shift : ℝ) : Prop where
  ring : GV.Ring n (-GV.circ c0) (GV.circ (apMap c0 phi (inner0 c0 n))) (fun i => GV.circ (apMap c0 phi (chain0 c0 n shift i)))
    (apM c0 n phi shift) (apW c0 n phi)
  vi : (apMap c0 phi (inner0 c0 n)).Valid
  vr : ∀ i, (apMap c0 phi (chain0 c0 n shift i)).Valid
  ilt : (apMap c0 phi (inner0 c0 n)).radius < c0.radius
  i0 : lprod (apMap c0 phi (inner0 c0 n)) c0 ≤ -(2 * ((apMap c0 phi (inner0 c0 n)).radius * c0.radius))
  small : |phi| * (1 + sin (π / n)) < cos (π / n) → ∀ i, 0 < apM c0 n phi shift i 0
  next : ∀ i < n, lprod (apMap c0 phi (chain0 c0 n shift i)) (apMap c0 phi (chain0 c0 n shift ((i + 1) % n))) =
    2 * ((apMap c0 phi (chain0 c0 n shift i)).radius * (apMap c0 phi (chain0 c0 n shift ((i + 1) % n))).radius)
  ri : ∀ i < n, lprod (apMap c0 phi (chain0 c0 n shift i)) (apMap c0 phi (inner0 c0 n)) =
    2 * ((apMap c0 phi (chain0 c0 n shift i)).radius * (apMap c0 phi (inner0 c0 n)).radius)
  r0 : ∀ i, lprod (apMap c0 phi (chain0 c0 n shift i)) c0 = -(2 * ((apMap c0 phi (chain0 c0 n shift i)).radius * c0.radius))
  rlt : ∀ i, (apMap c0 phi (chain0 c0 n shift i)).radius < c0.radius
  rr : ∀ i j, i < n → j < n → i ≠ j → 2 * ((apMap c0 phi (chain0 c0 n shift i)).radius * (apMap c0 phi (chain0 c0 n shift j)).radius) ≤
    lprod (apMap c0 phi (chain0 c0 n shift i)) (apMap c0 phi (chain0 c0 n shift j))

theorem ap_ring {c0 : Circle} (hc : c0.Valid) {n : ℕ} (hn : 3 ≤ n) {phi : ℝ} (shift : ℝ) (hphi : |phi| < 1) : ApRing c0 n phi shift := by
  have hR : 0 < c0.radius := hc
  have h0 := seed0 hc hn shift
  by_cases hp : phi = 0
  · refine ⟨?_, ?_, ?_, ?_, ?_, ?_, ?_, ?_, ?_, ?_, ?_⟩ <;> try unfold apMap
    · unfold apM apW apMap
      simp only [if_pos hp]
      exact GV.ring_of_seed h0
    · rw [if_pos hp]; exact h0.posi
    · simp only [if_pos hp]; exact h0.posr
    · rw [if_pos hp]; exact h0.ilt
    · rw [if_pos hp]; exact h0.i0
    · intro _ i
      unfold apM
      rw [if_pos hp]
      have : 0 < (mirror0 c0 n shift i).radius := h0.posm i
      change 0 < 1 / (mirror0 c0 n shift i).radius
      positivity
    · simp only [if_pos hp]; exact h0.next
    · simp only [if_pos hp]; exact h0.ri
    · simp only [if_pos hp]; exact h0.r0
    · simp only [if_pos hp]; exact h0.rlt
    · simp only [if_pos hp]; exact h0.rr
  · have habs : 0 < |phi| := abs_pos.2 hp
    have hd : c0.radius < c0.radius / |phi| := by rw [lt_div_iff₀ habs]; nlinarith
    have hpos : 0 < (c0.radius / |phi| - c0.radius) ^ 2 := pow_pos (by linarith) 2
    obtain ⟨h1, h2⟩ := pole0_power hc hn shift hphi hp
    have D1 : ∀ i, 0 < sqDist (chain0 c0 n shift i).center (pole0 c0 phi) - (chain0 c0 n shift i).radius ^ 2 := fun i => lt_of_lt_of_le hpos (h1 i)
    have D2 : 0 < sqDist (inner0 c0 n).center (pole0 c0 phi) - (inner0 c0 n).radius ^ 2 := lt_of_lt_of_le hpos h2
    have hI := pole0_dist (c0 := c0) hp
    obtain ⟨k, hk⟩ : ∃ k, k = (c0.radius / |phi|) ^ 2 - c0.radius ^ 2 := ⟨_, rfl⟩
    have hk0 : 0 < k := by rw [hk]; nlinarith
    have hD0 : sqDist c0.center (pole0 c0 phi) - c0.radius ^ 2 = k := by rw [sqDist_comm, hI, hk]
    obtain ⟨us, us0, -⟩ := GV.invV_spec (I := pole0 c0 phi) hk0
    have eO : GV.reflect (GV.invV (pole0 c0 phi) k) (-GV.circ c0) = -GV.circ c0 := by
      rw [show -GV.circ c0 = (-1 : ℝ) • GV.circ c0 by rw [neg_one_smul], GV.reflect_smul, GV.reflect_orth hk0 hc hD0]
    have er : ∀ i, GV.reflect (GV.invV (pole0 c0 phi) k) (GV.circ (chain0 c0 n shift i)) = GV.circ (apMap c0 phi (chain0 c0 n shift i)) := by
      intro i
      rw [GV.reflect_circ hk0 (h0.posr i) (D1 i)]
      unfold apMap
      rw [if_neg hp, hk]
    have ei : GV.reflect (GV.invV (pole0 c0 phi) k) (GV.circ (inner0 c0 n)) = GV.circ (apMap c0 phi (inner0 c0 n)) := by
      rw [GV.reflect_circ hk0 h0.posi D2]
      unfold apMap
      rw [if_neg hp, hk]
    have em : (fun i => GV.reflect (GV.invV (pole0 c0 phi) k) (GV.circ (mirror0 c0 n shift i))) = apM c0 n phi shift := by
      funext i
      unfold apM
      rw [if_neg hp, hk]
    have w0 : k / (sqDist c0.center (pole0 c0 phi) - c0.radius ^ 2) = 1 := by rw [hD0, div_self hk0.ne']
    have hc0 : img (pole0 c0 phi) k c0 = c0 := by
      unfold img
      rw [w0]
      cases c0
      simp only [one_mul, Circle.mk.injEq, and_true]
      ext <;> simp
    have D0 : 0 < sqDist c0.center (pole0 c0 phi) - c0.radius ^ 2 := by rw [hD0]; exact hk0
    have eq2 : ∀ (a b : Circle) (t : ℝ), 0 < sqDist a.center (pole0 c0 phi) - a.radius ^ 2 → 0 < sqDist b.center (pole0 c0 phi) - b.radius ^ 2 →
        lprod a b = t * (a.radius * b.radius) → lprod (img (pole0 c0 phi) k a) (img (pole0 c0 phi) k b) =
          t * ((img (pole0 c0 phi) k a).radius * (img (pole0 c0 phi) k b).radius) := by
      intro a b t ha hb hab
      rw [lprod_img ha hb, hab]
      unfold img
      ring
    refine ⟨?_, ?_, ?_, ?_, ?_, ?_, ?_, ?_, ?_, ?_, ?_⟩
    · have := (GV.ring_of_seed h0).reflect us us0.ne'
      rw [eO, ei, em, GV.reflect_swapV us, eO, ei] at this
      simp only [er] at this
      exact this
    · unfold apMap
      rw [if_neg hp, ← hk]
      exact mul_pos (div_pos hk0 D2) h0.posi
    · intro i
      unfold apMap
      rw [if_neg hp, ← hk]
      exact mul_pos (div_pos hk0 (D1 i)) (h0.posr i)
    · unfold apMap
      rw [if_neg hp]
      exact img_lt hR h0.posi h0.ilt h0.i0 hd hI D2
    · have e := lprod_img (I := pole0 c0 phi) (k := k) D2 (b := c0) D0
      rw [hc0, w0, mul_one] at e
      unfold apMap
      rw [if_neg hp, ← hk, e]
      have := mul_le_mul_of_nonneg_left h0.i0 (div_pos hk0 D2).le
      change _ ≤ -(2 * (k / (sqDist (inner0 c0 n).center (pole0 c0 phi) - (inner0 c0 n).radius ^ 2) * (inner0 c0 n).radius * c0.radius))
      linarith
    · intro hs i
      rw [← em]
      dsimp only
      have hmp := mirror0_power hc hn shift hp hs i
      rw [GV.reflect_circ hk0 (h0.posm i) hmp]
      have : 0 < (img (pole0 c0 phi) k (mirror0 c0 n shift i)).radius := mul_pos (div_pos hk0 hmp) (h0.posm i)
      change 0 < 1 / (img (pole0 c0 phi) k (mirror0 c0 n shift i)).radius
      positivity
    · intro i hi
      unfold apMap
      rw [if_neg hp, if_neg hp, ← hk]
      exact eq2 _ _ 2 (D1 i) (D1 _) (h0.next i hi)
    · intro i hi
      unfold apMap
      rw [if_neg hp, if_neg hp, ← hk]
      exact eq2 _ _ 2 (D1 i) D2 (h0.ri i hi)
    · intro i
      unfold apMap
      rw [if_neg hp, ← hk]
      have := eq2 _ c0 (-2) (D1 i) D0 (by rw [h0.r0 i]; ring)
      rw [hc0] at this
      rw [this]; ring
    · intro i
      unfold apMap
      rw [if_neg hp]
      exact img_lt hR (h0.posr i) (h0.rlt i) (h0.r0 i).le hd hI (D1 i)
    · intro i j hi hj hij
      unfold apMap
      rw [if_neg hp, if_neg hp, ← hk, lprod_img (D1 i) (D1 j)]
      have := mul_le_mul_of_nonneg_left (h0.rr i j hi hj hij) (mul_pos (div_pos hk0 (D1 i)) (div_pos hk0 (D1 j))).le
      change 2 * (k / (sqDist (chain0 c0 n shift i).center (pole0 c0 phi) - (chain0 c0 n shift i).radius ^ 2) * (chain0 c0 n shift i).radius *
        (k / (sqDist (chain0 c0 n shift j).center (pole0 c0 phi) - (chain0 c0 n shift j).radius ^ 2) * (chain0 c0 n shift j).radius)) ≤ _
      linarith

theorem ApRing.last {c0 : Circle} (hc : c0.Valid) {n : ℕ} {phi shift : ℝ} (h : ApRing c0 n phi shift) :
    0 < apW c0 n phi 0 ∧ GV.inv (apW c0 n phi) = swapMirror c0 (apMap c0 phi (inner0 c0 n)) := GV.inv_swapV hc h.vi h.i0

/-- The mirrors are orthogonal to the outer circle and to two neighbours. -/
theorem ApRing.orth {c0 : Circle} {n : ℕ} {phi shift : ℝ} (h : ApRing c0 n phi shift) {i : ℕ} (hi : i < n) :
    GV.pr (apM c0 n phi shift i) (GV.circ c0) = 0 ∧ ∀ j < n, (j = i ∨ j = (i + 1) % n) →
      GV.pr (apM c0 n phi shift i) (GV.circ (apMap c0 phi (chain0 c0 n shift j))) = 0 := by
  constructor
  · have := h.ring.mO i hi
    rw [GV.pr_neg, neg_eq_zero, GV.pr_comm] at this
    exact this
  · intro j hj hij
    rw [GV.pr_comm]
    exact h.ring.mr0 i j hi hj hij

theorem ringV_ap {c0 : Circle} {n : ℕ} {phi shift : ℝ} (j : ℕ) :
    GV.ringV n (GV.circ (apMap c0 phi (inner0 c0 n))) (fun i => GV.circ (apMap c0 phi (chain0 c0 n shift i))) j = GV.circ (apC c0 n phi shift j) := by
  unfold GV.ringV apC apCircle
  split <;> rfl

theorem ApRing.valid {c0 : Circle} {n : ℕ} {phi shift : ℝ} (h : ApRing c0 n phi shift) (j : ℕ) : (apC c0 n phi shift j).Valid := by
  unfold apC apCircle
  split
  · exact h.vr j
  · exact h.vi

/-- When the script gets through its first lines, it has the expected circles and inversions. -/
theorem start_explicit {c0 : Circle} (hc : c0.Valid) {n : ℕ} (hn : 3 ≤ n) {phi shift : ℝ} (hphi : |phi| < 1)
    {circles0 : List GCircle} {inversions : List Inversion} (h : start c0 n phi shift = .ok (circles0, inversions)) :
    circles0 = (List.range (n + 1)).map (fun j => .circle (apC c0 n phi shift j)) ∧
    inversions = GV.ringMirrors n (apM c0 n phi shift) (apW c0 n phi) ∧ ∀ i < n, apM c0 n phi shift i 0 ≠ 0 := by
  have hs := ap_ring hc hn shift hphi
  unfold start at h
  simp only [Res.bind_ok] at h
  obtain ⟨st, hst, invs, hinvs, cn, hcn, h⟩ := h
  obtain ⟨hlen, hget⟩ := steiner_get hc hn hphi hst
  obtain ⟨hlen', hget'⟩ := mapM_get _ hinvs
  have nth : ∀ j ≤ n, ∀ c, nthCircle st.circles j = .ok c → st.circles[j]? = some (.circle c) ∧ c = apC c0 n phi shift j := by
    intro j hj c hc
    have : st.circles[j]? = some (.circle c) := by
      unfold nthCircle at hc
      cases hg : st.circles[j]? with
      | none => rw [hg] at hc; cases hc
      | some g =>
        rw [hg] at hc
        cases g with
        | line l => cases hc
        | circle c' => cases hc; rfl
    exact ⟨this, hget j hj c this⟩
  have fix : ∀ j < n, ∃ iota, invs[j]? = some iota ∧ (apM c0 n phi shift j 0 ≠ 0 ∧ iota = GV.inv (apM c0 n phi shift j)) ∧
      st.circles[j]? = some (.circle (apC c0 n phi shift j)) := by
    intro j hj
    obtain ⟨iota, e1, e2⟩ := hget' j j (List.getElem?_range hj)
    unfold fixing at e2
    simp only [Res.bind_ok] at e2
    obtain ⟨a, ha, b, hb, e2⟩ := e2
    have hmod : (j + 1) % n < n := Nat.mod_lt _ (by omega)
    obtain ⟨ha1, rfl⟩ := nth j hj.le a ha
    obtain ⟨-, rfl⟩ := nth _ hmod.le b hb
    refine ⟨iota, e1, ?_, ha1⟩
    unfold apC apCircle at e2
    rw [if_pos hj, if_pos hmod] at e2
    obtain ⟨o1, o2⟩ := hs.orth hj
    exact GV.fixing_gv (hs.ring.um j hj) hc (hs.vr _) (hs.vr _) o1 (o2 _ hj (Or.inl rfl)) (o2 _ hmod (Or.inr rfl)) e2
  obtain ⟨hcn1, rfl⟩ := nth n le_rfl cn hcn
  have hcnn : apC c0 n phi shift n = apMap c0 phi (inner0 c0 n) := by unfold apC apCircle; rw [if_neg (by omega)]
  rw [hcnn, swapMirror_eq hc hs.vi hs.ilt hs.i0] at h
  dsimp only at h
  rw [Res.pure_ok] at h
  injection h with e1 e2
  subst e1
  subst e2
  refine ⟨?_, ?_, fun i hi => (fix i hi).choose_spec.2.1.1⟩
  · apply List.ext_getElem?
    intro j
    rcases Nat.lt_or_ge j (n + 1) with hj | hj
    · rw [List.getElem?_map, List.getElem?_range hj]
      rcases Nat.lt_or_ge j n with hj' | hj'
      · obtain ⟨_, _, _, e⟩ := fix j hj'
        rw [e]; rfl
      · have : j = n := by omega
        subst this
        rw [hcn1]; rfl
    · rw [List.getElem?_eq_none (by omega), List.getElem?_eq_none (by simpa using hj)]
  · unfold GV.ringMirrors
    rw [(hs.last hc).2]
    congr 1
    apply List.ext_getElem?
    intro j
    rcases Nat.lt_or_ge j n with hj | hj
    · obtain ⟨iota, e1, ⟨-, e2⟩, -⟩ := fix j hj
      rw [e1, e2, List.getElem?_map, List.getElem?_range hj]
      rfl
    · rw [List.getElem?_eq_none (by rw [hlen', List.length_range]; exact hj), List.getElem?_eq_none (by simpa using hj)]

theorem zipIdx_range {β : Type} (n : ℕ) (g : ℕ → β) : ((List.range n).map g).zipIdx = (List.range n).map fun i => (g i, i) := by
  apply List.ext_getElem?
  intro j
  rw [List.getElem?_zipIdx, List.getElem?_map, List.getElem?_map]
  rcases Nat.lt_or_ge j n with hj | hj
  · rw [List.getElem?_range hj]; simp
  · rw [List.getElem?_eq_none (by simpa using hj)]; rfl

/-- The first children. -/
theorem first_explicit {c0 : Circle} {n : ℕ} {phi shift : ℝ} (hs : ApRing c0 n phi shift) (hm : ∀ i < n, apM c0 n phi shift i 0 ≠ 0)
    (far : ∀ i < n, GV.FarFrom (-GV.circ c0) (apM c0 n phi shift i)) :
    ∃ C : List (Circle × ℕ), first ((List.range (n + 1)).map fun j => .circle (apC c0 n phi shift j))
        (GV.ringMirrors n (apM c0 n phi shift) (apW c0 n phi)) n = .ok (C.map pairG) ∧
      GV.FirstGen n (GV.circ (apMap c0 phi (inner0 c0 n))) (fun i => GV.circ (apMap c0 phi (chain0 c0 n shift i))) (apM c0 n phi shift) C ∧
      (3 ≤ n → C.length = n * (n - 1)) := by
  have htake : (GV.ringMirrors n (apM c0 n phi shift) (apW c0 n phi)).take n = (List.range n).map fun i => GV.inv (apM c0 n phi shift i) := by
    unfold GV.ringMirrors
    rw [List.take_append_of_le_length (by simp), List.take_of_length_le (by simp)]
  have nth : ∀ j ≤ n, nthCircle ((List.range (n + 1)).map fun j => .circle (apC c0 n phi shift j)) j = .ok (apC c0 n phi shift j) := by
    intro j hj
    unfold nthCircle
    rw [List.getElem?_map, List.getElem?_range (by omega)]
    rfl
  have hex : ∀ i j, ∃ c' : Circle, i < n → (j ≠ i ∧ j ≠ (i + 1) % n) → (GV.inv (apM c0 n phi shift i)).invert_circle (apC c0 n phi shift j) = .ok (.circle c') ∧
      c'.Valid ∧ disc c' = GV.region (GV.reflect (apM c0 n phi shift i)
        (GV.ringV n (GV.circ (apMap c0 phi (inner0 c0 n))) (fun i => GV.circ (apMap c0 phi (chain0 c0 n shift i))) j)) := by
    intro i j
    by_cases hi : i < n
    · by_cases hij : j ≠ i ∧ j ≠ (i + 1) % n
      · obtain ⟨c', h'⟩ := GV.ring_invert hs.ring hm far hi hij (hs.valid j) (ringV_ap j)
        exact ⟨c', fun _ _ => h'⟩
      · exact ⟨c0, fun _ h => absurd h hij⟩
    · exact ⟨c0, fun h => absurd h hi⟩
  choose c' hc' using hex
  refine ⟨(List.range n).flatMap fun i => (apIndices n i).map fun j => (c' i j, i), ?_, ?_, ?_⟩
  · unfold first
    rw [htake, zipIdx_range, mapM_ok _ (fun p : Inversion × ℕ => (apIndices n p.2).map fun j => pairG (c' p.2 j, p.2)), Res.ok_bind, Res.pure_ok]
    · rw [List.map_map, List.map_flatMap, List.flatMap_def]
      congr 1
      apply List.map_congr_left
      intro i _
      simp only [Function.comp_apply, List.map_map]
      rfl
    · intro p hp
      obtain ⟨i, hi, rfl⟩ := List.mem_map.1 hp
      rw [List.mem_range] at hi
      unfold firstOf
      refine mapM_ok _ _ _ ?_
      intro j hj
      obtain ⟨hjn, hij⟩ := mem_apIndices.1 hj
      rw [nth j hjn, Res.ok_bind]
      dsimp only
      rw [(hc' i j hi hij).1, Res.ok_bind]
      rfl
  · refine GV.first_gen (ρ := id) hs.ring hm ?_ ?_ ?_
    · intro i _
      rw [List.map_id]
      exact List.nodup_range.filter _
    · intro i _ k
      rw [List.map_id]
      exact mem_apIndices
    · intro i hi j hj
      exact (hc' i j hi (mem_apIndices.1 hj).2).2
  · intro hn
    rw [List.length_flatMap]
    have : (List.range n).map (fun i => ((apIndices n i).map fun j => (c' i j, i)).length) = (List.range n).map fun _ => n - 1 := by
      apply List.map_congr_left
      intro i hi
      rw [List.length_map, length_apIndices hn (List.mem_range.1 hi)]
    rw [this]
    simp

/-- The tolerance of `invert_circle` for the mirrors. -/
theorem ApRing.far {c0 : Circle} (hc : c0.Valid) {n : ℕ} {phi shift : ℝ} (h : ApRing c0 n phi shift)
    (hpow : ∀ iota ∈ GV.ringMirrors n (apM c0 n phi shift) (apW c0 n phi), 1 / 2 ^ 26 ≤ iota.power)
    (hgap : cos (π / n) ≤ |phi| * (1 + sin (π / n)) → ∀ i < n, c0.radius + 1 / 2 ^ 13 ≤ Spec.dist (GV.inv (apM c0 n phi shift i)).pole c0.center) :
    (∀ i < n, GV.FarFrom (-GV.circ c0) (apM c0 n phi shift i)) ∧ GV.FarFrom (-GV.circ c0) (apW c0 n phi) := by
  constructor
  · intro i hi
    rcases lt_or_ge (|phi| * (1 + sin (π / n))) (cos (π / n)) with hs | hs
    · refine GV.far_disc _ (h.ring.um i hi) (h.small hs i) (hpow _ ?_)
      unfold GV.ringMirrors
      exact List.mem_append_left _ (List.mem_map.2 ⟨i, List.mem_range.2 hi, rfl⟩)
    · exact GV.far_gap hc (hgap hs i hi)
  · refine GV.far_disc _ h.ring.uw (h.last hc).1 (hpow _ ?_)
    unfold GV.ringMirrors
    exact List.mem_append_right _ (List.mem_singleton.2 rfl)

/-- C99, partial: the script `ApollonianGasket.py` for any outer circle, any `n ≥ 3`, any shift and any `phi` between -1 and 1.
When the starting circles and the inversions are built and no inversion has a tiny power, then the loop never fails and never meets a line, at any
depth.  Generation `d` has `n (n - 1) n^d` circles.  All the circles are inside the outer circle.  No two circles overlap, whether they
are of the same generation, of different generations or starting circles.  Every circle touches three other regions of the drawing, at one point each.
For the larger values of `phi` the inside of a mirror can be the side of the pole at infinity, and then the poles must not be too close to the outer circle.
Missing from the full claim: powers below the tolerance of `invert_circle`; and the mirrors that are lines, for which `C99_flat` shows that the script
fails. -/
theorem C99_apollonian_partial (c0 : Circle) (hc : c0.Valid) (n : ℕ) (hn : 3 ≤ n) (phi shift : ℝ)
    (hphi : |phi| < 1) (circles0 : List GCircle) (inversions : List Inversion)
    (h : start c0 n phi shift = .ok (circles0, inversions)) (hpow : ∀ iota ∈ inversions, 1 / 2 ^ 26 ≤ iota.power)
    (hgap : cos (π / n) ≤ |phi| * (1 + sin (π / n)) → ∀ iota ∈ inversions.take n, c0.radius + 1 / 2 ^ 13 ≤ Spec.dist iota.pole c0.center) :
    circles0.length = n + 1 ∧ inversions.length = n + 1 ∧ (∃ C0 : List Circle, circles0 = C0.map .circle ∧
      (∀ c ∈ C0, c.Valid ∧ (outside c0).Apart (disc c)) ∧ C0.Pairwise fun a b => (disc a).Apart (disc b)) ∧
    ∃ L : ℕ → List (Circle × ℕ), ∀ d, apollonian c0 n phi shift d = .ok ((L d).map pairG) ∧
      (L d).length = n * (n - 1) * n ^ d ∧
      (∀ p ∈ L d, p.1.Valid ∧ (outside c0).Apart (disc p.1) ∧ ∀ c : Circle, .circle c ∈ circles0 → (disc c).Apart (disc p.1)) ∧
      (L d).Pairwise (fun p q => (disc p.1).Apart (disc q.1)) ∧
      (∀ e < d, ∀ p ∈ L d, ∀ q ∈ L e, (disc p.1).Apart (disc q.1)) ∧
      ∀ p ∈ L d, ∃ q : Fin 3 → Region, Function.Injective q ∧ ∀ i, (disc p.1).Touches (q i) ∧
        (q i = outside c0 ∨ (∃ c : Circle, .circle c ∈ circles0 ∧ q i = disc c) ∨ ∃ e ≤ d, ∃ p' ∈ L e, q i = disc p'.1) := by
  have hs := ap_ring hc hn shift hphi
  obtain ⟨e0, einv, hm⟩ := start_explicit hc hn hphi h
  have htake : (GV.ringMirrors n (apM c0 n phi shift) (apW c0 n phi)).take n = (List.range n).map fun i => GV.inv (apM c0 n phi shift i) := by
    unfold GV.ringMirrors
    rw [List.take_append_of_le_length (by simp), List.take_of_length_le (by simp)]
  rw [einv] at hpow hgap
  obtain ⟨far, farw⟩ := hs.far hc hpow (fun h1 i hi => hgap h1 _ (by rw [htake]; exact List.mem_map.2 ⟨i, List.mem_range.2 hi, rfl⟩))
  obtain ⟨C, hfirst, hC, hlen⟩ := first_explicit hs hm far
  obtain ⟨L, hL⟩ := GV.ring_packing hs.ring hn hm (hs.last hc).1.ne' hC far farw
  have hgen : ∀ d, apollonian c0 n phi shift d = generation (GV.ringMirrors n (apM c0 n phi shift) (apW c0 n phi)) (C.map pairG) d := by
    intro d
    unfold apollonian
    rw [h, Res.ok_bind]
    dsimp only
    rw [e0, einv, hfirst, Res.ok_bind]
  have hmem : ∀ c : Circle, GCircle.circle c ∈ circles0 → ∃ j ≤ n, c = apC c0 n phi shift j := by
    intro c hcm
    rw [e0, List.mem_map] at hcm
    obtain ⟨j, hj, he⟩ := hcm
    injection he with he
    rw [List.mem_range] at hj
    exact ⟨j, by omega, he.symm⟩
  have hmem' : ∀ j ≤ n, GCircle.circle (apC c0 n phi shift j) ∈ circles0 := by
    intro j hj
    rw [e0, List.mem_map]
    exact ⟨j, List.mem_range.2 (by omega), rfl⟩
  have eO : GV.region (-GV.circ c0) = outside c0 := GV.region_neg_circ hc
  have eV : ∀ j, GV.region (GV.ringV n (GV.circ (apMap c0 phi (inner0 c0 n))) (fun i => GV.circ (apMap c0 phi (chain0 c0 n shift i))) j) =
      disc (apC c0 n phi shift j) := fun j => by rw [ringV_ap, GV.region_circ (hs.valid j)]
  refine ⟨by rw [e0]; simp, by rw [einv]; exact GV.ringMirrors_length, ?_, L, ?_⟩
  · refine ⟨(List.range (n + 1)).map (apC c0 n phi shift), by rw [e0, List.map_map]; rfl, ?_, ?_⟩
    · intro c hcm
      obtain ⟨j, hj, rfl⟩ := List.mem_map.1 hcm
      refine ⟨hs.valid j, ?_⟩
      rw [← eO, ← eV]
      exact (hs.ring.opp_outer (j := j)).symm.apart
    · rw [List.pairwise_map]
      refine (List.nodup_range (n := n + 1)).imp_of_mem ?_
      intro a b ha hb hab
      rw [List.mem_range] at ha hb
      rw [← eV, ← eV]
      exact (hs.ring.opp_regions (by omega) (by omega) hab).apart
  · intro d
    obtain ⟨g1, g2, g3, g4, g5, g6⟩ := hL d
    refine ⟨by rw [hgen d, g1], by rw [g2, hlen hn], ?_, g4, g5, ?_⟩
    · intro p hp
      obtain ⟨a1, a2, a3⟩ := g3 p hp
      refine ⟨a1, by rw [← eO]; exact a2, ?_⟩
      intro c hcm
      obtain ⟨j, hj, rfl⟩ := hmem c hcm
      rw [← eV]
      exact a3 j hj
    · intro p hp
      obtain ⟨q, hq1, hq2⟩ := g6 p hp
      refine ⟨q, hq1, ?_⟩
      intro i
      refine ⟨(hq2 i).1, ?_⟩
      rcases (hq2 i).2 with h1 | ⟨j, hj, h1⟩ | h1
      · exact Or.inl (by rw [h1, eO])
      · exact Or.inr (Or.inl ⟨_, hmem' j hj, by rw [h1, eV]⟩)
      · exact Or.inr (Or.inr h1)

/-! ### The first lines of the script succeed -/

/-- Two circles tangent to each other and, from inside, to a third one: the centers are not collinear when some circle is orthogonal to the three. -/
theorem tangent_not_collinear {c0 a b : Circle} {P : Pt} {k : ℝ} (p0 : 0 < c0.radius) (pa : 0 < a.radius) (pb : 0 < b.radius) (lb : b.radius < c0.radius)
    (h0 : sqDist c0.center P - c0.radius ^ 2 = k) (h1 : sqDist a.center P - a.radius ^ 2 = k) (h2 : sqDist b.center P - b.radius ^ 2 = k)
    (e3 : lprod a b = 2 * (a.radius * b.radius)) (e4 : lprod a c0 = -(2 * (a.radius * c0.radius))) (e5 : lprod b c0 = -(2 * (b.radius * c0.radius))) :
    ¬ Collinear c0.center a.center b.center := by
  unfold lprod sqDist at e3 e4 e5
  unfold sqDist at h0 h1 h2
  unfold Collinear
  simp only [cross, Pt.sub_x, Pt.sub_y]
  obtain ⟨R, hR⟩ : ∃ R, R = c0.radius := ⟨_, rfl⟩
  obtain ⟨u, hu⟩ : ∃ u, u = a.radius := ⟨_, rfl⟩
  obtain ⟨v, hv⟩ : ∃ v, v = b.radius := ⟨_, rfl⟩
  obtain ⟨ax, hax⟩ : ∃ ax, ax = a.center.x - c0.center.x := ⟨_, rfl⟩
  obtain ⟨ay, hay⟩ : ∃ ay, ay = a.center.y - c0.center.y := ⟨_, rfl⟩
  obtain ⟨bx, hbx⟩ : ∃ bx, bx = b.center.x - c0.center.x := ⟨_, rfl⟩
  obtain ⟨bY, hbY⟩ : ∃ bY, bY = b.center.y - c0.center.y := ⟨_, rfl⟩
  obtain ⟨mx, hmx⟩ : ∃ mx, mx = P.x - c0.center.x := ⟨_, rfl⟩
  obtain ⟨my, hmy⟩ : ∃ my, my = P.y - c0.center.y := ⟨_, rfl⟩
  rw [← hR] at h0 e4 e5 lb p0
  rw [← hu] at h1 e3 e4 pa
  rw [← hv] at h2 e3 e5 lb pb
  rw [← hax, ← hay, ← hbx, ← hbY]
  have f0 : mx ^ 2 + my ^ 2 = R ^ 2 + k := by rw [hmx, hmy]; linear_combination h0
  have f1 : (mx - ax) ^ 2 + (my - ay) ^ 2 = k + u ^ 2 := by rw [hmx, hmy, hax, hay]; linear_combination h1
  have f2 : (mx - bx) ^ 2 + (my - bY) ^ 2 = k + v ^ 2 := by rw [hmx, hmy, hbx, hbY]; linear_combination h2
  have f3 : (ax - bx) ^ 2 + (ay - bY) ^ 2 = (u + v) ^ 2 := by rw [hax, hay, hbx, hbY]; linear_combination e3
  have f4 : ax ^ 2 + ay ^ 2 = (R - u) ^ 2 := by rw [hax, hay]; linear_combination e4
  have f5 : bx ^ 2 + bY ^ 2 = (R - v) ^ 2 := by rw [hbx, hbY]; linear_combination e5
  have g1 : mx * ax + my * ay = R * (R - u) := by linear_combination (f0 + f4 - f1) / 2
  have g2 : mx * bx + my * bY = R * (R - v) := by linear_combination (f0 + f5 - f2) / 2
  have g3 : ax * bx + ay * bY = (R - u) * (R - v) - 2 * u * v := by linear_combination (f4 + f5 - f3) / 2
  intro hcol
  have key : (ax * bx + ay * bY) * (mx * bx + my * bY) = (bx ^ 2 + bY ^ 2) * (mx * ax + my * ay) := by
    linear_combination (mx * bY - my * bx) * (-hcol)
  rw [g1, g2, g3, f5] at key
  have hz : R * (R - v) * (2 * u * v) = 0 := by linear_combination -key
  have : 0 < R * (R - v) * (2 * u * v) := by
    have : 0 < R - v := by linarith
    positivity
  linarith

theorem ApRing.not_collinear {c0 : Circle} (hc : c0.Valid) {n : ℕ} {phi shift : ℝ} (h : ApRing c0 n phi shift) {i : ℕ} (hi : i < n)
    (hm : apM c0 n phi shift i 0 ≠ 0) :
    ¬ Collinear c0.center (apMap c0 phi (chain0 c0 n shift i)).center (apMap c0 phi (chain0 c0 n shift ((i + 1) % n))).center := by
  have hmod : (i + 1) % n < n := Nat.mod_lt _ (by omega)
  obtain ⟨o1, o2⟩ := h.orth hi
  have hu := h.ring.um i hi
  exact tangent_not_collinear hc (h.vr i) (h.vr _) (h.rlt _) (GV.orth_power hu hm hc o1) (GV.orth_power hu hm (h.vr i) (o2 i hi (Or.inl rfl)))
    (GV.orth_power hu hm (h.vr _) (o2 _ hmod (Or.inr rfl))) (h.next i hi) (h.r0 i) (h.r0 _)

/-- The circles of the chain leave room for the inner circle. -/
theorem ApRing.room {c0 : Circle} {n : ℕ} {phi shift : ℝ} (h : ApRing c0 n phi shift) {i : ℕ} (hi : i < n) :
    (apMap c0 phi (inner0 c0 n)).radius ≤ c0.radius - (apMap c0 phi (chain0 c0 n shift i)).radius := by
  have h1 := h.ri i hi
  have h2 := h.r0 i
  have h3 := h.i0
  have l1 := h.rlt i
  have l2 := h.ilt
  have p1 : 0 < (apMap c0 phi (chain0 c0 n shift i)).radius := h.vr i
  have p2 : 0 < (apMap c0 phi (inner0 c0 n)).radius := h.vi
  unfold lprod at h1 h2 h3
  have t1 : Spec.dist (apMap c0 phi (chain0 c0 n shift i)).center (apMap c0 phi (inner0 c0 n)).center =
      (apMap c0 phi (chain0 c0 n shift i)).radius + (apMap c0 phi (inner0 c0 n)).radius := (dist_eq_iff (by linarith)).2 (by linarith)
  have t2 : Spec.dist (apMap c0 phi (chain0 c0 n shift i)).center c0.center = c0.radius - (apMap c0 phi (chain0 c0 n shift i)).radius :=
    (dist_eq_iff (by linarith)).2 (by linarith)
  have t3 : Spec.dist (apMap c0 phi (inner0 c0 n)).center c0.center ≤ c0.radius - (apMap c0 phi (inner0 c0 n)).radius := by
    unfold Spec.dist
    rw [Real.sqrt_le_left (by linarith)]
    linarith
  have tri := specDist_triangle (apMap c0 phi (chain0 c0 n shift i)).center c0.center (apMap c0 phi (inner0 c0 n)).center
  rw [specDist_comm c0.center] at tri
  linarith

/-- The gap of the mirror number `i`: it is zero when the mirror is a line. -/
noncomputable def apGap (n : ℕ) (phi shift : ℝ) (i : ℕ) : ℝ :=
  (1 + phi ^ 2) * cos (π / n) - 2 * phi * cos (((i : ℝ) + shift) * 2 * (π / n) + π / n)

theorem reflect_circ_zero {I : Pt} {k : ℝ} (hk : 0 < k) {c : Circle} (hc : c.Valid) :
    GV.reflect (GV.invV I k) (GV.circ c) 0 = (sqDist c.center I - c.radius ^ 2) / (k * c.radius) := by
  have hs : 0 < √k := Real.sqrt_pos.2 hk
  have hs2 : √k ^ 2 = k := Real.sq_sqrt hk.le
  have r : 0 < c.radius := hc
  have e := GV.pr_circ hc (show (⟨I, √k⟩ : Circle).Valid from hs)
  dsimp only at e
  rw [hs2] at e
  unfold GV.reflect GV.invV
  change 1 / c.radius - 2 * GV.pr (GV.circ c) (GV.circ ⟨I, √k⟩) * (1 / √k) = _
  have h2 : GV.pr (GV.circ c) (GV.circ ⟨I, √k⟩) = (c.radius ^ 2 + k - sqDist c.center I) / (2 * c.radius * √k) := by
    rw [eq_div_iff (by positivity)]; exact e
  rw [h2, eq_div_iff (by positivity)]
  field_simp
  rw [hs2]
  field_simp
  ring

/-- The curvature of the mirrors. -/
theorem apM_zero {c0 : Circle} (hc : c0.Valid) {n : ℕ} (hn : 3 ≤ n) {phi : ℝ} (shift : ℝ) (hphi : |phi| < 1) (i : ℕ) :
    apM c0 n phi shift i 0 = apGap n phi shift i / ((1 - phi ^ 2) * c0.radius * sin (π / n)) := by
  have hR : 0 < c0.radius := hc
  obtain ⟨hs0, -⟩ := sine_bounds hn
  have hcp : 0 < cos (π / n) := by have := cosine_bounds hn; linarith
  have hsq : phi ^ 2 < 1 := by rw [← sq_abs]; nlinarith [abs_nonneg phi]
  have h1 : 1 - phi ^ 2 ≠ 0 := by linarith
  unfold apM apGap
  by_cases hp : phi = 0
  · rw [if_pos hp, hp]
    change 1 / (c0.radius / cos (π / n) * sin (π / n)) = _
    field_simp
    ring
  · rw [if_neg hp]
    have habs : 0 < |phi| := abs_pos.2 hp
    have hk0 : 0 < (c0.radius / |phi|) ^ 2 - c0.radius ^ 2 := by
      have : c0.radius < c0.radius / |phi| := by rw [lt_div_iff₀ habs]; nlinarith
      nlinarith
    rw [reflect_circ_zero hk0 ((seed0 hc hn shift).posm i)]
    have ek : (c0.radius / |phi|) ^ 2 - c0.radius ^ 2 = c0.radius ^ 2 * (1 - phi ^ 2) / phi ^ 2 := by
      rw [div_pow, sq_abs]; field_simp
    rw [ek]
    unfold mirror0 pole0 sqDist
    simp only [unit_vector_, Pt.add_x, Pt.add_y, Pt.smul_x, Pt.smul_y]
    obtain ⟨β, hβ⟩ : ∃ β, β = ((i : ℝ) + shift) * 2 * (π / n) + π / n := ⟨_, rfl⟩
    rw [← hβ]
    obtain ⟨R, hRe⟩ : ∃ R, R = c0.radius := ⟨_, rfl⟩
    have e1 := sin_sq_add_cos_sq β
    have e2 := sin_sq_add_cos_sq (π / n)
    obtain ⟨co, hco⟩ : ∃ co, co = cos (π / n) := ⟨_, rfl⟩
    obtain ⟨si, hsi⟩ : ∃ si, si = sin (π / n) := ⟨_, rfl⟩
    rw [← hRe] at hR ⊢
    rw [← hco] at hcp e2 ⊢
    rw [← hsi] at hs0 e2 ⊢
    have hD : (R / co * cos β + c0.center.x - (R * (1 / phi) + c0.center.x)) ^ 2 + (R / co * sin β + c0.center.y - (0 + c0.center.y)) ^ 2 - (R / co * si) ^ 2 =
        R ^ 2 * (((1 + phi ^ 2) * co - 2 * phi * cos β) / (co * phi ^ 2)) := by
      have : (R / co * cos β + c0.center.x - (R * (1 / phi) + c0.center.x)) ^ 2 + (R / co * sin β + c0.center.y - (0 + c0.center.y)) ^ 2 - (R / co * si) ^ 2 =
          (R / co) ^ 2 * (sin β ^ 2 + cos β ^ 2) - (R / co) ^ 2 * si ^ 2 - 2 * (R / co) * (R / phi) * cos β + (R / phi) ^ 2 := by ring
      rw [this, e1, show si ^ 2 = 1 - co ^ 2 by linarith]
      field_simp
      ring
    rw [hD, div_eq_div_iff (by positivity) (by positivity)]
    field_simp

/-- The radical axis of the outer circle and a circle tangent to it from inside can be built when the centers are far enough apart. -/
theorem tangent_axis {c0 c : Circle} {e B : ℝ} (h0 : 0 < c0.radius) (hc : 0 < c.radius) (hB : |c0.center.x| ≤ B ∧ |c0.center.y| ≤ B)
    (he : e ≤ c0.radius - c.radius) (hr : lprod c c0 = -(2 * (c.radius * c0.radius)))
    (htol : 1 / 10 ^ 8 + 1 / 10 ^ 5 * (B + 2 * c0.radius) < 7 / 10 * e) : ∃ l, c0.radical_axis c = .ok (some l) := by
  obtain ⟨hBx, hBy⟩ := hB
  have hB0 : 0 ≤ B := (abs_nonneg _).trans hBx
  obtain ⟨wx, hwx⟩ : ∃ wx, wx = c.center.x - c0.center.x := ⟨_, rfl⟩
  obtain ⟨wy, hwy⟩ : ∃ wy, wy = c.center.y - c0.center.y := ⟨_, rfl⟩
  have he0 : 0 < e := by nlinarith
  have hw : wx ^ 2 + wy ^ 2 = (c0.radius - c.radius) ^ 2 := by
    rw [hwx, hwy]; unfold lprod sqDist at hr; linear_combination hr
  obtain ⟨E, hE⟩ : ∃ E, E = c0.radius - c.radius := ⟨_, rfl⟩
  rw [← hE] at he hw
  have hE0 : 0 < E := by linarith
  have hER : E ≤ c0.radius := by linarith
  have ax : |wx| ≤ E := abs_le_of_sq_le_sq (by nlinarith) hE0.le
  have ay : |wy| ≤ E := abs_le_of_sq_le_sq (by nlinarith) hE0.le
  have big : 7 / 10 * e < |wx| ∨ 7 / 10 * e < |wy| := by
    by_contra hcon
    push Not at hcon
    have b1 : wx ^ 2 ≤ (7 / 10 * e) ^ 2 := by rw [← sq_abs]; exact pow_le_pow_left₀ (abs_nonneg _) hcon.1 2
    have b2 : wy ^ 2 ≤ (7 / 10 * e) ^ 2 := by rw [← sq_abs]; exact pow_le_pow_left₀ (abs_nonneg _) hcon.2 2
    nlinarith
  have hcx : c.center.x = c0.center.x + wx := by rw [hwx]; ring
  have hcy : c.center.y = c0.center.y + wy := by rw [hwy]; ring
  have hdot : dot1_ (c.center - c0.center) = E ^ 2 := by
    simp only [dot1_, dot_, Pt.sub_x, Pt.sub_y]
    rw [← hwx, ← hwy]; linarith
  have n1 : ¬ allclose c0.center c.center := by
    rintro ⟨k1, k2⟩
    unfold npClose at k1 k2
    have a1 : |c.center.x| ≤ B + E := by rw [hcx]; exact (abs_add_le _ _).trans (by linarith)
    have a2 : |c.center.y| ≤ B + E := by rw [hcy]; exact (abs_add_le _ _).trans (by linarith)
    rw [show c0.center.x - c.center.x = -wx by rw [hwx]; ring, abs_neg] at k1
    rw [show c0.center.y - c.center.y = -wy by rw [hwy]; ring, abs_neg] at k2
    rcases big with h | h <;> nlinarith
  unfold Circle.radical_axis
  dsimp only
  rw [if_neg n1]
  unfold Circle.radical_center
  dsimp only
  rw [hdot, if_neg (by positivity), Res.ok_bind]
  obtain ⟨T, hT⟩ : ∃ T, T = (c0.center + c.center) / (2 : ℝ) + (((c0.radius * c0.radius - c.radius * c.radius) / 2) • (c.center - c0.center)) / (E ^ 2) := ⟨_, rfl⟩
  rw [← hT]
  have hfac : (c0.radius * c0.radius - c.radius * c.radius) / 2 / E ^ 2 + 1 / 2 = c0.radius / E := by
    have : c.radius = c0.radius - E := by linarith
    rw [this]; field_simp; ring
  have tx : T.x = c0.center.x + c0.radius / E * wx := by
    rw [hT, ← hfac]
    simp only [Pt.add_x, Pt.div_x, Pt.smul_x, Pt.sub_x]
    rw [hcx]; ring
  have ty : T.y = c0.center.y + c0.radius / E * wy := by
    rw [hT, ← hfac]
    simp only [Pt.add_y, Pt.div_y, Pt.smul_y, Pt.sub_y]
    rw [hcy]; ring
  have sx : |c0.radius / E * wx| ≤ c0.radius := by
    rw [abs_mul, abs_of_pos (by positivity), div_mul_eq_mul_div, div_le_iff₀ hE0]
    exact mul_le_mul_of_nonneg_left ax h0.le
  have sy : |c0.radius / E * wy| ≤ c0.radius := by
    rw [abs_mul, abs_of_pos (by positivity), div_mul_eq_mul_div, div_le_iff₀ hE0]
    exact mul_le_mul_of_nonneg_left ay h0.le
  have n2 : ¬ allclose T (T + ⟨-(c.center - c0.center).y, (c.center - c0.center).x⟩) := by
    rintro ⟨k1, k2⟩
    unfold npClose at k1 k2
    simp only [Pt.add_x, Pt.add_y, Pt.sub_x, Pt.sub_y] at k1 k2
    rw [← hwy] at k1
    rw [← hwx] at k2
    have a1 : |T.x + -wy| ≤ B + c0.radius + E := by
      rw [tx]
      refine (abs_add_le _ _).trans ?_
      rw [abs_neg]
      have := abs_add_le c0.center.x (c0.radius / E * wx)
      linarith
    have a2 : |T.y + wx| ≤ B + c0.radius + E := by
      rw [ty]
      refine (abs_add_le _ _).trans ?_
      have := abs_add_le c0.center.y (c0.radius / E * wy)
      linarith
    rw [show T.x - (T.x + -wy) = wy by ring] at k1
    rw [show T.y - (T.y + wx) = -wx by ring, abs_neg] at k2
    rcases big with h | h <;> nlinarith
  refine ⟨⟨T, T + ⟨-(c.center - c0.center).y, (c.center - c0.center).x⟩, true, true⟩, ?_⟩
  unfold mkLine
  rw [if_neg n2, Res.ok_bind]
  rfl

/-- The radius of the inner circle. -/
theorem inner_radius {c0 : Circle} (hc : c0.Valid) {n : ℕ} (hn : 3 ≤ n) {phi : ℝ} (hphi : |phi| < 1) :
    (1 - phi ^ 2) * (c0.radius * (1 - sin (π / n)) / (1 + sin (π / n))) ≤ (apMap c0 phi (inner0 c0 n)).radius := by
  have hR : 0 < c0.radius := hc
  obtain ⟨hs0, hs1⟩ := sine_bounds hn
  have e0 : (inner0 c0 n).radius = c0.radius * (1 - sin (π / n)) / (1 + sin (π / n)) := by
    unfold inner0; dsimp only; field_simp; ring
  have h0 : 0 < (inner0 c0 n).radius := (chain0_ok hc hn 0).ipos
  rw [← e0]
  unfold apMap
  by_cases hp : phi = 0
  · rw [if_pos hp, hp]; linarith
  · rw [if_neg hp]
    have habs : 0 < |phi| := abs_pos.2 hp
    have hd : c0.radius < c0.radius / |phi| := by rw [lt_div_iff₀ habs]; nlinarith
    have hD : sqDist (inner0 c0 n).center (pole0 c0 phi) = (c0.radius / |phi|) ^ 2 := by
      rw [sqDist_comm]; exact pole0_dist hp
    have hlt : (inner0 c0 n).radius < c0.radius := (seed0 hc hn 0).ilt
    have hDpos : 0 < (c0.radius / |phi|) ^ 2 - (inner0 c0 n).radius ^ 2 := by nlinarith
    unfold img
    dsimp only
    rw [hD]
    refine mul_le_mul_of_nonneg_right ?_ h0.le
    rw [le_div_iff₀ hDpos]
    have e : (1 - phi ^ 2) * (c0.radius / |phi|) ^ 2 = (c0.radius / |phi|) ^ 2 - c0.radius ^ 2 := by
      rw [div_pow, sq_abs]; field_simp
    have : 0 ≤ (1 - phi ^ 2) * (inner0 c0 n).radius ^ 2 := by
      have : phi ^ 2 < 1 := by rw [← sq_abs]; nlinarith
      exact mul_nonneg (by linarith) (by positivity)
    linarith

/-- C99: the first lines of the script succeed exactly when no mirror is a line, for every `n ≥ 3`, every shift and every `phi` between -1 and 1, when the
configuration is not too small for the tolerances and not too far from the origin for its size.  The condition is explicit: no angle
`(i + shift) 2π/n + π/n` has cosine `(1 + phi²) cos(π/n) / (2 phi)`. -/
theorem C99_start_iff (c0 : Circle) (hc : c0.Valid) (n : ℕ) (hn : 3 ≤ n) (phi shift : ℝ) (hphi : |phi| < 1)
    (hsize : 1 / 1000 + (|c0.center.x| + |c0.center.y| + c0.radius) / 10000 ≤ (1 - phi ^ 2) * c0.radius * sin (π / n) * (1 - sin (π / n)) / 4) :
    (∃ circles0 inversions, start c0 n phi shift = .ok (circles0, inversions)) ↔
      ∀ i < n, 2 * phi * cos (((i : ℝ) + shift) * 2 * (π / n) + π / n) ≠ (1 + phi ^ 2) * cos (π / n) := by
  have hR : 0 < c0.radius := hc
  have hs := ap_ring hc hn shift hphi
  obtain ⟨hs0, hs1⟩ := sine_bounds hn
  have hsq : phi ^ 2 < 1 := by rw [← sq_abs]; nlinarith [abs_nonneg phi]
  have hM : ∀ i, apM c0 n phi shift i 0 ≠ 0 ↔ 2 * phi * cos (((i : ℝ) + shift) * 2 * (π / n) + π / n) ≠ (1 + phi ^ 2) * cos (π / n) := by
    intro i
    rw [apM_zero hc hn shift hphi i]
    have h1 : (1 - phi ^ 2) * c0.radius * sin (π / n) ≠ 0 := (mul_pos (mul_pos (by linarith) hR) hs0).ne'
    rw [Ne, div_eq_zero_iff, not_or]
    unfold apGap
    rw [sub_eq_zero]
    exact ⟨fun h e => h.1 e.symm, fun h => ⟨fun e => h e.symm, h1⟩⟩
  constructor
  · rintro ⟨circles0, inversions, h⟩ i hi
    exact (hM i).1 ((start_explicit hc hn hphi h).2.2 i hi)
  intro hne
  have hi := inner_radius hc hn hphi
  obtain ⟨s, hse⟩ : ∃ s, s = sin (π / n) := ⟨_, rfl⟩
  rw [← hse] at hs0 hs1 hi hsize
  obtain ⟨t, ht⟩ : ∃ t, t = (1 - phi ^ 2) * c0.radius * s * (1 - s) / 4 := ⟨_, rfl⟩
  rw [← ht] at hsize
  have hA : 0 < (1 - phi ^ 2) * c0.radius := mul_pos (by linarith) hR
  have habsx := abs_nonneg c0.center.x
  have habsy := abs_nonneg c0.center.y
  have ht0 : 1 / 1000 ≤ t := by
    have : 0 ≤ (|c0.center.x| + |c0.center.y| + c0.radius) / 10000 := by positivity
    linarith
  have hti : 2 * t ≤ (apMap c0 phi (inner0 c0 n)).radius := by
    refine le_trans ?_ hi
    have e : (1 - phi ^ 2) * (c0.radius * (1 - s) / (1 + s)) = (1 - phi ^ 2) * c0.radius * (1 - s) / (1 + s) := by ring
    rw [e, ht, le_div_iff₀ (by linarith)]
    have h1 : s * (1 + s) ≤ 2 := by nlinarith
    have := mul_le_mul_of_nonneg_left h1 (mul_pos hA (show 0 < 1 - s by linarith)).le
    linarith
  have htol : phi ≠ 0 → sepsilon_ < (c0.radius / |phi| - c0.radius) ^ 2 := by
    intro hp
    have habs : 0 < |phi| := abs_pos.2 hp
    have h1 : t / 2 ≤ c0.radius / |phi| - c0.radius := by
      rw [le_sub_iff_add_le, le_div_iff₀ habs]
      have e : 1 - phi ^ 2 = (1 - |phi|) * (1 + |phi|) := by rw [← sq_abs phi]; ring
      have h2 : t ≤ (1 - phi ^ 2) * c0.radius := by
        rw [ht]
        have : s * (1 - s) ≤ 1 := by nlinarith
        have := mul_le_mul_of_nonneg_left this hA.le
        linarith
      rw [e] at h2
      have h3 : (1 - |phi|) * (1 + |phi|) * c0.radius ≤ 2 * ((1 - |phi|) * c0.radius) := by
        have := mul_pos (show 0 < 1 - |phi| by linarith) hR
        nlinarith
      nlinarith
    have h2 := pow_le_pow_left₀ (show 0 ≤ t / 2 by linarith) h1 2
    refine lt_of_lt_of_le ?_ h2
    unfold sepsilon_
    have : (1 / 2000 : ℝ) ^ 2 ≤ (t / 2) ^ 2 := pow_le_pow_left₀ (by norm_num) (by linarith) 2
    refine lt_of_lt_of_le ?_ this
    norm_num
  obtain ⟨chain, inner, b, hst, -, -, -⟩ := steiner_main hc hn shift hphi htol
  obtain ⟨st, hste⟩ : ∃ st, st = (⟨(List.range n).map (fun i => .circle (chain i)) ++ [.circle inner],
        ⟨(c0.center + inner.center) / (2 : ℝ), (inner.radius + c0.radius) / 2, b, 0, true⟩⟩ : SteinerRes) := ⟨_, rfl⟩
  rw [← hste] at hst
  obtain ⟨-, hget⟩ := steiner_get hc hn hphi hst
  have nth : ∀ j ≤ n, nthCircle st.circles j = .ok (apC c0 n phi shift j) := by
    intro j hj
    have hex : ∃ c, st.circles[j]? = some (.circle c) := by
      rw [hste]
      dsimp only
      rcases Nat.lt_or_ge j n with h | h
      · exact ⟨chain j, by rw [List.getElem?_append_left (by simpa using h), List.getElem?_map, List.getElem?_range h]; rfl⟩
      · have : j = n := by omega
        subst this
        exact ⟨inner, by rw [List.getElem?_append_right (by simp)]; simp⟩
    obtain ⟨c, hcj⟩ := hex
    have := hget j hj c hcj
    unfold nthCircle
    rw [hcj, this]
  have axis : ∀ j < n, ∃ l, c0.radical_axis (apMap c0 phi (chain0 c0 n shift j)) = .ok (some l) := by
    intro j hj
    refine tangent_axis (e := 2 * t) (B := |c0.center.x| + |c0.center.y|) hR (hs.vr j) ⟨by linarith, by linarith⟩ (hti.trans (hs.room hj)) (hs.r0 j) ?_
    nlinarith
  have fix : ∀ j ∈ List.range n, fixing c0 st.circles n j = .ok (GV.inv (apM c0 n phi shift j)) := by
    intro j hj
    rw [List.mem_range] at hj
    have hmod : (j + 1) % n < n := Nat.mod_lt _ (by omega)
    obtain ⟨l1, h1⟩ := axis j hj
    obtain ⟨l2, h2⟩ := axis _ hmod
    have hrc := radical_center_ok.2 ⟨l1, l2, h1, h2, rfl⟩
    have hnn := mt (C16_radical_center_none_iff _ _ _ _ hrc).1 (hs.not_collinear hc hj ((hM j).2 (hne j hj)))
    obtain ⟨R, hRR⟩ := Option.ne_none_iff_exists'.1 hnn
    rw [hRR] at hrc
    have e : Inversion.from_fixing_three_circles c0 (apMap c0 phi (chain0 c0 n shift j))
      (apMap c0 phi (chain0 c0 n shift ((j + 1) % n))) = .ok ⟨R, c0.power R⟩ := by
      unfold Inversion.from_fixing_three_circles
      rw [hrc]; rfl
    obtain ⟨o1, o2⟩ := hs.orth hj
    have e2 := (GV.fixing_gv (hs.ring.um j hj) hc (hs.vr _) (hs.vr _) o1 (o2 _ hj (Or.inl rfl)) (o2 _ hmod (Or.inr rfl)) e).2
    unfold fixing
    rw [nth j hj.le, Res.ok_bind, nth _ hmod.le, Res.ok_bind]
    unfold apC apCircle
    rw [if_pos hj, if_pos hmod, e, e2]
  have hcnn : apC c0 n phi shift n = apMap c0 phi (inner0 c0 n) := by unfold apC apCircle; rw [if_neg (by omega)]
  refine ⟨st.circles, (List.range n).map (fun i => GV.inv (apM c0 n phi shift i)) ++ [swapMirror c0 (apMap c0 phi (inner0 c0 n))], ?_⟩
  unfold start
  rw [hst, Res.ok_bind]
  dsimp only
  rw [mapM_ok _ _ _ fix, Res.ok_bind, nth n le_rfl, Res.ok_bind, hcnn, swapMirror_eq hc hs.vi hs.ilt hs.i0]
  rfl

/-- C99: the inversions.  The power of the inversion number `i` is the square of `(1 - phi²) R sin(π/n)` divided by the gap of `C99_start_iff`, and its
circle is orthogonal to the outer circle.  With the size condition of `C99_start_iff`, no inversion has a tiny power. -/
theorem C99_powers (c0 : Circle) (hc : c0.Valid) (n : ℕ) (hn : 3 ≤ n) (phi shift : ℝ) (hphi : |phi| < 1) (circles0 : List GCircle)
    (inversions : List Inversion) (h : start c0 n phi shift = .ok (circles0, inversions)) :
    (∀ i < n, ∃ iota, inversions[i]? = some iota ∧ sqDist iota.pole c0.center = c0.radius ^ 2 + iota.power ∧
      iota.power = ((1 - phi ^ 2) * c0.radius * sin (π / n) /
        ((1 + phi ^ 2) * cos (π / n) - 2 * phi * cos (((i : ℝ) + shift) * 2 * (π / n) + π / n))) ^ 2) ∧
    (1 / 1000 ≤ (1 - phi ^ 2) * c0.radius * sin (π / n) * (1 - sin (π / n)) / 4 → ∀ iota ∈ inversions, 1 / 2 ^ 26 ≤ iota.power) := by
  have hR : 0 < c0.radius := hc
  have hs := ap_ring hc hn shift hphi
  obtain ⟨hs0, hs1⟩ := sine_bounds hn
  have hcp : 0 < cos (π / n) := by have := cosine_bounds hn; linarith
  have hsq : phi ^ 2 < 1 := by rw [← sq_abs]; nlinarith [abs_nonneg phi]
  obtain ⟨-, einv, hm⟩ := start_explicit hc hn hphi h
  have hA : 0 < (1 - phi ^ 2) * c0.radius := mul_pos (by linarith) hR
  have hpw : ∀ i, (GV.inv (apM c0 n phi shift i)).power = ((1 - phi ^ 2) * c0.radius * sin (π / n) / apGap n phi shift i) ^ 2 := by
    intro i
    unfold GV.inv
    dsimp only
    rw [apM_zero hc hn shift hphi i, one_div, ← inv_pow, inv_div]
  constructor
  · intro i hi
    refine ⟨GV.inv (apM c0 n phi shift i), ?_, ?_, hpw i⟩
    · rw [einv]
      unfold GV.ringMirrors
      rw [List.getElem?_append_left (by simpa using hi), List.getElem?_map, List.getElem?_range hi]
      rfl
    · have := GV.orth_power (hs.ring.um i hi) (hm i hi) hc (hs.orth hi).1
      rw [sqDist_comm]
      linarith
  · intro ht0 iota hio
    rw [einv] at hio
    unfold GV.ringMirrors at hio
    rcases List.mem_append.1 hio with hio | hio
    · obtain ⟨i, hi, rfl⟩ := List.mem_map.1 hio
      rw [List.mem_range] at hi
      have hg0 : apGap n phi shift i ≠ 0 := by
        have := hm i hi
        rw [apM_zero hc hn shift hphi i] at this
        exact fun e => this (by rw [e, zero_div])
      have hg : |apGap n phi shift i| ≤ 4 := by
        unfold apGap
        obtain ⟨p1, p2⟩ := abs_lt.1 hphi
        have q1 := cos_le_one (((i : ℝ) + shift) * 2 * (π / n) + π / n)
        have q2 := neg_one_le_cos (((i : ℝ) + shift) * 2 * (π / n) + π / n)
        have q3 := cos_le_one (π / n)
        rw [abs_le]
        constructor <;> nlinarith
      have hbig : 4 / 1000 ≤ (1 - phi ^ 2) * c0.radius * sin (π / n) := by
        have := mul_pos (mul_pos hA hs0) hs0
        nlinarith
      rw [hpw, div_pow, ← sq_abs (apGap n phi shift i), le_div_iff₀ (pow_pos (abs_pos.2 hg0) 2)]
      have a1 : |apGap n phi shift i| ^ 2 ≤ 4 ^ 2 := pow_le_pow_left₀ (abs_nonneg _) hg 2
      have a2 : (4 / 1000 : ℝ) ^ 2 ≤ ((1 - phi ^ 2) * c0.radius * sin (π / n)) ^ 2 := pow_le_pow_left₀ (by norm_num) hbig 2
      norm_num at a1 a2 ⊢
      linarith
    · rw [List.mem_singleton] at hio
      rw [hio, (hs.last hc).2]
      have hi := inner_radius hc hn hphi
      have hti : 1 / 1000 ≤ (apMap c0 phi (inner0 c0 n)).radius := by
        refine ht0.trans (le_trans ?_ hi)
        have e : (1 - phi ^ 2) * (c0.radius * (1 - sin (π / n)) / (1 + sin (π / n))) = (1 - phi ^ 2) * c0.radius * (1 - sin (π / n)) / (1 + sin (π / n)) := by ring
        rw [e, le_div_iff₀ (by linarith)]
        have h1 : sin (π / n) * (1 + sin (π / n)) ≤ 4 := by nlinarith
        have := mul_le_mul_of_nonneg_left h1 (mul_pos hA (show 0 < 1 - sin (π / n) by linarith)).le
        linarith
      obtain ⟨c, hce⟩ : ∃ c, c = apMap c0 phi (inner0 c0 n) := ⟨_, rfl⟩
      have pi : 0 < (apMap c0 phi (inner0 c0 n)).radius := hs.vi
      have pl := hs.ilt
      have i0 := hs.i0
      rw [← hce] at pi pl i0 hti ⊢
      unfold lprod at i0
      have h1 : (1 / 2 ^ 26 : ℝ) ≤ c.radius ^ 2 := by
        have : (1 / 1000 : ℝ) ^ 2 ≤ c.radius ^ 2 := pow_le_pow_left₀ (by norm_num) hti 2
        refine le_trans ?_ this
        norm_num
      refine h1.trans ?_
      unfold swapMirror
      dsimp only
      rw [le_div_iff₀ (by positivity)]
      have k1 : 4 * (c0.radius * c.radius) ≤ (c0.radius + c.radius) ^ 2 - sqDist c.center c0.center := by linarith
      have k2 := mul_le_mul_of_nonneg_left k1 (mul_pos hR pi).le
      have k3 : (c0.radius + c.radius) ^ 2 ≤ 4 * c0.radius ^ 2 := by nlinarith
      have k4 := mul_le_mul_of_nonneg_left k3 (sq_nonneg c.radius)
      nlinarith

/-- C99: for smaller `phi` no mirror is a line and the first lines of the script succeed, whatever the shift. -/
theorem C99_start (c0 : Circle) (hc : c0.Valid) (n : ℕ) (hn : 3 ≤ n) (phi shift : ℝ)
    (hphi : |phi| * (1 + sin (π / n)) < cos (π / n))
    (hsize : 1 / 1000 + (|c0.center.x| + |c0.center.y| + c0.radius) / 10000 ≤ (1 - phi ^ 2) * c0.radius * sin (π / n) * (1 - sin (π / n)) / 4) :
    ∃ circles0 inversions, start c0 n phi shift = .ok (circles0, inversions) ∧ ∀ iota ∈ inversions, 1 / 2 ^ 26 ≤ iota.power := by
  have hphi1 := phi_lt_one hn hphi
  have hR : 0 < c0.radius := hc
  obtain ⟨circles0, inversions, h⟩ := (C99_start_iff c0 hc n hn phi shift hphi1 hsize).2 (by
    intro i _ e
    have := (ap_ring hc hn shift hphi1).small hphi i
    rw [apM_zero hc hn shift hphi1 i] at this
    unfold apGap at this
    rw [e, sub_self, zero_div] at this
    exact lt_irrefl _ this)
  refine ⟨circles0, inversions, h, (C99_powers c0 hc n hn phi shift hphi1 circles0 inversions h).2 (le_trans ?_ hsize)⟩
  have : 0 ≤ (|c0.center.x| + |c0.center.y| + c0.radius) / 10000 := by positivity
  linarith

/-- C99: the bound on `phi` in `C99_start` is the best one.  For `phi = (1 - sin(π/n)) / cos(π/n)` and a shift of half a circle the first mirror is a line
and the script stops with an error before drawing anything, whatever the outer circle. -/
theorem C99_flat (c0 : Circle) (hc : c0.Valid) (n : ℕ) (hn : 3 ≤ n) : |(1 - sin (π / n)) / cos (π / n)| < 1 ∧
    |(1 - sin (π / n)) / cos (π / n)| * (1 + sin (π / n)) = cos (π / n) ∧
    ∃ e, start c0 n ((1 - sin (π / n)) / cos (π / n)) (-1 / 2) = .error e := by
  obtain ⟨hs0, hs1⟩ := sine_bounds hn
  have hcp : 0 < cos (π / n) := by have := cosine_bounds hn; linarith
  have e2 := sin_sq_add_cos_sq (π / n)
  obtain ⟨phi, hp⟩ : ∃ phi, phi = (1 - sin (π / n)) / cos (π / n) := ⟨_, rfl⟩
  have hp0 : 0 < phi := by rw [hp]; exact div_pos (by linarith) hcp
  have hmul : phi * (1 + sin (π / n)) = cos (π / n) := by
    rw [hp, div_mul_eq_mul_div, div_eq_iff hcp.ne']; linarith
  have hp1 : phi < 1 := by
    rw [hp, div_lt_one hcp]; nlinarith
  rw [← hp, abs_of_pos hp0]
  refine ⟨hp1, hmul, ?_⟩
  cases hst : start c0 n phi (-1 / 2) with
  | error e => exact ⟨e, rfl⟩
  | ok v =>
    exfalso
    have habs : |phi| < 1 := by rw [abs_of_pos hp0]; exact hp1
    have := (start_explicit hc hn habs (circles0 := v.1) (inversions := v.2) hst).2.2 0 (by omega)
    rw [apM_zero hc hn _ habs 0] at this
    apply this
    have hg : apGap n phi (-1 / 2) 0 = 0 := by
      unfold apGap
      have ha : (((0 : ℕ) : ℝ) + -1 / 2) * 2 * (π / n) + π / n = 0 := by push_cast; ring
      rw [ha, cos_zero]
      have : phi * cos (π / n) = 1 - sin (π / n) := by rw [hp, div_mul_cancel₀ _ hcp.ne']
      linear_combination phi * this - hmul
    rw [hg, zero_div]

/-- The script as it stands: radius 3, three circles, `phi = 0.25`, no shift.  Generation `d` has `6 · 3^d` circles, all inside the outer circle. -/
example (d : ℕ) : ∃ L : List (Circle × ℕ), apollonian ⟨⟨0, 0⟩, 3⟩ 3 (1 / 4) 0 d = .ok (L.map pairG) ∧ L.length = 6 * 3 ^ d ∧
    L.Pairwise (fun p q => (disc p.1).Apart (disc q.1)) ∧ ∀ p ∈ L, (outside ⟨⟨0, 0⟩, 3⟩).Apart (disc p.1) := by
  have hc : (⟨⟨0, 0⟩, 3⟩ : Circle).Valid := by unfold Circle.Valid; norm_num
  have hs : sin (π / (3 : ℕ)) = √3 / 2 := by push_cast; exact sin_pi_div_three
  have hcos : cos (π / (3 : ℕ)) = 1 / 2 := by push_cast; exact cos_pi_div_three
  have h3 : √3 ^ 2 = 3 := Real.sq_sqrt (by norm_num)
  have h3a : √3 < 1.733 := by rw [Real.sqrt_lt' (by norm_num)]; norm_num
  have h3b : 1.732 < √3 := Real.lt_sqrt_of_sq_lt (by norm_num)
  have hphi : |(1 / 4 : ℝ)| * (1 + sin (π / (3 : ℕ))) < cos (π / (3 : ℕ)) := by
    rw [hs, hcos, abs_of_pos (by norm_num)]; linarith
  obtain ⟨circles0, inversions, h, hp⟩ := C99_start ⟨⟨0, 0⟩, 3⟩ hc 3 le_rfl (1 / 4) 0 hphi (by
    rw [hs]
    norm_num
    nlinarith)
  obtain ⟨-, -, -, L, hL⟩ := C99_apollonian_partial _ hc 3 le_rfl _ _ (phi_lt_one le_rfl hphi) _ _ h hp (fun h' => absurd hphi (not_lt.2 h'))
  obtain ⟨e, hlen, hv, hpw, -, -⟩ := hL d
  exact ⟨L d, e, hlen, hpw, fun p hp => (hv p hp).2.1⟩

/-- Beyond the bound: three circles, `phi = 1/2`, a shift of half a circle.  The pole of the construction is inside one of the mirrors; the drawing is still
a packing at every depth. -/
example (d : ℕ) : ∃ L : List (Circle × ℕ), apollonian ⟨⟨0, 0⟩, 3⟩ 3 (1 / 2) (1 / 2) d = .ok (L.map pairG) ∧ L.length = 6 * 3 ^ d ∧
    L.Pairwise (fun p q => (disc p.1).Apart (disc q.1)) ∧ ∀ p ∈ L, (outside ⟨⟨0, 0⟩, 3⟩).Apart (disc p.1) := by
  have hc : (⟨⟨0, 0⟩, 3⟩ : Circle).Valid := by unfold Circle.Valid; norm_num
  have hs : sin (π / (3 : ℕ)) = √3 / 2 := by push_cast; exact sin_pi_div_three
  have hcos : cos (π / (3 : ℕ)) = 1 / 2 := by push_cast; exact cos_pi_div_three
  have h3 : √3 ^ 2 = 3 := Real.sq_sqrt (by norm_num)
  have h3a : √3 < 1.733 := by rw [Real.sqrt_lt' (by norm_num)]; norm_num
  have h3b : 1.732 < √3 := Real.lt_sqrt_of_sq_lt (by norm_num)
  have hphi : |(1 / 2 : ℝ)| < 1 := by rw [abs_of_pos (by norm_num)]; norm_num
  have hβ : ∀ i : ℕ, i < 3 → cos (((i : ℝ) + 1 / 2) * 2 * (π / (3 : ℕ)) + π / (3 : ℕ)) = if i = 2 then 1 else -1 / 2 := by
    intro i hi
    interval_cases i
    · rw [show (((0 : ℕ) : ℝ) + 1 / 2) * 2 * (π / (3 : ℕ)) + π / (3 : ℕ) = π - π / 3 by push_cast; ring, cos_pi_sub, cos_pi_div_three]; norm_num
    · rw [show (((1 : ℕ) : ℝ) + 1 / 2) * 2 * (π / (3 : ℕ)) + π / (3 : ℕ) = π / 3 + π by push_cast; ring, cos_add_pi, cos_pi_div_three]; norm_num
    · rw [show (((2 : ℕ) : ℝ) + 1 / 2) * 2 * (π / (3 : ℕ)) + π / (3 : ℕ) = 2 * π by push_cast; ring, cos_two_pi]; norm_num
  obtain ⟨circles0, inversions, h⟩ := (C99_start_iff ⟨⟨0, 0⟩, 3⟩ hc 3 le_rfl (1 / 2) (1 / 2) hphi (by rw [hs]; norm_num; nlinarith)).2 (by
    intro i hi
    rw [hβ i hi, hcos]
    split <;> norm_num)
  obtain ⟨k1, k2⟩ := C99_powers _ hc 3 le_rfl _ _ hphi _ _ h
  obtain ⟨-, hlen, -⟩ := start_explicit hc le_rfl hphi h
  obtain ⟨-, -, -, L, hL⟩ := C99_apollonian_partial _ hc 3 le_rfl _ _ hphi _ _ h (k2 (by rw [hs]; norm_num; nlinarith)) (by
    intro _ iota hio
    obtain ⟨i, hi⟩ := List.mem_iff_getElem?.1 hio
    rw [List.getElem?_take] at hi
    split at hi
    · rename_i hi3
      obtain ⟨iota', e1, e2, e3⟩ := k1 i hi3
      rw [hi] at e1
      injection e1 with e1
      rw [← e1, hβ i hi3, hs, hcos] at e3
      rw [← e1] at e2
      have hpow : 3 ≤ iota.power := by
        rw [e3]
        split
        · norm_num; nlinarith
        · norm_num; nlinarith
      unfold Spec.dist
      rw [e2]
      refine Real.le_sqrt_of_sq_le ?_
      norm_num
      linarith
    · cases hi)
  obtain ⟨e, hlen, hv, hpw, -, -⟩ := hL d
  exact ⟨L d, e, hlen, hpw, fun p hp => (hv p hp).2.1⟩

/-- C99: without a condition on the size the claim is false: for the outer circle of radius `10⁻⁵`, `n = 3`, `phi = 1/2` and `shift = 0` no mirror is
a line and yet the first lines raise, because `SteinerChain` does (`C31_small_circle_counterexample`). -/
theorem C99_small_counterexample : (⟨⟨0, 0⟩, 1 / 100000⟩ : Circle).Valid ∧
    (∀ i < 3, 2 * (1 / 2 : ℝ) * cos (((i : ℕ) + 0 : ℝ) * 2 * (π / (3 : ℕ)) + π / (3 : ℕ)) ≠ (1 + (1 / 2) ^ 2) * cos (π / (3 : ℕ))) ∧
    ∀ res, start ⟨⟨0, 0⟩, 1 / 100000⟩ 3 (1 / 2) 0 ≠ .ok res := by
  refine ⟨(C31_small_circle_counterexample 3 le_rfl 0).1, ?_, ?_⟩
  · intro i hi
    have hc : ((3 : ℕ) : ℝ) = 3 := by norm_num
    rw [hc, cos_pi_div_three]
    interval_cases i
    · rw [show (((0 : ℕ) : ℝ) + 0) * 2 * (π / 3) + π / 3 = π / 3 by push_cast; ring, cos_pi_div_three]; norm_num
    · rw [show (((1 : ℕ) : ℝ) + 0) * 2 * (π / 3) + π / 3 = π by push_cast; ring, cos_pi]; norm_num
    · rw [show (((2 : ℕ) : ℝ) + 0) * 2 * (π / 3) + π / 3 = 2 * π - π / 3 by push_cast; ring, cos_two_pi_sub, cos_pi_div_three]; norm_num
  · intro res h
    unfold start at h
    obtain ⟨s, hs, -⟩ := Res.bind_ok.1 h
    exact (C31_small_circle_counterexample 3 le_rfl 0).2 s hs
