import Verif.Lemmas.Chains
import Verif.Props.Affine
import Verif.Props.Exact4
import Verif.Model.EllipticalChains

/-!
# C108: the scripts with elliptical and nested Steiner chains
-/

open Spec Real Classical

namespace EllipticalChains

/-! ### Lists -/

theorem chain_range {α : Type} (n : ℕ) (g : ℕ → α) : (List.range (n + 1)).map g = (List.range n).map g ++ [g n] := by
  rw [List.range_succ, List.map_append]; rfl

theorem get_ext {α : Type} {l : List α} {n : ℕ} {g : ℕ → α} (h : l.length = n) (hg : ∀ j < n, l[j]? = some (g j)) : l = (List.range n).map g := by
  apply List.ext_getElem?
  intro j
  rcases Nat.lt_or_ge j n with hj | hj
  · rw [hg j hj, List.getElem?_map, List.getElem?_range hj]; rfl
  · rw [List.getElem?_eq_none (by omega), List.getElem?_eq_none (by simpa using hj)]

/-- A list that `SteinerChain` returns, when there is no line in it. -/
theorem steiner_circles {c0 : Circle} (hc : c0.Valid) {n : ℕ} (hn : 3 ≤ n) {phi shift : ℝ} (hphi : |phi| < 1) {st : SteinerRes}
    (h : SteinerChain c0 n phi shift = .ok st) (hall : ∀ g ∈ st.circles, ∃ c, g = GCircle.circle c) :
    st.circles = (List.range (n + 1)).map (fun j => GCircle.circle (apC c0 n phi shift j)) ∧ (phi ≠ 0 → PoleFar c0.radius n phi shift) := by
  obtain ⟨hlen, hget⟩ := steiner_get hc hn hphi h
  have e : st.circles = (List.range (n + 1)).map (fun j => GCircle.circle (apC c0 n phi shift j)) := by
    apply get_ext hlen
    intro j hj
    have hj' : j < st.circles.length := by omega
    obtain ⟨c, hcj⟩ := hall st.circles[j] (List.getElem_mem hj')
    rw [List.getElem?_eq_getElem hj', hcj]
    rw [hget j (by omega) c (by rw [List.getElem?_eq_getElem hj', hcj])]
  refine ⟨e, fun hp => ?_⟩
  obtain ⟨L, ell⟩ := st
  dsimp only at e
  rw [e, chain_range] at h
  exact steiner_far hc hn hphi hp h

theorem steiner_exists {c0 : Circle} (hc : c0.Valid) {n : ℕ} (hn : 3 ≤ n) {phi shift : ℝ} (hphi : |phi| < 1)
    (h : phi ≠ 0 → PoleFar c0.radius n phi shift) :
    ∃ st, SteinerChain c0 n phi shift = .ok st ∧ st.circles = (List.range (n + 1)).map (fun j => GCircle.circle (apC c0 n phi shift j)) := by
  obtain ⟨chain, inner, ell, h1, -⟩ := (C31_exact c0 hc n hn phi shift hphi).2 h
  refine ⟨_, h1, (steiner_circles hc hn hphi h1 ?_).1⟩
  intro g hg
  rcases List.mem_append.1 hg with hg | hg
  · obtain ⟨i, -, rfl⟩ := List.mem_map.1 hg
    exact ⟨_, rfl⟩
  · rw [List.mem_singleton] at hg
    exact ⟨_, hg⟩

/-- The radius of a circle of the chain. -/
theorem apC_radius {c0 : Circle} (hc : c0.Valid) {n : ℕ} (hn : 3 ≤ n) {phi shift : ℝ} (hphi : |phi| < 1) {i : ℕ} (hi : i < n) :
    (apC c0 n phi shift i).radius = chainRadius c0.radius n phi shift i := by
  have hR : 0 < c0.radius := hc
  obtain ⟨hs0, hs1⟩ := sine_bounds hn
  rw [apC_lt hi]
  unfold apMap
  by_cases hp : phi = 0
  · rw [if_pos hp]
    unfold chain0 chainRadius
    rw [hp]
    simp only [ne_eq, OfNat.ofNat_ne_zero, not_false_eq_true, zero_pow, zero_mul, mul_zero, sub_zero, add_zero, mul_one]
    ring
  · rw [if_neg hp]
    have habs : 0 < |phi| := abs_pos.2 hp
    have hd : c0.radius < c0.radius / |phi| := by rw [lt_div_iff₀ habs]; nlinarith
    have hpos : 0 < (c0.radius / |phi| - c0.radius) ^ 2 := pow_pos (by linarith) 2
    have h1 := lt_of_lt_of_le hpos ((pole0_power hc hn shift hphi hp).1 i)
    unfold img chainRadius
    rw [chain0_power hn shift hp] at h1 ⊢
    unfold chain0
    dsimp only
    obtain ⟨c, hcos⟩ : ∃ c, c = cos (((i : ℝ) + shift) * (2 * π / n)) := ⟨_, rfl⟩
    obtain ⟨s, hs⟩ : ∃ s, s = sin (π / n) := ⟨_, rfl⟩
    rw [← hcos, ← hs] at h1 ⊢
    rw [← hs] at hs0 hs1
    have hR2 : 0 < c0.radius ^ 2 := by positivity
    have hs2 : 1 + s ≠ 0 := by linarith
    obtain ⟨D, hD⟩ : ∃ D, D = 1 + s + phi ^ 2 * (1 - s) - 2 * phi * c := ⟨_, rfl⟩
    have e : 1 / phi ^ 2 + (1 - s) / (1 + s) - 2 * c / (phi * (1 + s)) = D / (phi ^ 2 * (1 + s)) := by
      rw [hD]; field_simp
    rw [e] at h1 ⊢
    rw [← hD]
    have hDne : D ≠ 0 := by
      rintro h0
      rw [h0] at h1
      simp at h1
    rw [div_pow, sq_abs]
    field_simp

/-! ### The images of the circles -/

theorem ofEllipse_in {x : EllArg} (hx : ValidArg x) (P : Pt) : P.x ^ 2 + P.y ^ 2 ≤ 1 ↔ InArg x ((Affine.ofEllipse x).transform P) := by
  cases x with
  | circ c =>
    have hc : 0 < c.radius := hx
    have h2 : 0 < c.radius ^ 2 := by positivity
    have e : sqDist c.center ((Affine.ofEllipse (.circ c)).transform P) = c.radius ^ 2 * (P.x ^ 2 + P.y ^ 2) := by
      unfold sqDist Affine.transform Affine.ofEllipse
      simp
      ring
    unfold InArg
    dsimp only
    rw [e]
    constructor
    · intro h; nlinarith
    · intro h
      by_contra hc
      push Not at hc
      nlinarith
  | ell e =>
    have h1 : 0 < e.rmajor := hx.1
    have h2 : 0 < e.rminor := hx.2
    have hcs := sin_sq_add_cos_sq e.rad
    have hf : Affine.ofEllipse (.ell e) = ⟨!![e.rmajor * cos e.rad, -(e.rminor * sin e.rad); e.rmajor * sin e.rad, e.rminor * cos e.rad], e.center⟩ := by
      unfold Affine.ofEllipse Ellipse.rad
      simp
    rw [hf]
    have a1 : (axisCoord e.center e.rad (Affine.transform ⟨!![e.rmajor * cos e.rad, -(e.rminor * sin e.rad); e.rmajor * sin e.rad, e.rminor * cos e.rad], e.center⟩ P)).x = e.rmajor * P.x := by
      unfold axisCoord Affine.transform
      simp
      linear_combination e.rmajor * P.x * hcs
    have a2 : (axisCoord e.center e.rad (Affine.transform ⟨!![e.rmajor * cos e.rad, -(e.rminor * sin e.rad); e.rmajor * sin e.rad, e.rminor * cos e.rad], e.center⟩ P)).y = e.rminor * P.y := by
      unfold axisCoord Affine.transform
      simp
      linear_combination e.rminor * P.y * hcs
    unfold InArg InEllipse
    dsimp only
    rw [a1, a2, mul_div_assoc, mul_div_assoc, mul_comm, div_mul_cancel₀ _ h1.ne', mul_comm e.rminor, div_mul_cancel₀ _ h2.ne']

end EllipticalChains

open EllipticalChains

/-- C48: the map given by `from_ellipse_to_ellipse` sends the region bounded by the first curve onto the one bounded by the second curve. -/
theorem C48_regions (x y : EllArg) (hx : ValidArg x) (hy : ValidArg y) (f : Affine) (hf : Affine.from_ellipse_to_ellipse x y = .ok f) :
    (∀ P, InArg x P ↔ InArg y (f.transform P)) ∧ ∀ Q, InArg y Q → ∃ P, InArg x P ∧ f.transform P = Q := by
  obtain ⟨d1, -⟩ := ofEllipse_spec hx
  obtain ⟨g, hg, hl, hr, hd⟩ := inverse_some _ d1
  obtain ⟨f', hf', hb, -, -⟩ := C48_from_ellipse_to_ellipse x y hx hy
  have e : f' = f := by rw [hf] at hf'; exact (Except.ok.inj hf').symm
  subst e
  have e : f' = g.compose (Affine.ofEllipse y) := by
    unfold Affine.from_ellipse_to_ellipse at hf
    dsimp only at hf
    rw [hg] at hf
    exact (Except.ok.inj hf).symm
  have hin : ∀ P, InArg x P ↔ InArg y (f'.transform P) := by
    intro P
    rw [e, (C45_compose _ _ _).1, ← ofEllipse_in hy, ofEllipse_in hx, hr]
  refine ⟨hin, ?_⟩
  intro Q hQ
  obtain ⟨P, rfl⟩ := hb.2 Q
  exact ⟨P, (hin P).2 hQ, rfl⟩

namespace EllipticalChains

theorem fig_image {f : Pt → Pt} (hf : Function.Bijective f) {A B : Figure Pt} (h1 : ∀ P, P ∈ A.points ↔ f P ∈ B.points)
    (h2 : ∀ P, P ∈ A.edge ↔ f P ∈ B.edge) : B = A.image f := by
  have key : ∀ S T : Set Pt, (∀ P, P ∈ S ↔ f P ∈ T) → T = f '' S := by
    intro S T h
    ext Q
    constructor
    · intro hQ
      obtain ⟨P, rfl⟩ := hf.2 Q
      exact ⟨P, (h P).2 hQ, rfl⟩
    · rintro ⟨P, hP, rfl⟩
      exact (h P).1 hP
  ext1
  · exact key _ _ h1
  · exact key _ _ h2

/-- The map of the scripts. -/
theorem script_map {c0 : Circle} (hc : c0.Valid) {ell0 : Ellipse} (he : ell0.Valid) :
    ∃ f : Affine, Affine.from_ellipse_to_ellipse (.circ c0) (.ell ell0) = .ok f ∧ Function.Bijective f.transform ∧ Matrix.det f.A ≠ 0 ∧
      ellFig ell0 = (discFig c0).image f.transform ∧
      ∀ c : Circle, c.Valid → ∃ e : Ellipse, f.transform_ellipse (.circ c) = .ok (some e) ∧ e.Valid ∧ ellFig e = (discFig c).image f.transform := by
  obtain ⟨f, hf, hb, hon, -⟩ := C48_from_ellipse_to_ellipse (.circ c0) (.ell ell0) hc he
  obtain ⟨hin, -⟩ := C48_regions (.circ c0) (.ell ell0) hc he f hf
  refine ⟨f, hf, hb, ?_, ?_, ?_⟩
  · rw [det2_eq]; exact ((C45_inverse f).2.1).1 hb
  · refine fig_image hb ?_ (fun P => hon P)
    intro P
    have := hin P
    unfold InArg at this
    dsimp only at this
    rw [sqDist_comm] at this
    exact this
  · intro c hcv
    obtain ⟨e, h1, h2, -, -, -, -, h3, h4⟩ := (C47_transform_ellipse f (.circ c) hcv).2 hb
    refine ⟨e, h1, h2, fig_image hb ?_ (fun P => h3 P)⟩
    intro P
    have := h4 P
    unfold InArg at this
    dsimp only at this
    rw [sqDist_comm] at this
    exact this

end EllipticalChains

/-- C31: the radii of the circles of a Steiner chain, in closed form, for every `phi` between -1 and 1. -/
theorem C31_radii (c0 : Circle) (hc : c0.Valid) (n : ℕ) (hn : 3 ≤ n) (phi shift : ℝ) (hphi : |phi| < 1) (st : SteinerRes)
    (h : SteinerChain c0 n phi shift = .ok st) (i : ℕ) (hi : i < n) (c : Circle) (hci : st.circles[i]? = some (.circle c)) :
    c.radius = chainRadius c0.radius n phi shift i := by
  rw [(steiner_get hc hn hphi h).2 i hi.le c hci, apC_radius hc hn hphi hi]

/-- C108: `EllipticalSteinerChain.py` for any circle, any ellipse, any `n ≥ 3`, any shift and any `phi` between -1 and 1.  It succeeds exactly when the pole of the
inversion of `SteinerChain` is farther than the tolerance from the circles (the condition of `C31_exact`), and then the `n + 1` ellipses are a closed chain
inside the given ellipse. -/
theorem C108_elliptical (c0 : Circle) (hc : c0.Valid) (ell0 : Ellipse) (he : ell0.Valid) (n : ℕ) (hn : 3 ≤ n) (phi shift : ℝ) (hphi : |phi| < 1) :
    ((∃ L, ellipticalChain c0 ell0 n phi shift = .ok L) ↔ (phi ≠ 0 → PoleFar c0.radius n phi shift)) ∧
    ∀ L, ellipticalChain c0 ell0 n phi shift = .ok L → ∃ e : ℕ → Ellipse, L = (List.range (n + 1)).map (fun j => some (e j)) ∧
      (∀ j ≤ n, (e j).Valid) ∧ ClosedChain (ellFig ell0) n (fun j => ellFig (e j)) := by
  obtain ⟨f, hf, hb, hdet, hout, himg⟩ := script_map hc he
  have hmc := metric_chain hc hn shift hphi
  choose e he1 he2 he3 using fun j : ℕ => himg (apC c0 n phi shift j) ((ap_ring hc hn shift hphi).valid j)
  have hmap : ((List.range (n + 1)).map (fun j => GCircle.circle (apC c0 n phi shift j))).mapM (transformG f) =
      .ok ((List.range (n + 1)).map (fun j => some (e j))) := by
    rw [List.mapM_map]
    exact mapM_ok _ _ _ (fun j _ => he1 j)
  have hfig : ClosedChain (ellFig ell0) n (fun j => ellFig (e j)) := by
    have := closed_image hb.1 (discs_of_balls hmc.balls)
    rw [← hout] at this
    simp only [← he3] at this
    exact this
  have hfwd : ∀ L, ellipticalChain c0 ell0 n phi shift = .ok L → L = (List.range (n + 1)).map (fun j => some (e j)) ∧
      (phi ≠ 0 → PoleFar c0.radius n phi shift) := by
    intro L hL
    unfold ellipticalChain at hL
    rw [hf, Res.ok_bind] at hL
    obtain ⟨st, hst, hL⟩ := Res.bind_ok.1 hL
    obtain ⟨e1, e2⟩ := steiner_circles hc hn hphi hst (by
      intro g hg
      obtain ⟨b, -, hb⟩ := mapM_forall _ hL g hg
      cases g with
      | circle c => exact ⟨c, rfl⟩
      | line l =>
        unfold transformG at hb
        dsimp only at hb
        rw [if_neg hdet] at hb
        exact absurd hb (by simp))
    rw [e1, hmap] at hL
    exact ⟨(Except.ok.inj hL).symm, e2⟩
  refine ⟨⟨?_, ?_⟩, ?_⟩
  · rintro ⟨L, hL⟩
    exact (hfwd L hL).2
  · intro h
    obtain ⟨st, hst, ec⟩ := steiner_exists hc hn hphi h
    refine ⟨(List.range (n + 1)).map (fun j => some (e j)), ?_⟩
    unfold ellipticalChain
    rw [hf, Res.ok_bind, hst, Res.ok_bind, ec, hmap]
  · intro L hL
    exact ⟨e, (hfwd L hL).1, fun j _ => he2 j, hfig⟩

/-! ### Nested chains -/

namespace EllipticalChains

theorem take_range {α : Type} (n : ℕ) (g : ℕ → α) : ((List.range (n + 1)).map g).take n = (List.range n).map g := by
  rw [chain_range, List.take_left' (by simp)]

theorem nested_explicit {c0 : Circle} (hc : c0.Valid) {n : ℕ} (hn : 3 ≤ n) {phi shift : ℝ} (hphi : |phi| < 1) {m : ℕ} (hm : 3 ≤ m) {phi2 shift2 : ℝ}
    (hphi2 : |phi2| < 1) {r : List GCircle × List (List GCircle)} (h : nestedChains c0 n phi shift m phi2 shift2 = .ok r)
    (h1 : ∀ g ∈ r.1, ∃ c, g = GCircle.circle c) (h2 : ∀ l ∈ r.2, ∀ g ∈ l, ∃ c, g = GCircle.circle c) :
    r = ((List.range (n + 1)).map (fun j => GCircle.circle (apC c0 n phi shift j)),
      (List.range n).map (fun i => (List.range (m + 1)).map (fun j => GCircle.circle (apC (apC c0 n phi shift i) m phi2 shift2 j)))) ∧
    (phi ≠ 0 → PoleFar c0.radius n phi shift) ∧ (phi2 ≠ 0 → ∀ i < n, PoleFar (chainRadius c0.radius n phi shift i) m phi2 shift2) := by
  unfold nestedChains at h
  obtain ⟨st, hst, h⟩ := Res.bind_ok.1 h
  dsimp only at h
  obtain ⟨chains, hch, h⟩ := Res.bind_ok.1 h
  rw [Res.pure_ok] at h
  subst h
  obtain ⟨e1, e2⟩ := steiner_circles hc hn hphi hst h1
  have hv := fun i => (ap_ring hc hn shift hphi).valid i
  rw [e1, take_range] at hch
  have key : ∀ i < n, chainOf m phi2 shift2 (.circle (apC c0 n phi shift i)) =
        .ok ((List.range (m + 1)).map (fun j => GCircle.circle (apC (apC c0 n phi shift i) m phi2 shift2 j))) ∧
      (phi2 ≠ 0 → PoleFar (apC c0 n phi shift i).radius m phi2 shift2) := by
    intro i hi
    obtain ⟨l, hl, el⟩ := mapM_forall _ hch (.circle (apC c0 n phi shift i)) (List.mem_map.2 ⟨i, List.mem_range.2 hi, rfl⟩)
    have hl2 := h2 l hl
    have el' := el
    unfold chainOf at el'
    dsimp only at el'
    obtain ⟨st', hst', el'⟩ := Res.bind_ok.1 el'
    rw [Res.pure_ok] at el'
    subst el'
    obtain ⟨f1, f2⟩ := steiner_circles (hv i) hm hphi2 hst' hl2
    rw [el, f1]
    exact ⟨rfl, f2⟩
  refine ⟨?_, e2, ?_⟩
  · rw [List.mapM_map, mapM_ok (chainOf m phi2 shift2 ∘ fun j => GCircle.circle (apC c0 n phi shift j)) _ _
      (fun i hi => (key i (List.mem_range.1 hi)).1)] at hch
    rw [e1, ← Except.ok.inj hch]
  · intro hp i hi
    rw [← apC_radius hc hn hphi hi]
    exact (key i hi).2 hp

theorem nested_exists {c0 : Circle} (hc : c0.Valid) {n : ℕ} (hn : 3 ≤ n) {phi shift : ℝ} (hphi : |phi| < 1) {m : ℕ} (hm : 3 ≤ m) {phi2 shift2 : ℝ}
    (hphi2 : |phi2| < 1) (h1 : phi ≠ 0 → PoleFar c0.radius n phi shift)
    (h2 : phi2 ≠ 0 → ∀ i < n, PoleFar (chainRadius c0.radius n phi shift i) m phi2 shift2) :
    nestedChains c0 n phi shift m phi2 shift2 = .ok ((List.range (n + 1)).map (fun j => GCircle.circle (apC c0 n phi shift j)),
      (List.range n).map (fun i => (List.range (m + 1)).map (fun j => GCircle.circle (apC (apC c0 n phi shift i) m phi2 shift2 j)))) := by
  obtain ⟨st, hst, ec⟩ := steiner_exists hc hn hphi h1
  have hv := fun i => (ap_ring hc hn shift hphi).valid i
  unfold nestedChains
  rw [hst, Res.ok_bind]
  dsimp only
  rw [ec, take_range, List.mapM_map,
    mapM_ok _ (fun i => (List.range (m + 1)).map (fun j => GCircle.circle (apC (apC c0 n phi shift i) m phi2 shift2 j))), Res.ok_bind]
  · rfl
  · intro i hi
    obtain ⟨st', hst', ec'⟩ := steiner_exists (hv i) hm hphi2 (shift := shift2) (fun hp => by
      rw [apC_radius hc hn hphi (List.mem_range.1 hi)]; exact h2 hp i (List.mem_range.1 hi))
    change chainOf m phi2 shift2 (.circle (apC c0 n phi shift i)) = _
    unfold chainOf
    dsimp only
    rw [hst', Res.ok_bind, ec']
    rfl

/-- Chains inside the figures of a chain: figures of two different chains do not overlap. -/
theorem nested_apart {α : Type} {A : Figure α} {n m : ℕ} {s : ℕ → Figure α} {t : ℕ → ℕ → Figure α} (h : ClosedChain A n s)
    (h2 : ∀ i < n, ClosedChain (s i) m (t i)) (hint : ∀ i < n, ∀ j ≤ m, (t i j).interior ⊆ (s i).interior)
    {i i' j j' : ℕ} (hi : i < n) (hi' : i' < n) (hj : j ≤ m) (hj' : j' ≤ m) (hne : (i, j) ≠ (i', j')) :
    Disjoint (t i j).interior (t i' j').interior := by
  by_cases e : i = i'
  · subst e
    exact (h2 i hi).apart j hj j' hj' (fun e => hne (by rw [e]))
  · exact (h.apart i hi.le i' hi'.le e).mono (hint i hi j hj) (hint i' hi' j' hj')

theorem nested_free {α : Type} {A : Figure α} {n m : ℕ} {s : ℕ → Figure α} {t : ℕ → ℕ → Figure α} (h : ClosedChain A n s)
    (hint : ∀ i < n, ∀ j ≤ m, (t i j).interior ⊆ (s i).interior) {i j : ℕ} (hi : i < n) (hj : j ≤ m) :
    Disjoint (t i j).interior (s n).interior :=
  (h.apart i hi.le n le_rfl (by omega)).mono_left (hint i hi j hj)

/-- An open disc inside a closed disc is inside the open disc. -/
theorem disc_interior {c0 : Circle} {n : ℕ} {c : ℕ → Circle} (h : MetricChain c0 n c) {j : ℕ} (hj : j ≤ n) :
    (discFig (c j)).interior ⊆ (discFig c0).interior := by
  intro P hP
  have hp := h.pos j hj
  have hl := h.lt j hj
  refine ⟨(discs_of_balls h.balls).inside j hj hP.1, ?_⟩
  intro hedge
  rcases Nat.lt_or_eq_of_le hj with h1 | rfl
  · have e2 : sqDist P c0.center + 0 = c0.radius ^ 2 := by rw [add_zero]; exact hedge
    have e1 : sqDist P (c j).center + 0 ≤ (c j).radius ^ 2 := by rw [add_zero]; exact hP.1
    obtain ⟨e3, -⟩ := inner_unique hp hl le_rfl (h.rim j h1) e1 e2
    obtain ⟨e4, -⟩ := inner_point hl (h.rim j h1)
    rw [← e3] at e4
    exact hP.2 e4
  · exact Set.disjoint_left.1 (discs_of_balls h.balls).free hP.1 hedge

theorem asCircle_forall {l : List GCircle} {r : List Circle} (h : l.mapM asCircle = .ok r) : ∀ g ∈ l, ∃ c, g = GCircle.circle c := by
  intro g hg
  obtain ⟨b, -, hb⟩ := mapM_forall _ h g hg
  cases g with
  | circle c => exact ⟨c, rfl⟩
  | line l => exact absurd hb (by simp [asCircle])

end EllipticalChains

/-- What `NestedSteinerChains.py` and its elliptical versions are expected to draw: a closed chain inside the outer figure, in each figure of the chain a closed chain, and no
two of the small figures overlap, neither do they overlap the one at the center. -/
structure Spec.NestedChain {α : Type} (A : Figure α) (n m : ℕ) (s : ℕ → Figure α) (t : ℕ → ℕ → Figure α) : Prop where
  big : ClosedChain A n s
  small : ∀ i < n, ClosedChain (s i) m (t i)
  apart : ∀ i < n, ∀ j ≤ m, ∀ i' < n, ∀ j' ≤ m, (i, j) ≠ (i', j') → Disjoint (t i j).interior (t i' j').interior
  free : ∀ i < n, ∀ j ≤ m, Disjoint (t i j).interior (s n).interior

theorem EllipticalChains.nested_discs {c0 : Circle} (hc : c0.Valid) {n : ℕ} (hn : 3 ≤ n) {phi : ℝ} (shift : ℝ) (hphi : |phi| < 1) {m : ℕ} (hm : 3 ≤ m)
    {phi2 : ℝ} (shift2 : ℝ) (hphi2 : |phi2| < 1) : NestedChain (discFig c0) n m (fun j => discFig (apC c0 n phi shift j))
      (fun i j => discFig (apC (apC c0 n phi shift i) m phi2 shift2 j)) := by
  have hv := fun i => (ap_ring hc hn shift hphi).valid i
  have h1 := metric_chain hc hn shift hphi
  have h2 := fun i => metric_chain (hv i) hm shift2 hphi2
  have hint : ∀ i < n, ∀ j ≤ m, (discFig (apC (apC c0 n phi shift i) m phi2 shift2 j)).interior ⊆ (discFig (apC c0 n phi shift i)).interior :=
    fun i _ j hj => disc_interior (h2 i) hj
  refine ⟨discs_of_balls h1.balls, fun i _ => discs_of_balls (h2 i).balls, ?_, ?_⟩
  · intro i hi j hj i' hi' j' hj' hne
    exact nested_apart (s := fun j => discFig (apC c0 n phi shift j)) (t := fun i j => discFig (apC (apC c0 n phi shift i) m phi2 shift2 j))
      (discs_of_balls h1.balls) (fun i _ => discs_of_balls (h2 i).balls) hint hi hi' hj hj' hne
  · intro i hi j hj
    exact nested_free (s := fun j => discFig (apC c0 n phi shift j)) (t := fun i j => discFig (apC (apC c0 n phi shift i) m phi2 shift2 j))
      (discs_of_balls h1.balls) hint hi hj

theorem EllipticalChains.nested_image {α β : Type} {f : α → β} (hf : Function.Injective f) {A : Figure α} {n m : ℕ} {s : ℕ → Figure α} {t : ℕ → ℕ → Figure α}
    (h : NestedChain A n m s t) : NestedChain (A.image f) n m (fun j => (s j).image f) (fun i j => (t i j).image f) := by
  have hint : ∀ B : Figure α, (B.image f).interior = f '' B.interior := fun B => (Set.image_diff hf _ _).symm
  refine ⟨closed_image hf h.big, fun i hi => closed_image hf (h.small i hi), ?_, ?_⟩
  · intro i hi j hj i' hi' j' hj' hne
    rw [hint, hint]
    exact (Set.disjoint_image_iff hf).2 (h.apart i hi j hj i' hi' j' hj' hne)
  · intro i hi j hj
    rw [hint, hint]
    exact (Set.disjoint_image_iff hf).2 (h.free i hi j hj)

theorem EllipticalChains.drawn_lists {c0 : Circle} {n : ℕ} {phi shift : ℝ} {m : ℕ} {phi2 shift2 : ℝ} :
    ((List.range (n + 1)).map (fun j => GCircle.circle (apC c0 n phi shift j))).mapM asCircle = .ok ((List.range (n + 1)).map (apC c0 n phi shift)) ∧
    ((List.range n).map (fun i => (List.range (m + 1)).map (fun j => GCircle.circle (apC (apC c0 n phi shift i) m phi2 shift2 j)))).mapM
      (fun chain => chain.mapM asCircle) = .ok ((List.range n).map (fun i => (List.range (m + 1)).map (apC (apC c0 n phi shift i) m phi2 shift2))) := by
  constructor
  · rw [List.mapM_map]
    exact mapM_ok _ _ _ (fun j _ => rfl)
  · rw [List.mapM_map]
    refine mapM_ok _ _ _ (fun i _ => ?_)
    change ((List.range (m + 1)).map (fun j => GCircle.circle (apC (apC c0 n phi shift i) m phi2 shift2 j))).mapM asCircle = _
    rw [List.mapM_map]
    exact mapM_ok _ _ _ (fun j _ => rfl)

theorem EllipticalChains.drawn_explicit {c0 : Circle} (hc : c0.Valid) {n : ℕ} (hn : 3 ≤ n) {phi shift : ℝ} (hphi : |phi| < 1) {m : ℕ} (hm : 3 ≤ m)
    {phi2 shift2 : ℝ} (hphi2 : |phi2| < 1) : ∀ r, nestedDrawn c0 n phi shift m phi2 shift2 = .ok r →
      r = ((List.range (n + 1)).map (apC c0 n phi shift), (List.range n).map (fun i => (List.range (m + 1)).map (apC (apC c0 n phi shift i) m phi2 shift2))) ∧
      (phi ≠ 0 → PoleFar c0.radius n phi shift) ∧ (phi2 ≠ 0 → ∀ i < n, PoleFar (chainRadius c0.radius n phi shift i) m phi2 shift2) := by
  intro r hr
  unfold nestedDrawn at hr
  obtain ⟨q, hq, hr⟩ := Res.bind_ok.1 hr
  obtain ⟨blue, hb, hr⟩ := Res.bind_ok.1 hr
  obtain ⟨red, hrd, hr⟩ := Res.bind_ok.1 hr
  have hr3 := Except.ok.inj hr
  obtain ⟨e1, e2, e3⟩ := nested_explicit hc hn hphi hm hphi2 hq (asCircle_forall hb) (by
    intro l hl
    obtain ⟨b, -, hb⟩ := mapM_forall _ hrd l hl
    exact asCircle_forall hb)
  subst e1
  rw [(drawn_lists (m := m) (phi2 := phi2) (shift2 := shift2)).1] at hb
  rw [drawn_lists.2] at hrd
  rw [← hr3, ← Except.ok.inj hb, ← Except.ok.inj hrd]
  exact ⟨rfl, e2, e3⟩

/-- C108: `NestedSteinerChains.py` for any outer circle, any numbers of circles `n, m ≥ 3`, any shifts, any `phi`, `phi2` between -1 and 1.  It draws everything exactly when all the
poles are farther than the tolerance from the circles, and then it draws nested chains. -/
theorem C108_nested (c0 : Circle) (hc : c0.Valid) (n : ℕ) (hn : 3 ≤ n) (phi shift : ℝ) (hphi : |phi| < 1) (m : ℕ) (hm : 3 ≤ m) (phi2 shift2 : ℝ)
    (hphi2 : |phi2| < 1) :
    ((∃ r, nestedDrawn c0 n phi shift m phi2 shift2 = .ok r) ↔ (phi ≠ 0 → PoleFar c0.radius n phi shift) ∧
      (phi2 ≠ 0 → ∀ i < n, PoleFar (chainRadius c0.radius n phi shift i) m phi2 shift2)) ∧
    ∀ r, nestedDrawn c0 n phi shift m phi2 shift2 = .ok r → ∃ (c : ℕ → Circle) (d : ℕ → ℕ → Circle),
      r = ((List.range (n + 1)).map c, (List.range n).map (fun i => (List.range (m + 1)).map (d i))) ∧
      (∀ j ≤ n, 0 < (c j).radius) ∧ (∀ i < n, (c i).radius = chainRadius c0.radius n phi shift i) ∧ (∀ i < n, ∀ j ≤ m, 0 < (d i j).radius) ∧
      NestedChain (discFig c0) n m (fun j => discFig (c j)) (fun i j => discFig (d i j)) := by
  have hv := fun i => (ap_ring hc hn shift hphi).valid i
  refine ⟨⟨?_, ?_⟩, ?_⟩
  · rintro ⟨r, hr⟩
    exact (drawn_explicit hc hn hphi hm hphi2 r hr).2
  · rintro ⟨h1, h2⟩
    refine ⟨((List.range (n + 1)).map (apC c0 n phi shift), (List.range n).map (fun i => (List.range (m + 1)).map (apC (apC c0 n phi shift i) m phi2 shift2))), ?_⟩
    unfold nestedDrawn
    rw [nested_exists hc hn hphi hm hphi2 h1 h2, Res.ok_bind]
    dsimp only
    rw [(drawn_lists (m := m) (phi2 := phi2) (shift2 := shift2)).1, Res.ok_bind, drawn_lists.2, Res.ok_bind]
    rfl
  · intro r hr
    exact ⟨_, _, (drawn_explicit hc hn hphi hm hphi2 r hr).1, fun j _ => hv j, fun i hi => apC_radius hc hn hphi hi, fun i _ j _ => (ap_ring (hv i) hm shift2 hphi2).valid j,
      nested_discs hc hn shift hphi hm shift2 hphi2⟩

/-- C108: `EllipticalNestedSteinerChains.py`, for any outer circle and any ellipse, under the same exact condition: nested chains of ellipses. -/
theorem C108_elliptical_nested (c0 : Circle) (hc : c0.Valid) (ell0 : Ellipse) (he : ell0.Valid) (n : ℕ) (hn : 3 ≤ n) (phi shift : ℝ) (hphi : |phi| < 1)
    (m : ℕ) (hm : 3 ≤ m) (phi2 shift2 : ℝ) (hphi2 : |phi2| < 1) :
    ((∃ r, ellipticalNested c0 ell0 n phi shift m phi2 shift2 = .ok r) ↔ (phi ≠ 0 → PoleFar c0.radius n phi shift) ∧
      (phi2 ≠ 0 → ∀ i < n, PoleFar (chainRadius c0.radius n phi shift i) m phi2 shift2)) ∧
    ∀ r, ellipticalNested c0 ell0 n phi shift m phi2 shift2 = .ok r → ∃ (e : ℕ → Ellipse) (d : ℕ → ℕ → Ellipse),
      r = ((List.range (n + 1)).map (fun j => some (e j)), (List.range n).map (fun i => (List.range (m + 1)).map (fun j => some (d i j)))) ∧
      (∀ j ≤ n, (e j).Valid) ∧ (∀ i < n, ∀ j ≤ m, (d i j).Valid) ∧
      NestedChain (ellFig ell0) n m (fun j => ellFig (e j)) (fun i j => ellFig (d i j)) := by
  obtain ⟨f, hf, hb, hdet, hout, himg⟩ := script_map hc he
  have hv := fun i => (ap_ring hc hn shift hphi).valid i
  choose e he1 he2 he3 using fun j : ℕ => himg (apC c0 n phi shift j) (hv j)
  choose d hd1 hd2 hd3 using fun i j : ℕ => himg (apC (apC c0 n phi shift i) m phi2 shift2 j) ((ap_ring (hv i) hm shift2 hphi2).valid j)
  have hcirc : ∀ {l : List GCircle} {r : List (Option Ellipse)}, l.mapM (transformG f) = .ok r → ∀ g ∈ l, ∃ c, g = GCircle.circle c := by
    intro l r h g hg
    obtain ⟨b, -, hb⟩ := mapM_forall _ h g hg
    cases g with
    | circle c => exact ⟨c, rfl⟩
    | line l =>
      unfold transformG at hb
      dsimp only at hb
      rw [if_neg hdet] at hb
      exact absurd hb (by simp)
  have m1 : ((List.range (n + 1)).map (fun j => GCircle.circle (apC c0 n phi shift j))).mapM (transformG f) =
      .ok ((List.range (n + 1)).map (fun j => some (e j))) := by
    rw [List.mapM_map]
    exact mapM_ok _ _ _ (fun j _ => he1 j)
  have m2 : ((List.range n).map (fun i => (List.range (m + 1)).map (fun j => GCircle.circle (apC (apC c0 n phi shift i) m phi2 shift2 j)))).mapM
      (fun chain => chain.mapM (transformG f)) = .ok ((List.range n).map (fun i => (List.range (m + 1)).map (fun j => some (d i j)))) := by
    rw [List.mapM_map]
    refine mapM_ok _ _ _ (fun i _ => ?_)
    change ((List.range (m + 1)).map (fun j => GCircle.circle (apC (apC c0 n phi shift i) m phi2 shift2 j))).mapM (transformG f) = _
    rw [List.mapM_map]
    exact mapM_ok _ _ _ (fun j _ => hd1 i j)
  have hfwd : ∀ r, ellipticalNested c0 ell0 n phi shift m phi2 shift2 = .ok r →
      r = ((List.range (n + 1)).map (fun j => some (e j)), (List.range n).map (fun i => (List.range (m + 1)).map (fun j => some (d i j)))) ∧
      (phi ≠ 0 → PoleFar c0.radius n phi shift) ∧ (phi2 ≠ 0 → ∀ i < n, PoleFar (chainRadius c0.radius n phi shift i) m phi2 shift2) := by
    intro r hr
    unfold ellipticalNested at hr
    rw [hf, Res.ok_bind] at hr
    obtain ⟨q, hq, hr⟩ := Res.bind_ok.1 hr
    obtain ⟨blue, hb, hr⟩ := Res.bind_ok.1 hr
    obtain ⟨red, hrd, hr⟩ := Res.bind_ok.1 hr
    have hr3 := Except.ok.inj hr
    obtain ⟨e1, e2, e3⟩ := nested_explicit hc hn hphi hm hphi2 hq (hcirc hb) (by
      intro l hl
      obtain ⟨b, -, hb⟩ := mapM_forall _ hrd l hl
      exact hcirc hb)
    subst e1
    rw [m1] at hb
    rw [m2] at hrd
    rw [← hr3, ← Except.ok.inj hb, ← Except.ok.inj hrd]
    exact ⟨rfl, e2, e3⟩
  have hfig : NestedChain (ellFig ell0) n m (fun j => ellFig (e j)) (fun i j => ellFig (d i j)) := by
    have := nested_image hb.1 (nested_discs hc hn shift hphi hm shift2 hphi2)
    rw [← hout] at this
    simp only [← he3, ← hd3] at this
    exact this
  refine ⟨⟨?_, ?_⟩, ?_⟩
  · rintro ⟨r, hr⟩
    exact (hfwd r hr).2
  · rintro ⟨h1, h2⟩
    refine ⟨((List.range (n + 1)).map (fun j => some (e j)), (List.range n).map (fun i => (List.range (m + 1)).map (fun j => some (d i j)))), ?_⟩
    unfold ellipticalNested
    rw [hf, Res.ok_bind, nested_exists hc hn hphi hm hphi2 h1 h2, Res.ok_bind]
    dsimp only
    rw [m1, Res.ok_bind, m2, Res.ok_bind]
    rfl
  · intro r hr
    exact ⟨e, d, (hfwd r hr).1, fun j _ => he2 j, fun i _ j _ => hd2 i j, hfig⟩

/-- C108: a simple condition.  The smallest circle of the first chain has radius at least `R s (1 - |phi|) / (1 + |phi| + s (1 - |phi|))`, `s` the sine of `π/n`; when
it is not small for the tolerance, the exact conditions of the theorems above hold, for all shifts. -/
theorem C108_condition (R : ℝ) (hR : 0 < R) (n : ℕ) (hn : 3 ≤ n) (phi : ℝ) (hphi : |phi| < 1) :
    (∀ shift, (phi ≠ 0 → 1 / 2 ^ 13 < R * (1 / |phi| - 1)) → phi ≠ 0 → PoleFar R n phi shift) ∧
    (∀ shift i, R * sin (π / n) * (1 - |phi|) / (1 + |phi| + sin (π / n) * (1 - |phi|)) ≤ chainRadius R n phi shift i) ∧
    ∀ (m : ℕ), 3 ≤ m → ∀ phi2, |phi2| < 1 →
      (phi2 ≠ 0 → 1 / 2 ^ 13 < R * sin (π / n) * (1 - |phi|) / (1 + |phi| + sin (π / n) * (1 - |phi|)) * (1 / |phi2| - 1)) →
      ∀ shift shift2, phi2 ≠ 0 → ∀ i < n, PoleFar (chainRadius R n phi shift i) m phi2 shift2 := by
  have key : ∀ (R : ℝ), 0 < R → ∀ n : ℕ, 3 ≤ n → ∀ phi, |phi| < 1 → ∀ shift, 1 / 2 ^ 13 < R * (1 / |phi| - 1) → phi ≠ 0 → PoleFar R n phi shift := by
    intro R hR n hn phi hphi shift h hp
    have hc : (⟨⟨0, 0⟩, R⟩ : Circle).Valid := hR
    obtain ⟨h1, h2⟩ := pole0_power hc hn shift hphi hp
    have habs : 0 < |phi| := abs_pos.2 hp
    have h3 : (1 : ℝ) / 2 ^ 26 < (R / |phi| - R) ^ 2 := by
      have e : R / |phi| - R = R * (1 / |phi| - 1) := by ring
      rw [e]
      have := pow_lt_pow_left₀ h (by positivity) (n := 2) (by norm_num)
      norm_num at this ⊢
      linarith
    constructor
    · intro i hi
      have := h1 i
      rw [chain0_power hn shift hp] at this
      exact lt_of_lt_of_le h3 this
    · rw [inner0_power hn hp] at h2
      exact lt_of_lt_of_le h3 h2
  obtain ⟨hs0, hs1⟩ := sine_bounds hn
  have hlow : ∀ shift i, R * sin (π / n) * (1 - |phi|) / (1 + |phi| + sin (π / n) * (1 - |phi|)) ≤ chainRadius R n phi shift i := by
    intro shift i
    unfold chainRadius
    obtain ⟨c, hcos⟩ : ∃ c, c = cos (((i : ℝ) + shift) * (2 * π / n)) := ⟨_, rfl⟩
    have hc1 : |c| ≤ 1 := by rw [hcos]; exact abs_cos_le_one _
    rw [← hcos]
    obtain ⟨s, hs⟩ : ∃ s, s = sin (π / n) := ⟨_, rfl⟩
    rw [← hs] at hs0 hs1 ⊢
    have e : (1 - |phi|) * (1 + |phi|) = 1 - phi ^ 2 := by rw [← sq_abs phi]; ring
    have h0 := abs_nonneg phi
    have hpc : |phi * c| ≤ |phi| := by rw [abs_mul]; nlinarith [abs_nonneg c]
    obtain ⟨hpc1, hpc2⟩ := abs_le.1 hpc
    have hsq := sq_abs phi
    have hDpos : 0 < 1 + s + phi ^ 2 * (1 - s) - 2 * phi * c := by
      nlinarith [pow_pos (sub_pos.2 hphi) 2]
    have hEpos : 0 < 1 + |phi| + s * (1 - |phi|) := by nlinarith
    have hle : 1 + s + phi ^ 2 * (1 - s) - 2 * phi * c ≤ (1 + |phi|) * (1 + |phi| + s * (1 - |phi|)) := by nlinarith
    rw [div_le_div_iff₀ hEpos hDpos, ← e]
    have hA : 0 ≤ R * s * (1 - |phi|) := mul_nonneg (by positivity) (by linarith)
    have := mul_le_mul_of_nonneg_left hle hA
    linarith
  refine ⟨fun shift h hp => key R hR n hn phi hphi shift (h hp) hp, hlow, ?_⟩
  intro m hm phi2 hphi2 h shift shift2 hp i hi
  have h0 : 0 < R * sin (π / n) * (1 - |phi|) / (1 + |phi| + sin (π / n) * (1 - |phi|)) := by
    have := abs_nonneg phi
    have h1 : 0 < 1 - |phi| := by linarith
    have := mul_pos hs0 h1
    exact div_pos (mul_pos (mul_pos hR hs0) h1) (by linarith)
  refine key _ (lt_of_lt_of_le h0 (hlow shift i)) m hm phi2 hphi2 shift2 ?_ hp
  refine lt_of_lt_of_le (h hp) ?_
  apply mul_le_mul_of_nonneg_right (hlow shift i)
  have habs : 0 < |phi2| := abs_pos.2 hp
  rw [sub_nonneg, le_div_iff₀ habs]
  linarith

/-! ### In space -/

namespace EllipticalChains

theorem tr_apply (f : Affine) (h : ℝ) (P : Pt) (z : ℝ) : applyTr (tr3D f h) (P, z) = (f.transform P, h * z) := by
  unfold applyTr tr3D Affine.transform
  simp [Matrix.mulVec, dotProduct, Fin.sum_univ_four, Matrix.of_apply]

theorem tr_injective {f : Affine} (hf : Function.Injective f.transform) {h : ℝ} (hh : h ≠ 0) : Function.Injective (applyTr (tr3D f h)) := by
  rintro ⟨P, z⟩ ⟨Q, w⟩ e
  rw [tr_apply, tr_apply] at e
  have e1 := hf (congrArg Prod.fst e)
  have e2 := mul_left_cancel₀ hh (congrArg Prod.snd e)
  rw [e1, e2]

theorem ball_interior_sub {c0 : Circle} {n : ℕ} {c : ℕ → Circle} (h : MetricChain c0 n c) {j : ℕ} (hj : j ≤ n) :
    (ballFig (c j)).interior ⊆ (ballFig c0).interior := by
  intro v hv
  have hp := h.pos j hj
  have hl := h.lt j hj
  refine ⟨h.balls.inside j hj hv.1, ?_⟩
  intro hedge
  rcases Nat.lt_or_eq_of_le hj with h1 | rfl
  · obtain ⟨e3, e5⟩ := inner_unique hp hl (sq_nonneg v.2) (h.rim j h1) hv.1 hedge
    obtain ⟨e4, -⟩ := inner_point hl (h.rim j h1)
    rw [← e3] at e4
    apply hv.2
    change sqDist v.1 (c j).center + v.2 ^ 2 = _
    rw [e4, e5, add_zero]
  · exact Set.disjoint_left.1 h.balls.free hv.1 hedge

theorem nested_balls {c0 : Circle} (hc : c0.Valid) {n : ℕ} (hn : 3 ≤ n) {phi : ℝ} (shift : ℝ) (hphi : |phi| < 1) {m : ℕ} (hm : 3 ≤ m)
    {phi2 : ℝ} (shift2 : ℝ) (hphi2 : |phi2| < 1) : NestedChain (ballFig c0) n m (fun j => ballFig (apC c0 n phi shift j))
      (fun i j => ballFig (apC (apC c0 n phi shift i) m phi2 shift2 j)) := by
  have hv := fun i => (ap_ring hc hn shift hphi).valid i
  have h1 := metric_chain hc hn shift hphi
  have h2 := fun i => metric_chain (hv i) hm shift2 hphi2
  have hint : ∀ i < n, ∀ j ≤ m, (ballFig (apC (apC c0 n phi shift i) m phi2 shift2 j)).interior ⊆ (ballFig (apC c0 n phi shift i)).interior :=
    fun i _ j hj => ball_interior_sub (h2 i) hj
  refine ⟨h1.balls, fun i _ => (h2 i).balls, ?_, ?_⟩
  · intro i hi j hj i' hi' j' hj' hne
    exact nested_apart (s := fun j => ballFig (apC c0 n phi shift j)) (t := fun i j => ballFig (apC (apC c0 n phi shift i) m phi2 shift2 j))
      h1.balls (fun i _ => (h2 i).balls) hint hi hi' hj hj' hne
  · intro i hi j hj
    exact nested_free (s := fun j => ballFig (apC c0 n phi shift j)) (t := fun i j => ballFig (apC (apC c0 n phi shift i) m phi2 shift2 j))
      h1.balls hint hi hj

end EllipticalChains

/-- C108: the matrix `Tr` of the scripts in space.  Let `f` be the map from a circle to an ellipse found by the script.  The image of the sphere with a circle as equator cuts the
horizontal plane exactly in the ellipse `f.transform_ellipse(circle)`; seen from above, the sphere covers exactly the region bounded by that ellipse; its
height is that of the sphere times the number `h` in the matrix. -/
theorem C108_sphere (c0 : Circle) (hc : c0.Valid) (ell0 : Ellipse) (he : ell0.Valid) (f : Affine)
    (hf : Affine.from_ellipse_to_ellipse (.circ c0) (.ell ell0) = .ok f) (h : ℝ) (hh : h ≠ 0) (c : Circle) (hcv : c.Valid) :
    ∃ e : Ellipse, f.transform_ellipse (.circ c) = .ok (some e) ∧
      {P | (P, 0) ∈ ((ballFig c).image (applyTr (tr3D f h))).edge} = (ellFig e).edge ∧
      {P | (P, 0) ∈ ((ballFig c).image (applyTr (tr3D f h))).points} = (ellFig e).points ∧
      Prod.fst '' ((ballFig c).image (applyTr (tr3D f h))).edge = (ellFig e).points ∧
      IsGreatest {z | ∃ P, (P, z) ∈ ((ballFig c).image (applyTr (tr3D f h))).edge} (|h| * c.radius) := by
  have hr : 0 < c.radius := hcv
  obtain ⟨f', hf', hb, hdet, hout, himg⟩ := script_map hc he
  have e0 : f' = f := by rw [hf] at hf'; exact (Except.ok.inj hf').symm
  subst e0
  obtain ⟨e, h1, -, h3⟩ := himg c hcv
  refine ⟨e, h1, ?_, ?_, ?_, ?_⟩
  · rw [h3]
    ext Q
    constructor
    · rintro ⟨⟨P, z⟩, hv, ev⟩
      rw [tr_apply] at ev
      have hz : z = 0 := (mul_eq_zero.1 (congrArg Prod.snd ev)).resolve_left hh
      subst hz
      exact ⟨P, disc_edge.2 hv, congrArg Prod.fst ev⟩
    · rintro ⟨P, hP, rfl⟩
      exact ⟨(P, 0), disc_edge.1 hP, by rw [tr_apply, mul_zero]⟩
  · rw [h3]
    ext Q
    constructor
    · rintro ⟨⟨P, z⟩, hv, ev⟩
      rw [tr_apply] at ev
      have hz : z = 0 := (mul_eq_zero.1 (congrArg Prod.snd ev)).resolve_left hh
      subst hz
      exact ⟨P, disc_points.2 hv, congrArg Prod.fst ev⟩
    · rintro ⟨P, hP, rfl⟩
      exact ⟨(P, 0), disc_points.1 hP, by rw [tr_apply, mul_zero]⟩
  · rw [h3]
    ext Q
    constructor
    · rintro ⟨v, ⟨⟨P, z⟩, hv, rfl⟩, rfl⟩
      rw [tr_apply]
      refine ⟨P, ?_, rfl⟩
      have : sqDist P c.center + z ^ 2 = c.radius ^ 2 := hv
      change sqDist P c.center ≤ c.radius ^ 2
      nlinarith [sq_nonneg z]
    · rintro ⟨P, hP, rfl⟩
      have hP' : sqDist P c.center ≤ c.radius ^ 2 := hP
      refine ⟨_, ⟨(P, √(c.radius ^ 2 - sqDist P c.center)), ?_, rfl⟩, by rw [tr_apply]⟩
      change sqDist P c.center + √(c.radius ^ 2 - sqDist P c.center) ^ 2 = c.radius ^ 2
      rw [Real.sq_sqrt (by linarith)]; ring
  · constructor
    · refine ⟨f'.transform c.center, (c.center, if 0 ≤ h then c.radius else -c.radius), ?_, ?_⟩
      · change sqDist c.center c.center + _ = _
        have z : sqDist c.center c.center = 0 := by simp [sqDist]
        rw [z]
        dsimp only
        split <;> ring
      · rw [tr_apply]
        split
        · rename_i h0; rw [abs_of_nonneg h0]
        · rename_i h0; push Not at h0; rw [abs_of_neg h0]; congr 1; ring
    · rintro z ⟨P, ⟨Q, w⟩, hv, ev⟩
      rw [tr_apply] at ev
      have hw : sqDist Q c.center + w ^ 2 = c.radius ^ 2 := hv
      have hw2 : |w| ≤ c.radius := by
        apply abs_le_of_sq_le_sq _ hr.le
        linarith [sqDist_nonneg' Q c.center]
      have ez : h * w = z := congrArg Prod.snd ev
      rw [← ez]
      calc h * w ≤ |h * w| := le_abs_self _
        _ = |h| * |w| := abs_mul _ _
        _ ≤ |h| * c.radius := mul_le_mul_of_nonneg_left hw2 (abs_nonneg h)

/-- C108: the scripts in space.  The spheres drawn for the circles of a chain, and for the nested chains, transformed by `Tr`: a nested chain of bodies inside the image of the
ball on the outer circle. -/
theorem C108_spheres (c0 : Circle) (hc : c0.Valid) (ell0 : Ellipse) (he : ell0.Valid) (f : Affine)
    (hf : Affine.from_ellipse_to_ellipse (.circ c0) (.ell ell0) = .ok f) (h : ℝ) (hh : h ≠ 0) (n : ℕ) (hn : 3 ≤ n) (phi shift : ℝ) (hphi : |phi| < 1)
    (m : ℕ) (hm : 3 ≤ m) (phi2 shift2 : ℝ) (hphi2 : |phi2| < 1) (r : List Circle × List (List Circle))
    (hr : nestedDrawn c0 n phi shift m phi2 shift2 = .ok r) : ∃ (c : ℕ → Circle) (d : ℕ → ℕ → Circle),
      r = ((List.range (n + 1)).map c, (List.range n).map (fun i => (List.range (m + 1)).map (d i))) ∧
      NestedChain ((ballFig c0).image (applyTr (tr3D f h))) n m (fun j => (ballFig (c j)).image (applyTr (tr3D f h)))
        (fun i j => (ballFig (d i j)).image (applyTr (tr3D f h))) := by
  obtain ⟨f', hf', hb, hdet, hout, himg⟩ := script_map hc he
  have e0 : f' = f := by rw [hf] at hf'; exact (Except.ok.inj hf').symm
  subst e0
  exact ⟨apC c0 n phi shift, fun i => apC (apC c0 n phi shift i) m phi2 shift2, (drawn_explicit hc hn hphi hm hphi2 r hr).1,
    nested_image (tr_injective hb.1 hh) (nested_balls hc hn shift hphi hm shift2 hphi2)⟩

/-! ### The animations -/

/-- C108: the animations are loops.  When the shift goes from 0 to `n`, the chain comes back to its place, for every circle, every `n` and every `phi`; the nested chains as well, with
the shift `-shift m/n` of the scripts for them (`m/n` is 1, or 3/5). -/
theorem C108_loop (c0 : Circle) (n : ℕ) (hn : n ≠ 0) (phi shift : ℝ) :
    SteinerChain c0 n phi (shift + n) = SteinerChain c0 n phi shift ∧
    ∀ (m : ℕ), m ≠ 0 → ∀ phi2 : ℝ,
      nestedChains c0 n phi (shift + n) m phi2 (-(shift + n) * m / n) = nestedChains c0 n phi shift m phi2 (-shift * m / n) := by
  have key : ∀ (c0 : Circle) (n : ℕ), n ≠ 0 → ∀ phi shift, SteinerChain c0 n phi (shift + n) = SteinerChain c0 n phi shift := by
    intro c0 n hn phi shift
    have hn' : (n : ℝ) ≠ 0 := by exact_mod_cast hn
    have hu : ∀ i : ℕ, unit_vector_ (((i : ℝ) + (shift + n)) * 2 * (π / n)) = unit_vector_ (((i : ℝ) + shift) * 2 * (π / n)) := by
      intro i
      have e : ((i : ℝ) + (shift + n)) * 2 * (π / n) = ((i : ℝ) + shift) * 2 * (π / n) + 2 * π := by field_simp; ring
      rw [e]
      unfold unit_vector_
      rw [cos_add_two_pi, sin_add_two_pi]
    have h0 : SteinerChain_phi0_ c0 n (shift + n) = SteinerChain_phi0_ c0 n shift := by
      unfold SteinerChain_phi0_
      simp only [hu]
    unfold SteinerChain
    rw [h0]
  refine ⟨key c0 n hn phi shift, ?_⟩
  intro m hm phi2
  have hn' : (n : ℝ) ≠ 0 := by exact_mod_cast hn
  have e : -shift * m / n = -(shift + n) * m / n + m := by field_simp; ring
  have hch : chainOf m phi2 (-shift * m / n) = chainOf m phi2 (-(shift + n) * m / n) := by
    funext g
    rw [e]
    cases g with
    | circle c =>
      unfold chainOf
      dsimp only
      rw [key c m hm]
    | line l => rfl
  unfold nestedChains
  rw [key c0 n hn, hch]

/-- A chain of five circles turned by five places is the same chain. -/
example : SteinerChain ⟨⟨1, 2⟩, 3⟩ 5 (1 / 4) 5 = SteinerChain ⟨⟨1, 2⟩, 3⟩ 5 (1 / 4) 0 := by
  have := (C108_loop ⟨⟨1, 2⟩, 3⟩ 5 (by norm_num) (1 / 4) 0).1
  rwa [show ((0 : ℝ) + (5 : ℕ)) = 5 by norm_num] at this

namespace EllipticalChains

theorem mapM_rotate {α β : Type} (f : α → Res β) {l : List α} {r : List β} (h : l.mapM f = .ok r) : (l.rotate 1).mapM f = .ok (r.rotate 1) := by
  cases l with
  | nil =>
    rw [List.mapM_nil] at h
    rw [← Except.ok.inj h]
    rfl
  | cons a t =>
    rw [List.mapM_cons] at h
    obtain ⟨b, hb, h⟩ := Res.bind_ok.1 h
    obtain ⟨u, hu, h⟩ := Res.bind_ok.1 h
    rw [← Except.ok.inj h, List.rotate_cons_succ, List.rotate_zero, List.rotate_cons_succ, List.rotate_zero, List.mapM_append, hu, Res.ok_bind,
      List.mapM_cons, hb, Res.ok_bind, List.mapM_nil]
    rfl

theorem range_rotate {α : Type} {n : ℕ} (g : ℕ → α) : ((List.range n).map g).rotate 1 = (List.range n).map (fun i => g ((i + 1) % n)) := by
  apply get_ext (by simp)
  intro j hj
  rw [List.getElem?_rotate (by simpa using hj), List.length_map, List.length_range, List.getElem?_map,
    List.getElem?_range (Nat.mod_lt _ (by omega))]
  rfl

theorem mapM_snoc {α β : Type} (f : α → Res β) {l : List α} {a : α} {r : List β} (h : (l ++ [a]).mapM f = .ok r) :
    ∃ (u : List β) (b : β), l.mapM f = .ok u ∧ f a = .ok b ∧ r = u ++ [b] := by
  rw [List.mapM_append] at h
  obtain ⟨u, hu, h⟩ := Res.bind_ok.1 h
  obtain ⟨v, hv, h⟩ := Res.bind_ok.1 h
  rw [List.mapM_cons] at hv
  obtain ⟨b, hb, hv⟩ := Res.bind_ok.1 hv
  rw [List.mapM_nil] at hv
  exact ⟨u, b, hu, hb, by rw [← Except.ok.inj h, ← Except.ok.inj hv]⟩

theorem mapM_snoc_ok {α β : Type} (f : α → Res β) {l : List α} {a : α} {u : List β} {b : β} (h1 : l.mapM f = .ok u) (h2 : f a = .ok b) :
    (l ++ [a]).mapM f = .ok (u ++ [b]) := by
  rw [List.mapM_append, h1, Res.ok_bind, List.mapM_cons, h2, Res.ok_bind, List.mapM_nil]
  rfl

end EllipticalChains

/-- C108: one step of the animation.  A shift by 1 turns the chain by one circle: the same circles in another order, the same inner circle and the same
ellipse. -/
theorem C108_turn (c0 : Circle) (hc : c0.Valid) (n : ℕ) (hn : 3 ≤ n) (phi shift : ℝ) (st : SteinerRes) (h : SteinerChain c0 n phi shift = .ok st) :
    SteinerChain c0 n phi (shift + 1) = .ok ⟨(st.circles.take n).rotate 1 ++ st.circles.drop n, st.ellipse⟩ := by
  have hl : (List.range n).map (chain0 c0 n (shift + 1)) = ((List.range n).map (chain0 c0 n shift)).rotate 1 := by
    rw [range_rotate]
    apply List.map_congr_left
    intro i hi
    exact (CircularGasket.chain0_succ c0 shift (List.mem_range.1 hi)).symm
  unfold SteinerChain at h ⊢
  rw [if_neg (by omega), phi0_list hc hn, Res.ok_bind] at h ⊢
  rw [hl]
  dsimp only at h ⊢
  by_cases hp : phi ≠ 0
  · rw [if_pos hp] at h ⊢
    obtain ⟨circles, hcirc, h⟩ := Res.bind_ok.1 h
    obtain ⟨u, b, hu, hb, e⟩ := mapM_snoc _ hcirc
    have hlen : u.length = n := by have := (mapM_get _ hu).1; simpa using this
    subst e
    rw [mapM_snoc_ok _ (mapM_rotate _ hu) hb, Res.ok_bind]
    rw [List.getLast?_concat] at h
    rw [List.getLast?_concat]
    cases b with
    | line l => exact absurd h (by simp)
    | circle inner =>
      dsimp only at h ⊢
      obtain ⟨sq, hsq, h⟩ := Res.bind_ok.1 h
      obtain ⟨ell, hell, h⟩ := Res.bind_ok.1 h
      have h3 := Except.ok.inj h
      rw [hsq, Res.ok_bind, hell, Res.ok_bind, ← h3]
      dsimp only
      rw [List.take_left' hlen, List.drop_left' hlen]
      rfl
  · rw [if_neg hp, Res.ok_bind, List.map_append] at h ⊢
    rw [List.map_rotate]
    obtain ⟨u, hu⟩ : ∃ u, u = ((List.range n).map (chain0 c0 n shift)).map GCircle.circle := ⟨_, rfl⟩
    have hlen : u.length = n := by rw [hu]; simp
    rw [← hu] at h ⊢
    obtain ⟨b, hb⟩ : ∃ b, [inner0 c0 n].map GCircle.circle = [b] := ⟨_, rfl⟩
    rw [hb] at h ⊢
    rw [List.getLast?_concat] at h
    rw [List.getLast?_concat]
    cases b with
    | line l => exact absurd h (by simp)
    | circle inner =>
      dsimp only at h ⊢
      obtain ⟨sq, hsq, h⟩ := Res.bind_ok.1 h
      obtain ⟨ell, hell, h⟩ := Res.bind_ok.1 h
      have h3 := Except.ok.inj h
      rw [hsq, Res.ok_bind, hell, Res.ok_bind, ← h3]
      dsimp only
      rw [List.take_left' hlen, List.drop_left' hlen]
      rfl

/-! ### The scripts -/

/-- The values of `NestedSteinerChains.py`: the script draws 4 circles and 3 chains of 4 circles, nested as expected. -/
example : ∃ (c : ℕ → Circle) (d : ℕ → ℕ → Circle),
    nestedDrawn ⟨⟨3, 0⟩, 3⟩ 3 (-1 / 2) 1 3 (-2 / 5) (1 / 2) =
      .ok ((List.range 4).map c, (List.range 3).map (fun i => (List.range 4).map (d i))) ∧
    NestedChain (discFig ⟨⟨3, 0⟩, 3⟩) 3 3 (fun j => discFig (c j)) (fun i j => discFig (d i j)) := by
  have hc : (⟨⟨3, 0⟩, 3⟩ : Circle).Valid := by unfold Circle.Valid; norm_num
  have hs : sin (π / (3 : ℕ)) = √3 / 2 := by push_cast; exact sin_pi_div_three
  have h3a : √3 < 1.733 := by rw [Real.sqrt_lt' (by norm_num)]; norm_num
  have h3b : 1.732 < √3 := Real.lt_sqrt_of_sq_lt (by norm_num)
  have a1 : |(-1 / 2 : ℝ)| = 1 / 2 := by rw [abs_of_neg (by norm_num)]; norm_num
  have a2 : |(-2 / 5 : ℝ)| = 2 / 5 := by rw [abs_of_neg (by norm_num)]; norm_num
  obtain ⟨k1, -, k2⟩ := C108_condition 3 (by norm_num) 3 le_rfl (-1 / 2) (by rw [a1]; norm_num)
  obtain ⟨hiff, hall⟩ := C108_nested ⟨⟨3, 0⟩, 3⟩ hc 3 le_rfl (-1 / 2) 1 (by rw [a1]; norm_num) 3 le_rfl (-2 / 5) (1 / 2) (by rw [a2]; norm_num)
  obtain ⟨r, hr⟩ := hiff.2 ⟨k1 1 (fun _ => by rw [a1]; norm_num), k2 3 le_rfl (-2 / 5) (by rw [a2]; norm_num) (fun _ => by
    rw [a1, a2, hs]
    have : 0 < 3 * (√3 / 2) * (1 - 1 / 2) / (1 + 1 / 2 + √3 / 2 * (1 - 1 / 2)) - 1 / 2 := by
      rw [sub_pos, lt_div_iff₀ (by linarith)]; linarith
    norm_num at this ⊢
    linarith) 1 (1 / 2)⟩
  obtain ⟨c, d, e, -, -, -, h⟩ := hall r hr
  exact ⟨c, d, by rw [hr, e], h⟩

/-- The values of `EllipticalSteinerChain.py` and of its animation: four ellipses, for every shift. -/
example (shift : ℝ) : ∃ e : ℕ → Ellipse, ellipticalChain ⟨⟨3, 0⟩, 3⟩ ⟨⟨-4, 0⟩, 4, 5 / 2, 140, true⟩ 3 (-1 / 5) shift =
      .ok [some (e 0), some (e 1), some (e 2), some (e 3)] ∧
    ClosedChain (ellFig ⟨⟨-4, 0⟩, 4, 5 / 2, 140, true⟩) 3 (fun j => ellFig (e j)) := by
  have hc : (⟨⟨3, 0⟩, 3⟩ : Circle).Valid := by unfold Circle.Valid; norm_num
  have a1 : |(-1 / 5 : ℝ)| = 1 / 5 := by rw [abs_of_neg (by norm_num)]; norm_num
  obtain ⟨hiff, hall⟩ := C108_elliptical ⟨⟨3, 0⟩, 3⟩ hc ⟨⟨-4, 0⟩, 4, 5 / 2, 140, true⟩ ⟨by norm_num, by norm_num⟩ 3 le_rfl (-1 / 5) shift
    (by rw [a1]; norm_num)
  obtain ⟨L, hL⟩ := hiff.2 ((C108_condition 3 (by norm_num) 3 le_rfl (-1 / 5) (by rw [a1]; norm_num)).1 shift (fun _ => by rw [a1]; norm_num))
  obtain ⟨e, he, -, h⟩ := hall L hL
  exact ⟨e, by rw [hL, he]; rfl, h⟩
