import Verif.Lemmas.ContactPoints
import Verif.Props.Apollonian
import Verif.Model.CircularGasket

/-!
# C107: the circular gaskets of `triangularCircularGasket.py`
-/

open Spec Real Classical Gasket

namespace CircularGasket

/-! ### Turning the chain by one circle -/

theorem unit_succ {n : ℕ} (shift : ℝ) {i : ℕ} (hi : i < n) :
    unit_vector_ (((((i + 1) % n : ℕ) : ℝ) + shift) * 2 * (π / n)) = unit_vector_ (((i : ℝ) + (shift + 1)) * 2 * (π / n)) := by
  have hn : (n : ℝ) ≠ 0 := by exact_mod_cast (show n ≠ 0 by omega)
  rcases Nat.lt_or_ge (i + 1) n with h | h
  · rw [Nat.mod_eq_of_lt h]; push_cast; congr 1; ring
  · have e : i + 1 = n := by omega
    rw [e, Nat.mod_self]
    have hin : (i : ℝ) = n - 1 := by rw [← e]; push_cast; ring
    have : ((i : ℝ) + (shift + 1)) * 2 * (π / n) = (((0 : ℕ) : ℝ) + shift) * 2 * (π / n) + 2 * π := by
      rw [hin]; push_cast; field_simp; ring
    rw [this]
    unfold unit_vector_
    rw [cos_add_two_pi, sin_add_two_pi]

theorem chain0_succ (c0 : Circle) {n : ℕ} (shift : ℝ) {i : ℕ} (hi : i < n) : chain0 c0 n shift ((i + 1) % n) = chain0 c0 n (shift + 1) i := by
  unfold chain0
  rw [unit_succ shift hi]

/-- The place of a circle in the turned chain. -/
def rho (n j : ℕ) : ℕ := if j < n then (j + n - 1) % n else n

theorem rho_lt {n j : ℕ} (hj : j < n) : rho n j < n ∧ (rho n j + 1) % n = j := by
  unfold rho
  rw [if_pos hj]
  refine ⟨Nat.mod_lt _ (by omega), ?_⟩
  rw [Nat.mod_add_mod, show j + n - 1 + 1 = j + n by omega, Nat.add_mod_right, Nat.mod_eq_of_lt hj]

theorem apC_rho (c0 : Circle) {n : ℕ} (phi shift : ℝ) {j : ℕ} (hj : j ≤ n) : apC c0 n phi (shift + 1) (rho n j) = apC c0 n phi shift j := by
  unfold apC apCircle
  rcases Nat.lt_or_ge j n with h | h
  · obtain ⟨h1, h2⟩ := rho_lt h
    rw [if_pos h1, if_pos h]
    dsimp only
    rw [← chain0_succ c0 shift h1, h2]
  · rw [if_neg (show ¬ rho n j < n by unfold rho; rw [if_neg (by omega)]; omega), if_neg (by omega)]

/-! ### What the script computes -/

theorem asCircle_ok {g : GCircle} {c : Circle} : asCircle g = .ok c ↔ g = .circle c := by
  cases g with
  | circle c' => unfold asCircle; simp
  | line l => unfold asCircle; simp

theorem nth_ok {circles0 : List GCircle} {j : ℕ} {c : Circle} (h : nth circles0 j = .ok c) : circles0[j]? = some (.circle c) := by
  unfold nth at h
  cases hg : circles0[j]? with
  | none => rw [hg] at h; cases h
  | some g =>
    rw [hg] at h
    rw [asCircle_ok.1 h]

theorem onCircle_ok {o : Option Circle} {iota : Inversion} : onCircle o = .ok iota ↔ ∃ c, o = some c ∧ iota = Inversion.on_circle c := by
  cases o with
  | none => unfold onCircle; simp
  | some c => unfold onCircle; simp [eq_comm]

theorem chain0_inside {c0 : Circle} {n : ℕ} (hn : 3 ≤ n) (shift : ℝ) (i : ℕ) :
    (chain0 c0 n shift i).center = (c0.radius - (chain0 c0 n shift i).radius) • unit_vector_ (((i : ℝ) + shift) * 2 * (π / n)) + c0.center := by
  obtain ⟨hs0, -⟩ := sine_bounds hn
  unfold chain0
  dsimp only
  congr 2
  field_simp
  ring

/-- The contact points with the outer circle are on the mirrors. -/
theorem ev_K {c0 : Circle} (hc : c0.Valid) {n : ℕ} (hn : 3 ≤ n) {phi : ℝ} (shift : ℝ) (hphi : |phi| < 1) (hp : phi ≠ 0) {i j : ℕ} (hi : i < n) (hj : j < n)
    (hij : j = i ∨ j = (i + 1) % n) {K : Pt}
    (h : (⟨pole0 c0 phi, (c0.radius / |phi|) ^ 2 - c0.radius ^ 2⟩ : Inversion).invert
      (.fin (c0.center + c0.radius • unit_vector_ (((j : ℝ) + shift) * 2 * (π / n)))) = .fin K) : GV.ev (apM c0 n phi shift i) K = 0 := by
  have hR : 0 < c0.radius := hc
  have h0 := seed0 hc hn shift
  have habs : 0 < |phi| := abs_pos.2 hp
  have hd : c0.radius < c0.radius / |phi| := by rw [lt_div_iff₀ habs]; nlinarith
  have hk0 : 0 < (c0.radius / |phi|) ^ 2 - c0.radius ^ 2 := by nlinarith
  unfold apM
  rw [if_neg hp]
  refine GV.ev_invert hk0 ?_ h
  have zero : ∀ c : Circle, c.Valid → lprod (mirror0 c0 n shift i) c = 0 → GV.pr (GV.circ (mirror0 c0 n shift i)) (GV.circ c) = 0 := by
    intro c hcv hl
    have hcr : 0 < c.radius := hcv
    have hmr := h0.posm i
    have := GV.pr_lprod (h0.posm i) hcv
    rw [hl, neg_zero] at this
    rcases mul_eq_zero.1 this with h | h
    · exact h
    · have : 0 < 2 * ((mirror0 c0 n shift i).radius * c.radius) := by positivity
      linarith
  refine GV.ev_contact_inside (h0.posr j) hc (zero _ (h0.posr j) (h0.mr0 i j hi hj hij)) (zero _ hc (h0.m0 i hi)) ?_ (chain0_inside hn shift j) (h0.rlt j)
  unfold unit_vector_
  exact cos_sq_add_sin_sq _

/-- The contact points of neighbours. -/
theorem contact_point {a b : Circle} (ha : a.Valid) (hb : b.Valid) (h : lprod a b = 2 * (a.radius * b.radius)) :
    sqDist a.center b.center = (a.radius + b.radius) ^ 2 ∧
    a.center + (a.radius • (b.center - a.center)) / distance_ a.center b.center =
      a.center + (a.radius / (a.radius + b.radius)) • (b.center - a.center) := by
  have ra : 0 < a.radius := ha
  have rb : 0 < b.radius := hb
  unfold lprod at h
  have e : sqDist a.center b.center = (a.radius + b.radius) ^ 2 := by linarith
  refine ⟨e, ?_⟩
  have hd : distance_ a.center b.center = a.radius + b.radius := by
    have : distance_ a.center b.center = √(sqDist a.center b.center) := by
      unfold distance_ vlength_ sqDist
      simp only [Pt.sub_x, Pt.sub_y]
      congr 1
      ring
    rw [this, e, Real.sqrt_sq (by linarith)]
  rw [hd]
  congr 1
  ext
  · simp only [Pt.div_x, Pt.smul_x]; ring
  · simp only [Pt.div_y, Pt.smul_y]; ring

/-- The inversion of the script. -/
theorem iota_eq {c0 : Circle} {phi : ℝ} (hp : phi ≠ 0) (hphi : |phi| < 1) :
    (c0.radius * √(1 / phi * (1 / phi) - 1)) ^ 2 = (c0.radius / |phi|) ^ 2 - c0.radius ^ 2 := by
  have h1 : 0 ≤ 1 / phi * (1 / phi) - 1 := by
    have : phi ^ 2 < 1 := by rw [← sq_abs]; nlinarith [abs_nonneg phi]
    have e : 1 / phi * (1 / phi) - 1 = (1 - phi ^ 2) / phi ^ 2 := by field_simp
    rw [e]
    exact div_nonneg (by linarith) (sq_nonneg _)
  rw [mul_pow, Real.sq_sqrt h1, div_pow, sq_abs]
  field_simp

theorem apMap_of_invert {c0 : Circle} {phi : ℝ} (hp : phi ≠ 0) (hphi : |phi| < 1) (hc : c0.Valid) {c c' : Circle}
    (hD : 0 < sqDist c.center (pole0 c0 phi) - c.radius ^ 2)
    (h : (⟨pole0 c0 phi, (c0.radius / |phi|) ^ 2 - c0.radius ^ 2⟩ : Inversion).invert_circle c = .ok (.circle c')) : c' = apMap c0 phi c := by
  have hR : 0 < c0.radius := hc
  obtain ⟨D, hDe, hD0, hcen, hrad, -⟩ := invert_circle_explicit h
  dsimp only at hDe hcen hrad
  have habs : 0 < |phi| := abs_pos.2 hp
  have hd : c0.radius < c0.radius / |phi| := by rw [lt_div_iff₀ habs]; nlinarith
  have hkpos : 0 < (c0.radius / |phi|) ^ 2 - c0.radius ^ 2 := by nlinarith
  rw [← hDe] at hD
  rw [abs_of_pos (div_pos hkpos hD)] at hrad
  unfold apMap
  rw [if_neg hp]
  unfold img
  rw [← hDe]
  cases c'
  dsimp only at hcen hrad
  rw [hcen, hrad]

theorem kTriangle_ok {J : Pt} {K : List XPt} {i j : ℕ} {T : Triangle} (h : kTriangle J K i j = .ok T) :
    ∃ P Q : Pt, K[i]? = some (.fin P) ∧ K[j]? = some (.fin Q) ∧ T = ⟨J, P, Q⟩ := by
  unfold kTriangle at h
  split at h
  · rename_i P Q hP hQ
    unfold ThreeTangent.mkTriangleX at h
    split at h
    · injection h with h
      exact ⟨_, _, hP, hQ, h.symm⟩
    · cases h
    · cases h
  · cases h

/-- When `startingCircles` returns circles only, they are the circles of the Steiner chain, and the inversions are in the mirrors of the chain. -/
theorem starting_explicit {c0 : Circle} (hc : c0.Valid) {n : ℕ} (hn : 3 ≤ n) {phi shift : ℝ} (hphi : |phi| < 1) {circles0 : List GCircle}
    {invCircles : List (Option Circle)} {C0 : List Circle} {inversions : List Inversion}
    (h : startingCircles c0 n phi shift = .ok (circles0, invCircles)) (hC0 : circles0.mapM asCircle = .ok C0)
    (hinv : invCircles.mapM onCircle = .ok inversions) :
    phi ≠ 0 ∧ circles0 = (List.range (n + 1)).map (fun j => .circle (apC c0 n phi shift j)) ∧
    inversions = GV.ringMirrors n (apM c0 n phi (shift + 1)) (apW c0 n phi) ∧ ∀ i < n, apM c0 n phi (shift + 1) i 0 ≠ 0 := by
  have hR : 0 < c0.radius := hc
  have hs := ap_ring hc hn (shift + 1) hphi
  have hpn : pyDiv π (n : ℝ) = .ok (π / n) := by
    unfold pyDiv; rw [if_neg (by exact_mod_cast (show n ≠ 0 by omega))]
  unfold startingCircles at h
  simp only [Res.bind_ok, hpn, Except.ok.injEq] at h
  obtain ⟨invphi, hip, sq, hsq, circ0, hcirc, sine, rfl, chain, hchain, inner, hinner, gi, hgi, JC, hJC, T, hT, o, ho, h⟩ := h
  have hp : phi ≠ 0 := by
    intro e
    rw [e] at hip
    unfold pyDiv at hip
    rw [if_pos rfl] at hip
    cases hip
  have eip : invphi = 1 / phi := by
    unfold pyDiv at hip
    rw [if_neg hp] at hip
    injection hip with hip
    exact hip.symm
  subst eip
  have esq : sq = √(1 / phi * (1 / phi) - 1) := by
    unfold pySqrt at hsq
    split_ifs at hsq
    injection hsq with hsq
    exact hsq.symm
  subst esq
  obtain ⟨-, rfl⟩ := mkCircle_ok.1 hcirc
  obtain ⟨-, rfl⟩ := mkCircle_ok.1 hinner
  have eiota : Inversion.on_circle ⟨(⟨c0.radius * (1 / phi), 0⟩ : Pt) + c0.center, c0.radius * √(1 / phi * (1 / phi) - 1)⟩ =
      ⟨pole0 c0 phi, (c0.radius / |phi|) ^ 2 - c0.radius ^ 2⟩ := by
    unfold Inversion.on_circle
    rw [← iota_eq hp hphi]
    rfl
  rw [eiota] at hchain hgi hJC
  rw [Res.pure_ok] at h
  injection h with h1 h2
  have habs : 0 < |phi| := abs_pos.2 hp
  have hd : c0.radius < c0.radius / |phi| := by rw [lt_div_iff₀ habs]; nlinarith
  have hpos : 0 < (c0.radius / |phi| - c0.radius) ^ 2 := pow_pos (by linarith) 2
  obtain ⟨p1, p2⟩ := pole0_power hc hn shift hphi hp
  have ang : ∀ i : ℕ, ((i : ℝ) + shift) * 2 * π / n = ((i : ℝ) + shift) * 2 * (π / n) := fun i => by ring
  -- the circles
  obtain ⟨hlen, hget⟩ := mapM_get _ hchain
  rw [List.length_range] at hlen
  obtain ⟨hClen, hCget⟩ := mapM_get _ hC0
  have hcirc0 : ∀ j ≤ n, circles0[j]? = some (.circle (apC c0 n phi shift j)) := by
    intro j hj
    have hex : ∃ c g, circles0[j]? = some g ∧ (⟨pole0 c0 phi, (c0.radius / |phi|) ^ 2 - c0.radius ^ 2⟩ : Inversion).invert_circle c = .ok g ∧
        0 < sqDist c.center (pole0 c0 phi) - c.radius ^ 2 ∧ apMap c0 phi c = apC c0 n phi shift j := by
      unfold apC apCircle
      rcases Nat.lt_or_ge j n with hjn | hjn
      · obtain ⟨g, hg, e⟩ := hget j j (List.getElem?_range hjn)
        rw [Res.bind_ok] at e
        obtain ⟨c, hcc, e⟩ := e
        obtain ⟨-, rfl⟩ := mkCircle_ok.1 hcc
        rw [ang] at e
        refine ⟨chain0 c0 n shift j, g, ?_, e, lt_of_lt_of_le hpos (p1 j), by rw [if_pos hjn]⟩
        rw [← h1, List.getElem?_append_left (by rw [hlen]; exact hjn), hg]
      · have : j = n := by omega
        subst this
        refine ⟨inner0 c0 j, gi, ?_, hgi, lt_of_lt_of_le hpos p2, by rw [if_neg (lt_irrefl _)]⟩
        rw [← h1, List.getElem?_append_right (by omega), hlen, Nat.sub_self]
        rfl
    obtain ⟨c, g, e1, e2, e3, e4⟩ := hex
    obtain ⟨c', -, e5⟩ := hCget j g e1
    rw [asCircle_ok] at e5
    subst e5
    rw [e1, ← e4, apMap_of_invert hp hphi hc e3 e2]
  have hc0len : circles0.length = n + 1 := by rw [← h1, List.length_append, hlen]; rfl
  rw [h1] at hJC
  -- the contact points
  obtain ⟨hJlen, hJget⟩ := mapM_get _ hJC
  rw [List.length_range] at hJlen
  have hcont : ∀ i < n, ∃ J o', JC[i]? = some (J, o') ∧ GV.ev (apW c0 n phi) J = 0 ∧
      ∃ P Q : Pt, (⟨J, P, Q⟩ : Triangle).circumcircle = .ok o' ∧ GV.ev (apM c0 n phi (shift + 1) i) J = 0 ∧
        GV.ev (apM c0 n phi (shift + 1) i) P = 0 ∧ GV.ev (apM c0 n phi (shift + 1) i) Q = 0 := by
    intro i hi
    obtain ⟨p, e1, e2⟩ := hJget i i (List.getElem?_range hi)
    have m1 : (i + 1) % n < n := Nat.mod_lt _ (by omega)
    have m2 : (i + 2) % n < n := Nat.mod_lt _ (by omega)
    have m2' : ((i + 1) % n + 1) % n = (i + 2) % n := by rw [Nat.mod_add_mod]
    unfold contact at e2
    simp only [Res.bind_ok] at e2
    obtain ⟨a, ha, b, hb, e2⟩ := e2
    have ha' := nth_ok ha
    have hb' := nth_ok hb
    rw [hcirc0 _ m2.le] at ha'
    rw [hcirc0 _ m1.le] at hb'
    have ea : a = apMap c0 phi (chain0 c0 n (shift + 1) ((i + 1) % n)) := by
      injection ha' with ha'
      injection ha' with ha'
      rw [← ha']
      unfold apC apCircle
      rw [if_pos m2, ← chain0_succ c0 shift m1, m2']
    have eb : b = apMap c0 phi (chain0 c0 n (shift + 1) i) := by
      injection hb' with hb'
      injection hb' with hb'
      rw [← hb']
      unfold apC apCircle
      rw [if_pos m1, ← chain0_succ c0 shift hi]
    split_ifs at e2 with hdist
    simp only [Res.bind_ok, Res.pure_ok] at e2
    obtain ⟨T', hT', o', ho', rfl⟩ := e2
    obtain ⟨P, Q, hP, hQ, rfl⟩ := kTriangle_ok hT'
    have va : a.Valid := by rw [ea]; exact hs.vr _
    have vb : b.Valid := by rw [eb]; exact hs.vr _
    have htan : lprod a b = 2 * (a.radius * b.radius) := by
      have := hs.next i hi
      rw [← ea, ← eb] at this
      rw [lprod_comm, this]
      ring
    obtain ⟨t1, t2⟩ := contact_point va vb htan
    obtain ⟨o1, o2⟩ := hs.orth hi
    have wa : GV.pr (apW c0 n phi) (GV.circ a) = 0 := by rw [ea, GV.pr_comm]; exact hs.ring.wr _ m1
    have wb : GV.pr (apW c0 n phi) (GV.circ b) = 0 := by rw [eb, GV.pr_comm]; exact hs.ring.wr _ hi
    have ma : GV.pr (apM c0 n phi (shift + 1) i) (GV.circ a) = 0 := by rw [ea]; exact o2 _ m1 (Or.inr rfl)
    have mb : GV.pr (apM c0 n phi (shift + 1) i) (GV.circ b) = 0 := by rw [eb]; exact o2 _ hi (Or.inl rfl)
    refine ⟨_, o', e1, ?_, P, Q, ho', ?_, ?_, ?_⟩
    · rw [t2]; exact GV.ev_contact va vb wa wb t1
    · rw [t2]; exact GV.ev_contact va vb ma mb t1
    · rw [List.getElem?_map, List.getElem?_range m1] at hP
      simp only [Option.map_some, Option.some.injEq] at hP
      refine ev_K hc hn (shift + 1) hphi hp hi hi (Or.inl rfl) ?_
      rw [← unit_succ shift hi, ← ang]
      exact hP
    · rw [List.getElem?_map, List.getElem?_range m2] at hQ
      simp only [Option.map_some, Option.some.injEq] at hQ
      refine ev_K hc hn (shift + 1) hphi hp hi m1 (Or.inr rfl) ?_
      rw [← unit_succ shift m1, m2', ← ang]
      exact hQ
  obtain ⟨hIlen, hIget⟩ := mapM_get _ hinv
  have hinvs : ∀ i < n, inversions[i]? = some (GV.inv (apM c0 n phi (shift + 1) i)) ∧ apM c0 n phi (shift + 1) i 0 ≠ 0 := by
    intro i hi
    obtain ⟨J, o', e1, -, P, Q, e2, e3, e4, e5⟩ := hcont i hi
    obtain ⟨iota, e6, e7⟩ := hIget i o' (by
      rw [← h2, List.getElem?_append_left (by rw [List.length_map, hJlen]; exact hi), List.getElem?_map, e1]
      rfl)
    obtain ⟨c, rfl, rfl⟩ := onCircle_ok.1 e7
    obtain ⟨f1, f2⟩ := GV.circum_ev (hs.ring.um i hi) e2 e3 e4 e5
    exact ⟨by rw [e6, f2], f1⟩
  have hlast : inversions[n]? = some (GV.inv (apW c0 n phi)) := by
    have hJ3 : ∃ J0 J1 J2 rest, JC.map Prod.fst = J0 :: J1 :: J2 :: rest ∧ T = ⟨J0, J1, J2⟩ := by
      unfold jTriangle at hT
      split at hT
      · rename_i J0 J1 J2 rest e
        injection hT with hT
        exact ⟨J0, J1, J2, rest, e, hT.symm⟩
      · cases hT
    obtain ⟨J0, J1, J2, rest, eJ, rfl⟩ := hJ3
    have hev : ∀ i < n, ∀ J, (JC.map Prod.fst)[i]? = some J → GV.ev (apW c0 n phi) J = 0 := by
      intro i hi J hJ
      obtain ⟨J', o', e1, e2, -⟩ := hcont i hi
      rw [List.getElem?_map, e1] at hJ
      injection hJ with hJ
      rw [← hJ]
      exact e2
    obtain ⟨iota, e6, e7⟩ := hIget n o (by
      rw [← h2, List.getElem?_append_right (by rw [List.length_map, hJlen]), List.length_map, hJlen, Nat.sub_self]
      rfl)
    obtain ⟨c, rfl, rfl⟩ := onCircle_ok.1 e7
    have := GV.circum_ev hs.ring.uw ho (hev 0 (by omega) _ (by rw [eJ]; rfl)) (hev 1 (by omega) _ (by rw [eJ]; rfl)) (hev 2 (by omega) _ (by rw [eJ]; rfl))
    rw [e6, this.2]
  refine ⟨hp, ?_, ?_, fun i hi => (hinvs i hi).2⟩
  · apply List.ext_getElem?
    intro j
    rcases Nat.lt_or_ge j (n + 1) with hj | hj
    · rw [hcirc0 j (by omega), List.getElem?_map, List.getElem?_range hj]
      rfl
    · rw [List.getElem?_eq_none (by omega), List.getElem?_eq_none (by simpa using hj)]
  · apply List.ext_getElem?
    intro j
    rcases Nat.lt_or_ge j (n + 1) with hj | hj
    · rw [GV.ringMirrors_get (by omega)]
      unfold GV.ringM
      rcases Nat.lt_or_ge j n with hjn | hjn
      · rw [(hinvs j hjn).1, if_pos hjn]
      · have : j = n := by omega
        subst this
        rw [hlast, if_neg (lt_irrefl _)]
    · rw [List.getElem?_eq_none, List.getElem?_eq_none (by rw [GV.ringMirrors_length]; exact hj)]
      rw [hIlen, ← h2, List.length_append, List.length_map, hJlen]
      exact hj

/-! ### The loops -/

theorem childrenOf_eq (g : GCircle) (k : ℕ) (cs : List Circle) : ∀ s, childrenOf g k ((cs.map some).zipIdx s) =
    Gasket.childrenOf g k ((cs.map Inversion.on_circle).zipIdx s) := by
  induction cs with
  | nil => intro s; rfl
  | cons c cs ih =>
    intro s
    rw [List.map_cons, List.map_cons, List.zipIdx_cons, List.zipIdx_cons]
    unfold childrenOf Gasket.childrenOf
    rw [ih (s + 1)]
    by_cases h : k = s
    · rw [if_neg (by simpa using h), if_neg (by simpa using h.symm)]
    · rw [if_pos h, if_pos (fun e => h e.symm)]
      rfl

theorem children_eq (cs : List Circle) (gs : List (GCircle × ℕ)) : children (cs.map some) gs = Gasket.children (cs.map Inversion.on_circle) gs := by
  induction gs with
  | nil => rfl
  | cons p gs ih =>
    obtain ⟨g, k⟩ := p
    unfold children Gasket.children
    rw [childrenOf_eq, ih]

theorem generation_eq (circles0 : List GCircle) (cs : List Circle) {C1 : List (GCircle × ℕ)} (h : circles1 circles0 (cs.map some) = .ok C1) (d : ℕ) :
    generation circles0 (cs.map some) d = Gasket.generation (cs.map Inversion.on_circle) C1 d := by
  induction d with
  | zero => exact h
  | succ d ih =>
    unfold generation Gasket.generation
    rw [ih]
    congr 1
    funext g
    exact children_eq cs g

theorem circles1Of_eq (c : Circle) (i : ℕ) {f : ℕ → GCircle} {f' : ℕ → GCircle} {l : List ℕ}
    (h : ∀ j ∈ l, invertG (Inversion.on_circle c) (f j) = .ok (f' j)) : circles1Of (some c) i (l.map f) = .ok (l.map fun j => (f' j, i)) := by
  induction l with
  | nil => rfl
  | cons j l ih =>
    rw [List.map_cons]
    unfold circles1Of onCircle
    rw [Res.ok_bind, h j (by simp), Res.ok_bind, ih (fun k hk => h k (List.mem_cons_of_mem _ hk)), Res.ok_bind]
    rfl

/-- The indices of the first children. -/
def kIndices (n i : ℕ) : List ℕ := (List.range (n + 1)).filter fun j => j ≠ (i + 1) % n ∧ j ≠ (i + 2) % n

theorem kept_eq (f : ℕ → GCircle) (n i : ℕ) : kept ((List.range (n + 1)).map f) n i = (kIndices n i).map f := by
  unfold kept kIndices
  rw [zipIdx_range, List.filter_map, List.map_map]
  rfl

theorem mem_kIndices {n i j : ℕ} : j ∈ kIndices n i ↔ j ≤ n ∧ (j ≠ (i + 1) % n ∧ j ≠ (i + 2) % n) := by
  unfold kIndices
  rw [List.mem_filter, List.mem_range]
  simp only [decide_eq_true_eq]
  omega

theorem rho_inj {n j k : ℕ} (hj : j ≤ n) (hk : k ≤ n) (h : rho n j = rho n k) : j = k := by
  rcases Nat.lt_or_ge j n with h1 | h1
  · rcases Nat.lt_or_ge k n with h2 | h2
    · rw [← (rho_lt h1).2, ← (rho_lt h2).2, h]
    · have e2 : rho n k = n := by unfold rho; rw [if_neg (by omega)]
      have := (rho_lt h1).1
      omega
  · have e1 : rho n j = n := by unfold rho; rw [if_neg (by omega)]
    rcases Nat.lt_or_ge k n with h2 | h2
    · have := (rho_lt h2).1
      omega
    · omega

theorem rho_le {n j : ℕ} (hj : j ≤ n) : rho n j ≤ n := by
  rcases Nat.lt_or_ge j n with h | h
  · exact (rho_lt h).1.le
  · unfold rho; rw [if_neg (by omega)]

/-- Which circles are kept, seen in the turned chain. -/
theorem rho_kept {n i j : ℕ} (hi : i < n) (hj : j ≤ n) :
    (j ≠ (i + 1) % n ∧ j ≠ (i + 2) % n) ↔ (rho n j ≠ i ∧ rho n j ≠ (i + 1) % n) := by
  have m1 : (i + 1) % n < n := Nat.mod_lt _ (by omega)
  have m2 : (i + 2) % n < n := Nat.mod_lt _ (by omega)
  have succ_inj : ∀ a b, a < n → b < n → (a + 1) % n = (b + 1) % n → a = b := by
    intro a b ha hb e
    have e' : a + 1 ≡ b + 1 [MOD n] := e
    have := Nat.ModEq.add_right_cancel' 1 e'
    unfold Nat.ModEq at this
    rwa [Nat.mod_eq_of_lt ha, Nat.mod_eq_of_lt hb] at this
  have r1 : rho n ((i + 1) % n) = i := succ_inj _ _ (rho_lt m1).1 hi (rho_lt m1).2
  have r2 : rho n ((i + 2) % n) = (i + 1) % n := succ_inj _ _ (rho_lt m2).1 m1 (by rw [(rho_lt m2).2, Nat.mod_add_mod])
  constructor
  · rintro ⟨h1, h2⟩
    exact ⟨fun e => h1 (rho_inj hj m1.le (by rw [e, r1])), fun e => h2 (rho_inj hj m2.le (by rw [e, r2]))⟩
  · rintro ⟨h1, h2⟩
    exact ⟨fun e => h1 (by rw [e, r1]), fun e => h2 (by rw [e, r2])⟩

theorem length_kIndices {n i : ℕ} (hn : 3 ≤ n) (hi : i < n) : (kIndices n i).length = n - 1 := by
  have e : (kIndices n i).length = (apIndices n ((i + 1) % n)).length := by
    unfold kIndices apIndices
    rw [Nat.mod_add_mod]
  rw [e, length_apIndices hn (Nat.mod_lt _ (by omega))]

/-- Every index of the turned chain is taken. -/
theorem rho_surj {n k : ℕ} (hk : k ≤ n) : ∃ j ≤ n, rho n j = k := by
  rcases Nat.lt_or_ge k n with h | h
  · refine ⟨(k + 1) % n, (Nat.mod_lt _ (by omega)).le, ?_⟩
    have m1 : (k + 1) % n < n := Nat.mod_lt _ (by omega)
    have e := (rho_lt m1).2
    have e' : rho n ((k + 1) % n) + 1 ≡ k + 1 [MOD n] := e
    have := Nat.ModEq.add_right_cancel' 1 e'
    unfold Nat.ModEq at this
    rwa [Nat.mod_eq_of_lt h, Nat.mod_eq_of_lt (rho_lt m1).1] at this
  · exact ⟨n, le_rfl, by unfold rho; rw [if_neg (lt_irrefl _)]; omega⟩

/-- The first children. -/
theorem circles1_explicit {c0 : Circle} {n : ℕ} (hn : 3 ≤ n) {phi shift : ℝ} (hs : ApRing c0 n phi (shift + 1)) (hm : ∀ i < n, apM c0 n phi (shift + 1) i 0 ≠ 0)
    (far : ∀ i < n, GV.FarFrom (-GV.circ c0) (apM c0 n phi (shift + 1) i)) {cs : List Circle}
    (hcs : cs.map Inversion.on_circle = GV.ringMirrors n (apM c0 n phi (shift + 1)) (apW c0 n phi)) :
    ∃ C : List (Circle × ℕ), circles1 ((List.range (n + 1)).map fun j => .circle (apC c0 n phi shift j)) (cs.map some) = .ok (C.map pairG) ∧
      GV.FirstGen n (GV.circ (apMap c0 phi (inner0 c0 n))) (fun i => GV.circ (apMap c0 phi (chain0 c0 n (shift + 1) i))) (apM c0 n phi (shift + 1)) C ∧
      C.length = n * (n - 1) := by
  have hlen : cs.length = n + 1 := by
    have := congrArg List.length hcs
    rwa [List.length_map, GV.ringMirrors_length] at this
  have hgetc : ∀ i < n, ∃ c, cs[i]? = some c ∧ Inversion.on_circle c = GV.inv (apM c0 n phi (shift + 1) i) := by
    intro i hi
    have e := congrArg (fun l => l[i]?) hcs
    rw [GV.ringMirrors_get hi.le, List.getElem?_map] at e
    unfold GV.ringM at e
    rw [if_pos hi] at e
    cases hci : cs[i]? with
    | none => rw [hci] at e; cases e
    | some c => rw [hci] at e; injection e with e; exact ⟨c, rfl, e⟩
  have hex : ∀ i j, ∃ c' : Circle, i < n → j ∈ kIndices n i → (GV.inv (apM c0 n phi (shift + 1) i)).invert_circle (apC c0 n phi shift j) = .ok (.circle c') ∧
      c'.Valid ∧ disc c' = GV.region (GV.reflect (apM c0 n phi (shift + 1) i)
        (GV.ringV n (GV.circ (apMap c0 phi (inner0 c0 n))) (fun i => GV.circ (apMap c0 phi (chain0 c0 n (shift + 1) i))) (rho n j))) := by
    intro i j
    by_cases hi : i < n
    · by_cases hij : j ∈ kIndices n i
      · obtain ⟨hj, hk⟩ := mem_kIndices.1 hij
        obtain ⟨c', h'⟩ := GV.ring_invert hs.ring hm far hi ((rho_kept hi hj).1 hk) (hs.valid (rho n j)) (ringV_ap (rho n j))
        rw [apC_rho c0 phi shift hj] at h'
        exact ⟨c', fun _ _ => h'⟩
      · exact ⟨c0, fun _ h => absurd h hij⟩
    · exact ⟨c0, fun h => absurd h hi⟩
  choose c' hc' using hex
  refine ⟨(List.range n).flatMap fun i => (kIndices n i).map fun j => (c' i j, i), ?_, ?_, ?_⟩
  · unfold circles1
    rw [List.length_map, List.length_range, Nat.add_sub_cancel]
    dsimp only
    have htake : (cs.map some).take n = (List.range n).map fun i => cs[i]? := by
      apply List.ext_getElem?
      intro i
      rcases Nat.lt_or_ge i n with hi | hi
      · rw [List.getElem?_take, if_pos hi, List.getElem?_map, List.getElem?_map, List.getElem?_range hi]
        obtain ⟨c, e, -⟩ := hgetc i hi
        rw [e]
        simp [e]
      · rw [List.getElem?_take, if_neg (by omega), List.getElem?_eq_none (by simpa using hi)]
    rw [htake, zipIdx_range, mapM_ok _ (fun p : Option Circle × ℕ => (kIndices n p.2).map fun j => pairG (c' p.2 j, p.2)), Res.ok_bind, Res.pure_ok]
    · rw [List.map_map, List.map_flatMap, List.flatMap_def]
      congr 1
      apply List.map_congr_left
      intro i _
      simp only [Function.comp_apply, List.map_map]
      rfl
    · intro p hp
      obtain ⟨i, hi, rfl⟩ := List.mem_map.1 hp
      rw [List.mem_range] at hi
      obtain ⟨c, e1, e2⟩ := hgetc i hi
      dsimp only
      rw [e1, kept_eq, circles1Of_eq c i (f' := fun j => .circle (c' i j))]
      · rfl
      · intro j hj
        rw [e2]
        exact (hc' i j hi hj).1
  · refine GV.first_gen (ρ := rho n) hs.ring hm ?_ ?_ ?_
    · intro i hi
      refine (List.nodup_range.filter _).map_on ?_
      intro a ha b hb e
      exact rho_inj (mem_kIndices.1 ha).1 (mem_kIndices.1 hb).1 e
    · intro i hi k
      rw [List.mem_map]
      constructor
      · rintro ⟨j, hj, rfl⟩
        obtain ⟨h1, h2⟩ := mem_kIndices.1 hj
        exact ⟨rho_le h1, (rho_kept hi h1).1 h2⟩
      · rintro ⟨h1, h2⟩
        obtain ⟨j, hj, rfl⟩ := rho_surj h1
        exact ⟨j, mem_kIndices.2 ⟨hj, (rho_kept hi hj).2 h2⟩, rfl⟩
    · intro i hi j hj
      exact (hc' i j hi hj).2
  · rw [List.length_flatMap]
    have : (List.range n).map (fun i => ((kIndices n i).map fun j => (c' i j, i)).length) = (List.range n).map fun _ => n - 1 := by
      apply List.map_congr_left
      intro i hi
      rw [List.length_map, length_kIndices hn (List.mem_range.1 hi)]
    rw [this]
    simp

end CircularGasket

open CircularGasket

/-- C107, partial: the circular gaskets of `triangularCircularGasket.py`, for any outer circle, any `n ≥ 3`, any shift and any `phi` between -1 and 1.
When `startingCircles` returns circles only and the inversions in the mirrors exist and have no tiny power, then the loops never fail and never meet a line, at
any depth.  Generation `d` has `n (n - 1) n^d` circles.  All the circles are inside the outer circle.  No two circles overlap.  Every circle
touches three other regions of the drawing, at one point each.
Missing from the full claim: powers below the tolerance of `invert_circle` (false there: `C107_small_counterexample`), and mirrors that are lines
(`C107_start_iff`). -/
theorem C107_gasket_partial (c0 : Circle) (hc : c0.Valid) (n : ℕ) (hn : 3 ≤ n) (phi shift : ℝ) (hphi : |phi| < 1) (circles0 : List GCircle)
    (invCircles : List (Option Circle)) (C0 : List Circle) (inversions : List Inversion)
    (h : startingCircles c0 n phi shift = .ok (circles0, invCircles)) (hC0 : circles0.mapM asCircle = .ok C0)
    (hinv : invCircles.mapM onCircle = .ok inversions) (hpow : ∀ iota ∈ inversions, 1 / 2 ^ 26 ≤ iota.power)
    (hgap : cos (π / n) ≤ |phi| * (1 + sin (π / n)) → ∀ iota ∈ inversions.take n, c0.radius + 1 / 2 ^ 13 ≤ Spec.dist iota.pole c0.center) :
    C0.length = n + 1 ∧ inversions.length = n + 1 ∧ (∀ c ∈ C0, c.Valid ∧ (outside c0).Apart (disc c)) ∧
    C0.Pairwise (fun a b => (disc a).Apart (disc b)) ∧
    ∃ L : ℕ → List (Circle × ℕ), ∀ d, CircularGasket.generation circles0 invCircles d = .ok ((L d).map pairG) ∧
      (L d).length = n * (n - 1) * n ^ d ∧
      (∀ p ∈ L d, p.1.Valid ∧ (outside c0).Apart (disc p.1) ∧ ∀ c ∈ C0, (disc c).Apart (disc p.1)) ∧
      (L d).Pairwise (fun p q => (disc p.1).Apart (disc q.1)) ∧
      (∀ e < d, ∀ p ∈ L d, ∀ q ∈ L e, (disc p.1).Apart (disc q.1)) ∧
      ∀ p ∈ L d, ∃ q : Fin 3 → Region, Function.Injective q ∧ ∀ i, (disc p.1).Touches (q i) ∧
        (q i = outside c0 ∨ (∃ c ∈ C0, q i = disc c) ∨ ∃ e ≤ d, ∃ p' ∈ L e, q i = disc p'.1) := by
  have hs := ap_ring hc hn (shift + 1) hphi
  obtain ⟨hp, e0, einv, hm⟩ := starting_explicit hc hn hphi h hC0 hinv
  have htake : (GV.ringMirrors n (apM c0 n phi (shift + 1)) (apW c0 n phi)).take n = (List.range n).map fun i => GV.inv (apM c0 n phi (shift + 1) i) := by
    unfold GV.ringMirrors
    rw [List.take_append_of_le_length (by simp), List.take_of_length_le (by simp)]
  rw [einv] at hpow hgap
  obtain ⟨far, farw⟩ := hs.far hc hpow (fun h1 i hi => hgap h1 _ (by rw [htake]; exact List.mem_map.2 ⟨i, List.mem_range.2 hi, rfl⟩))
  obtain ⟨cs, ecs, eon⟩ : ∃ cs : List Circle, invCircles = cs.map some ∧ inversions = cs.map Inversion.on_circle := by
    clear h einv hpow hgap
    induction invCircles generalizing inversions with
    | nil =>
      rw [List.mapM_nil, Res.pure_ok] at hinv
      exact ⟨[], rfl, hinv.symm⟩
    | cons o l ih =>
      rw [List.mapM_cons] at hinv
      simp only [Res.bind_ok, Res.pure_ok] at hinv
      obtain ⟨iota, h1, l', h2, rfl⟩ := hinv
      obtain ⟨cs, e1, e2⟩ := ih l' h2
      obtain ⟨c, rfl, rfl⟩ := onCircle_ok.1 h1
      exact ⟨c :: cs, by rw [e1]; rfl, by rw [e2]; rfl⟩
  obtain ⟨C, hfirst, hC, hlen⟩ := circles1_explicit hn hs hm far (cs := cs) (by rw [← eon, einv])
  obtain ⟨L, hL⟩ := GV.ring_packing hs.ring hn hm (hs.last hc).1.ne' hC far farw
  have eC0 : C0 = (List.range (n + 1)).map (apC c0 n phi shift) := by
    rw [e0, mapM_ok _ (fun g : GCircle => match g with | .circle c => c | .line _ => c0)] at hC0
    · injection hC0 with hC0
      rw [← hC0, List.map_map]
      rfl
    · intro g hg
      obtain ⟨j, -, rfl⟩ := List.mem_map.1 hg
      rfl
  have hgen : ∀ d, CircularGasket.generation circles0 invCircles d =
      Gasket.generation (GV.ringMirrors n (apM c0 n phi (shift + 1)) (apW c0 n phi)) (C.map pairG) d := by
    intro d
    rw [← einv, eon, ecs]
    rw [← e0] at hfirst
    exact generation_eq _ _ hfirst d
  have hmem : ∀ c ∈ C0, ∃ j ≤ n, c = apC c0 n phi (shift + 1) j := by
    intro c hcm
    rw [eC0, List.mem_map] at hcm
    obtain ⟨j, hj, rfl⟩ := hcm
    rw [List.mem_range] at hj
    exact ⟨rho n j, rho_le (by omega), (apC_rho c0 phi shift (by omega)).symm⟩
  have hmem' : ∀ j ≤ n, apC c0 n phi (shift + 1) j ∈ C0 := by
    intro k hk
    obtain ⟨j, hj, rfl⟩ := rho_surj hk
    rw [eC0, List.mem_map]
    exact ⟨j, List.mem_range.2 (by omega), (apC_rho c0 phi shift hj).symm⟩
  have eO : GV.region (-GV.circ c0) = outside c0 := GV.region_neg_circ hc
  have eV : ∀ j, GV.region (GV.ringV n (GV.circ (apMap c0 phi (inner0 c0 n))) (fun i => GV.circ (apMap c0 phi (chain0 c0 n (shift + 1) i))) j) =
      disc (apC c0 n phi (shift + 1) j) := fun j => by rw [ringV_ap, GV.region_circ (hs.valid j)]
  refine ⟨by rw [eC0]; simp, by rw [einv]; exact GV.ringMirrors_length, ?_, ?_, L, ?_⟩
  · intro c hcm
    obtain ⟨j, hj, rfl⟩ := hmem c hcm
    refine ⟨hs.valid j, ?_⟩
    rw [← eO, ← eV]
    exact (hs.ring.opp_outer (j := j)).symm.apart
  · rw [eC0, List.pairwise_map]
    refine (List.nodup_range (n := n + 1)).imp_of_mem ?_
    intro a b ha hb hab
    rw [List.mem_range] at ha hb
    rw [← apC_rho c0 phi shift (show a ≤ n by omega), ← apC_rho c0 phi shift (show b ≤ n by omega), ← eV, ← eV]
    exact (hs.ring.opp_regions (rho_le (by omega)) (rho_le (by omega)) fun e => hab (rho_inj (by omega) (by omega) e)).apart
  · intro d
    obtain ⟨g1, g2, g3, g4, g5, g6⟩ := hL d
    refine ⟨by rw [hgen d, g1], by rw [g2, hlen], ?_, g4, g5, ?_⟩
    · intro p hp
      obtain ⟨a1, a2, a3⟩ := g3 p hp
      refine ⟨a1, by rw [← eO]; exact a2, ?_⟩
      intro c hcm
      obtain ⟨j, hj, rfl⟩ := hmem c hcm
      rw [← eV]
      exact a3 j hj
    · intro p hp
      obtain ⟨q, hq1, hq2⟩ := g6 p hp
      refine ⟨q, hq1, ?_⟩
      intro i
      refine ⟨(hq2 i).1, ?_⟩
      rcases (hq2 i).2 with h1 | ⟨j, hj, h1⟩ | h1
      · exact Or.inl (by rw [h1, eO])
      · exact Or.inr (Or.inl ⟨_, hmem' j hj, by rw [h1, eV]⟩)
      · exact Or.inr (Or.inr h1)

/-! ### When the starting circles exist -/

namespace CircularGasket

theorem gap_succ {n : ℕ} (phi shift : ℝ) {i : ℕ} (hi : i < n) : apGap n phi shift ((i + 1) % n) = apGap n phi (shift + 1) i := by
  have h := congrArg Pt.x (unit_succ (n := n) (shift + 1 / 2) hi)
  unfold unit_vector_ at h
  dsimp only at h
  unfold apGap
  rw [show ((((i + 1) % n : ℕ) : ℝ) + shift) * 2 * (π / n) + π / n = ((((i + 1) % n : ℕ) : ℝ) + (shift + 1 / 2)) * 2 * (π / n) by ring,
    show ((i : ℝ) + (shift + 1)) * 2 * (π / n) + π / n = ((i : ℝ) + (shift + 1 / 2 + 1)) * 2 * (π / n) by ring, h]

theorem apM_ne {c0 : Circle} (hc : c0.Valid) {n : ℕ} (hn : 3 ≤ n) {phi : ℝ} (shift : ℝ) (hphi : |phi| < 1) :
    (∀ i < n, apM c0 n phi (shift + 1) i 0 ≠ 0) ↔
      ∀ i < n, 2 * phi * cos (((i : ℝ) + shift) * 2 * (π / n) + π / n) ≠ (1 + phi ^ 2) * cos (π / n) := by
  have hR : 0 < c0.radius := hc
  obtain ⟨hs0, hs1⟩ := sine_bounds hn
  have hsq : phi ^ 2 < 1 := by rw [← sq_abs]; nlinarith [abs_nonneg phi]
  have h1 : (1 - phi ^ 2) * c0.radius * sin (π / n) ≠ 0 := (mul_pos (mul_pos (by linarith) hR) hs0).ne'
  have hM : ∀ i, apM c0 n phi (shift + 1) i 0 ≠ 0 ↔ apGap n phi (shift + 1) i ≠ 0 := by
    intro i
    rw [apM_zero hc hn (shift + 1) hphi i, Ne, div_eq_zero_iff, not_or]
    exact ⟨fun h => h.1, fun h => ⟨h, h1⟩⟩
  have hG : ∀ i, apGap n phi shift i ≠ 0 ↔ 2 * phi * cos (((i : ℝ) + shift) * 2 * (π / n) + π / n) ≠ (1 + phi ^ 2) * cos (π / n) := by
    intro i
    unfold apGap
    rw [Ne, sub_eq_zero]
    exact ⟨fun h e => h e.symm, fun h e => h e.symm⟩
  constructor
  · intro h i hi
    rw [← hG]
    have := (hM _).1 (h (rho n i) (rho_lt hi).1)
    rwa [← gap_succ phi shift (rho_lt hi).1, (rho_lt hi).2] at this
  · intro h i hi
    rw [hM, ← gap_succ phi shift hi, hG]
    exact h _ (Nat.mod_lt _ (by omega))

/-- The points `K` are points of the outer circle, all different for neighbours. -/
theorem K_ok {c0 : Circle} (hc : c0.Valid) {n : ℕ} (hn : 3 ≤ n) {phi : ℝ} (shift : ℝ) (hphi : |phi| < 1) (hp : phi ≠ 0)
    (hsize : 1 / 1000 + (|c0.center.x| + |c0.center.y| + c0.radius) / 10000 ≤ (1 - |phi|) * c0.radius) (j : ℕ) :
    ∃ K : Pt, (⟨pole0 c0 phi, (c0.radius / |phi|) ^ 2 - c0.radius ^ 2⟩ : Inversion).invert
      (.fin (c0.center + c0.radius • unit_vector_ (((j : ℝ) + shift) * 2 * (π / n)))) = .fin K ∧ sqDist K c0.center = c0.radius ^ 2 := by
  have hR : 0 < c0.radius := hc
  have habs : 0 < |phi| := abs_pos.2 hp
  have hd : (1 - |phi|) * c0.radius ≤ c0.radius / |phi| - c0.radius := by
    rw [le_sub_iff_add_le, le_div_iff₀ habs]; nlinarith [mul_nonneg hR.le (sq_nonneg (1 - |phi|))]
  have hd' : c0.radius < c0.radius / |phi| := by rw [lt_div_iff₀ habs]; nlinarith
  have hk0 : 0 < (c0.radius / |phi|) ^ 2 - c0.radius ^ 2 := by nlinarith
  obtain ⟨θ, hθ⟩ : ∃ θ, θ = ((j : ℝ) + shift) * 2 * (π / n) := ⟨_, rfl⟩
  rw [← hθ]
  have hna : ¬ allclose (pole0 c0 phi) (c0.center + c0.radius • unit_vector_ θ) := by
    rintro ⟨k1, -⟩
    unfold npClose pole0 unit_vector_ at k1
    simp only [Pt.add_x, Pt.smul_x] at k1
    have c1 := cos_le_one θ
    have c2 := neg_one_le_cos θ
    have habx := abs_nonneg c0.center.x
    have haby := abs_nonneg c0.center.y
    have hRc : |c0.radius * cos θ| ≤ c0.radius := by
      rw [abs_mul, abs_of_pos hR]
      have := abs_le.2 ⟨c2, c1⟩
      nlinarith
    have b1 : |c0.center.x + c0.radius * cos θ| ≤ |c0.center.x| + c0.radius := (abs_add_le _ _).trans (by linarith)
    have b2 : c0.radius / |phi| - c0.radius ≤ |c0.radius * (1 / phi) + c0.center.x - (c0.center.x + c0.radius * cos θ)| := by
      have e : c0.radius * (1 / phi) + c0.center.x - (c0.center.x + c0.radius * cos θ) = c0.radius / phi - c0.radius * cos θ := by ring
      rw [e]
      have := abs_sub_abs_le_abs_sub (c0.radius / phi) (c0.radius * cos θ)
      rw [abs_div, abs_of_pos hR] at this
      linarith
    have b3 := b2.trans k1
    norm_num at b3 hsize
    linarith
  refine ⟨_, by unfold Inversion.invert; dsimp only; rw [if_neg hna], ?_⟩
  obtain ⟨K, hK⟩ : ∃ K, K = pole0 c0 phi + (((c0.radius / |phi|) ^ 2 - c0.radius ^ 2) / dot1_ (c0.center + c0.radius • unit_vector_ θ - pole0 c0 phi)) •
    (c0.center + c0.radius • unit_vector_ θ - pole0 c0 phi) := ⟨_, rfl⟩
  rw [← hK]
  have hinv : (⟨pole0 c0 phi, (c0.radius / |phi|) ^ 2 - c0.radius ^ 2⟩ : Inversion).invert (.fin (c0.center + c0.radius • unit_vector_ θ)) = .fin K := by
    unfold Inversion.invert; dsimp only; rw [if_neg hna, hK]
  have ev0 : GV.ev (GV.circ c0) (c0.center + c0.radius • unit_vector_ θ) = 0 := by
    have := GV.ev_circ hc (c0.center + c0.radius • unit_vector_ θ)
    have e : sqDist (c0.center + c0.radius • unit_vector_ θ) c0.center - c0.radius ^ 2 = 0 := by
      unfold sqDist unit_vector_
      simp only [Pt.add_x, Pt.smul_x, Pt.add_y, Pt.smul_y]
      have := sin_sq_add_cos_sq θ
      linear_combination c0.radius ^ 2 * this
    rw [e] at this
    rcases mul_eq_zero.1 this with h | h
    · exact h
    · linarith
  have := GV.ev_invert hk0 ev0 hinv
  rw [GV.reflect_orth hk0 hc (by rw [sqDist_comm, pole0_dist hp])] at this
  have h2 := GV.ev_circ hc K
  rw [this, zero_mul] at h2
  linarith

theorem K_ne {c0 : Circle} (hc : c0.Valid) {n : ℕ} (hn : 3 ≤ n) {shift : ℝ} {I : Pt} {k : ℝ} (hk : k ≠ 0) {j : ℕ} (hj : j < n) {K K' : Pt}
    (h : (⟨I, k⟩ : Inversion).invert (.fin (c0.center + c0.radius • unit_vector_ (((j : ℝ) + shift) * 2 * (π / n)))) = .fin K)
    (h' : (⟨I, k⟩ : Inversion).invert (.fin (c0.center + c0.radius • unit_vector_ (((((j + 1) % n : ℕ) : ℝ) + shift) * 2 * (π / n)))) = .fin K') :
    K ≠ K' := by
  rintro rfl
  have hR : 0 < c0.radius := hc
  obtain ⟨hs0, -⟩ := sine_bounds hn
  have i1 := (isInverse_iff.1 (isInverse_symm hk (invert_fin h).2)).2
  have i2 := (isInverse_iff.1 (isInverse_symm hk (invert_fin h').2)).2
  rw [unit_succ shift hj] at i2
  have e := i1.trans i2.symm
  have ex := congrArg Pt.x e
  have ey := congrArg Pt.y e
  unfold unit_vector_ at ex ey
  simp only [Pt.add_x, Pt.smul_x, Pt.add_y, Pt.smul_y] at ex ey
  have ex' := mul_left_cancel₀ hR.ne' (add_left_cancel ex)
  have ey' := mul_left_cancel₀ hR.ne' (add_left_cancel ey)
  have hang : ((j : ℝ) + (shift + 1)) * 2 * (π / n) = ((j : ℝ) + shift) * 2 * (π / n) + 2 * (π / n) := by ring
  rw [hang] at ex' ey'
  obtain ⟨θ, hθ⟩ : ∃ θ, θ = ((j : ℝ) + shift) * 2 * (π / n) := ⟨_, rfl⟩
  rw [← hθ] at ex' ey'
  have hd : cos (2 * (π / n)) = 1 := by
    have h1 : cos (θ + 2 * (π / n) - θ) = cos (θ + 2 * (π / n)) * cos θ + sin (θ + 2 * (π / n)) * sin θ := cos_sub _ _
    rw [← ex', ← ey', add_sub_cancel_left] at h1
    have := sin_sq_add_cos_sq θ
    linarith
  rw [cos_two_mul] at hd
  have := sin_sq_add_cos_sq (π / n)
  have : 0 < sin (π / n) ^ 2 := by positivity
  linarith

/-- The point where two neighbours touch is on both circles. -/
theorem contact_on {a b : Circle} (ha : a.Valid) (hb : b.Valid) (h : sqDist a.center b.center = (a.radius + b.radius) ^ 2) :
    OnCircle a.center a.radius (a.center + (a.radius / (a.radius + b.radius)) • (b.center - a.center)) ∧
    OnCircle b.center b.radius (a.center + (a.radius / (a.radius + b.radius)) • (b.center - a.center)) := by
  have ra : 0 < a.radius := ha
  have rb : 0 < b.radius := hb
  unfold sqDist at h
  unfold OnCircle sqDist
  simp only [Pt.add_x, Pt.add_y, Pt.smul_x, Pt.smul_y, Pt.sub_x, Pt.sub_y]
  obtain ⟨s, hs⟩ : ∃ s, s = a.radius / (a.radius + b.radius) := ⟨_, rfl⟩
  obtain ⟨t, htt⟩ : ∃ t, t = a.radius + b.radius := ⟨_, rfl⟩
  have hst : a.radius = s * t := by rw [hs, htt]; field_simp
  have hbt : b.radius = (1 - s) * t := by rw [sub_mul, ← hst, htt]; ring
  rw [← hs]
  rw [← htt] at h
  constructor
  · rw [hst]; linear_combination s ^ 2 * h
  · rw [hbt]; linear_combination (1 - s) ^ 2 * h

end CircularGasket

/-- C107: `startingCircles` finds all its circles exactly when no mirror is a line, for every `n ≥ 3`, every shift and every `phi` between -1 and 1
except 0, when the pole of its inversion is not too close to the outer circle for the tolerances.  The condition is the one of `C99_start_iff`. -/
theorem C107_start_iff (c0 : Circle) (hc : c0.Valid) (n : ℕ) (hn : 3 ≤ n) (phi shift : ℝ) (hp : phi ≠ 0) (hphi : |phi| < 1)
    (hsize : 1 / 1000 + (|c0.center.x| + |c0.center.y| + c0.radius) / 10000 ≤ (1 - |phi|) * c0.radius) :
    (∃ circles0 invCircles C0 inversions, startingCircles c0 n phi shift = .ok (circles0, invCircles) ∧ circles0.mapM asCircle = .ok C0 ∧
      invCircles.mapM onCircle = .ok inversions) ↔
      ∀ i < n, 2 * phi * cos (((i : ℝ) + shift) * 2 * (π / n) + π / n) ≠ (1 + phi ^ 2) * cos (π / n) := by
  rw [← apM_ne hc hn shift hphi]
  constructor
  · rintro ⟨circles0, invCircles, C0, inversions, h1, h2, h3⟩
    exact (starting_explicit hc hn hphi h1 h2 h3).2.2.2
  intro hm
  have hR : 0 < c0.radius := hc
  have hs := ap_ring hc hn (shift + 1) hphi
  have habs : 0 < |phi| := abs_pos.2 hp
  have hd : (1 - |phi|) * c0.radius ≤ c0.radius / |phi| - c0.radius := by
    rw [le_sub_iff_add_le, le_div_iff₀ habs]; nlinarith [mul_nonneg hR.le (sq_nonneg (1 - |phi|))]
  have hd' : c0.radius < c0.radius / |phi| := by rw [lt_div_iff₀ habs]; nlinarith
  have hk0 : 0 < (c0.radius / |phi|) ^ 2 - c0.radius ^ 2 := by nlinarith
  have hgap : (1 / 2 ^ 26 : ℝ) < (c0.radius / |phi| - c0.radius) ^ 2 := by
    have h1 : (1 / 1000 : ℝ) ≤ c0.radius / |phi| - c0.radius := by
      have : 0 ≤ (|c0.center.x| + |c0.center.y| + c0.radius) / 10000 := by positivity
      linarith
    have h2 := pow_le_pow_left₀ (by norm_num) h1 2
    refine lt_of_lt_of_le ?_ h2
    norm_num
  obtain ⟨p1, p2⟩ := pole0_power hc hn shift hphi hp
  obtain ⟨hs0, hs1⟩ := sine_bounds hn
  have h0 := chain0_ok hc hn shift
  obtain ⟨iota, hiota⟩ : ∃ iota : Inversion, iota = ⟨pole0 c0 phi, (c0.radius / |phi|) ^ 2 - c0.radius ^ 2⟩ := ⟨_, rfl⟩
  -- the images of the circles
  have himg : ∀ c : Circle, c.Valid → (c0.radius / |phi| - c0.radius) ^ 2 ≤ sqDist c.center (pole0 c0 phi) - c.radius ^ 2 →
      iota.invert_circle c = .ok (.circle (apMap c0 phi c)) := by
    intro c hcv hD
    obtain ⟨c', e, -⟩ := C25_invert_circle ⟨pole0 c0 phi, (c0.radius / |phi|) ^ 2 - c0.radius ^ 2⟩ hk0.ne' c hcv
      (lt_of_lt_of_le (lt_of_lt_of_le hgap hD) (le_abs_self _))
    have := apMap_of_invert hp hphi hc (by nlinarith) e
    rw [hiota, e, this]
  have ang : ∀ i : ℕ, ((i : ℝ) + shift) * 2 * π / n = ((i : ℝ) + shift) * 2 * (π / n) := fun i => by ring
  obtain ⟨circles0, hc0⟩ : ∃ l : List GCircle, l = (List.range (n + 1)).map (fun j => .circle (apC c0 n phi shift j)) := ⟨_, rfl⟩
  have hc0' : (List.range n).map (fun i => GCircle.circle (apMap c0 phi (chain0 c0 n shift i))) ++ [.circle (apMap c0 phi (inner0 c0 n))] = circles0 := by
    rw [hc0, List.range_succ, List.map_append]
    congr 1
    · apply List.map_congr_left
      intro i hi
      unfold apC apCircle
      rw [if_pos (List.mem_range.1 hi)]
    · simp only [List.map_cons, List.map_nil]
      unfold apC apCircle
      rw [if_neg (lt_irrefl _)]
  have hnth : ∀ j < n, nth circles0 j = .ok (apMap c0 phi (chain0 c0 n shift j)) := by
    intro j hj
    unfold nth
    rw [hc0, List.getElem?_map, List.getElem?_range (by omega)]
    unfold apC apCircle
    simp only [Option.map_some, if_pos hj]
    rfl
  -- the points on the outer circle
  choose K hK1 hK2 using fun j => K_ok hc hn shift hphi hp hsize j
  rw [← hiota] at hK1
  have hKs : (List.range n).map (fun i : ℕ => iota.invert (.fin (c0.point_from_angle (((i : ℝ) + shift) * 2 * π / n) false))) =
      (List.range n).map fun i => XPt.fin (K i) := by
    apply List.map_congr_left
    intro i _
    unfold Circle.point_from_angle
    rw [ang]
    exact hK1 i
  -- the contact points
  have hcont : ∀ i, ∃ J : Pt, ∃ c : Circle, i < n → contact circles0 ((List.range n).map fun i => XPt.fin (K i)) n i = .ok (J, some c) ∧
      OnCircle (apMap c0 phi (chain0 c0 n shift ((i + 1) % n))).center (apMap c0 phi (chain0 c0 n shift ((i + 1) % n))).radius J ∧
      OnCircle (apMap c0 phi (chain0 c0 n shift ((i + 2) % n))).center (apMap c0 phi (chain0 c0 n shift ((i + 2) % n))).radius J ∧
      GV.ev (apW c0 n phi) J = 0 := by
    intro i
    by_cases hi : i < n
    · have m1 : (i + 1) % n < n := Nat.mod_lt _ (by omega)
      have m2 : (i + 2) % n < n := Nat.mod_lt _ (by omega)
      have m2' : ((i + 1) % n + 1) % n = (i + 2) % n := by rw [Nat.mod_add_mod]
      have ea : chain0 c0 n shift ((i + 2) % n) = chain0 c0 n (shift + 1) ((i + 1) % n) := by rw [← m2', chain0_succ c0 shift m1]
      have eb : chain0 c0 n shift ((i + 1) % n) = chain0 c0 n (shift + 1) i := chain0_succ c0 shift hi
      obtain ⟨a, hae⟩ : ∃ a, a = apMap c0 phi (chain0 c0 n (shift + 1) ((i + 1) % n)) := ⟨_, rfl⟩
      obtain ⟨b, hbe⟩ : ∃ b, b = apMap c0 phi (chain0 c0 n (shift + 1) i) := ⟨_, rfl⟩
      have va : a.Valid := by rw [hae]; exact hs.vr _
      have vb : b.Valid := by rw [hbe]; exact hs.vr _
      have ra : 0 < a.radius := va
      have rb : 0 < b.radius := vb
      have htan : lprod a b = 2 * (a.radius * b.radius) := by
        have := hs.next i hi
        rw [← hae, ← hbe] at this
        rw [lprod_comm, this]
        ring
      obtain ⟨t1, t2⟩ := contact_point va vb htan
      have hdist : distance_ a.center b.center ≠ 0 := by
        rw [distance_eq, (dist_eq_iff (show 0 ≤ a.radius + b.radius by linarith)).2 t1]
        linarith
      obtain ⟨J, hJ⟩ : ∃ J, J = a.center + (a.radius / (a.radius + b.radius)) • (b.center - a.center) := ⟨_, rfl⟩
      rw [← hJ] at t2
      obtain ⟨o1, o2⟩ := hs.orth hi
      have wa : GV.pr (apW c0 n phi) (GV.circ a) = 0 := by rw [hae, GV.pr_comm]; exact hs.ring.wr _ m1
      have wb : GV.pr (apW c0 n phi) (GV.circ b) = 0 := by rw [hbe, GV.pr_comm]; exact hs.ring.wr _ hi
      have ma : GV.pr (apM c0 n phi (shift + 1) i) (GV.circ a) = 0 := by rw [hae]; exact o2 _ m1 (Or.inr rfl)
      have mb : GV.pr (apM c0 n phi (shift + 1) i) (GV.circ b) = 0 := by rw [hbe]; exact o2 _ hi (Or.inl rfl)
      have jin : sqDist J c0.center < c0.radius ^ 2 := by
        rw [hJ]
        exact contact_inside va vb hc t1 (by rw [hae]; exact hs.r0 _) (by rw [hbe]; exact hs.r0 _)
      have n1 : J ≠ K ((i + 1) % n) := by rintro e; rw [e, hK2] at jin; exact lt_irrefl _ jin
      have n2 : J ≠ K ((i + 2) % n) := by rintro e; rw [e, hK2] at jin; exact lt_irrefl _ jin
      have n3 : K ((i + 1) % n) ≠ K ((i + 2) % n) := by
        have k2 := hK1 ((i + 2) % n)
        rw [← m2'] at k2 ⊢
        exact K_ne hc hn hk0.ne' m1 (by rw [← hiota]; exact hK1 _) (by rw [← hiota]; exact k2)
      have v1 : GV.ev (apM c0 n phi (shift + 1) i) (K ((i + 1) % n)) = 0 := by
        refine ev_K hc hn (shift + 1) hphi hp hi hi (Or.inl rfl) ?_
        rw [← unit_succ shift hi, ← hiota]
        exact hK1 _
      have v2 : GV.ev (apM c0 n phi (shift + 1) i) (K ((i + 2) % n)) = 0 := by
        refine ev_K hc hn (shift + 1) hphi hp hi m1 (Or.inr rfl) ?_
        rw [← unit_succ shift m1, m2', ← hiota]
        exact hK1 _
      have hnc := GV.circle_not_collinear (hm i hi) n1 n2 n3 (by rw [hJ]; exact GV.ev_contact va vb ma mb t1) v1 v2
      obtain ⟨c, hcc, -⟩ := C40_circumcircle ⟨J, K ((i + 1) % n), K ((i + 2) % n)⟩ hnc
      obtain ⟨q1, q2⟩ := contact_on va vb t1
      rw [← hJ] at q1 q2
      refine ⟨J, c, fun _ => ⟨?_, by rw [eb, ← hbe]; exact q2, by rw [ea, ← hae]; exact q1, by rw [hJ]; exact GV.ev_contact va vb wa wb t1⟩⟩
      unfold contact
      dsimp only
      rw [hnth _ m2, Res.ok_bind, hnth _ m1, Res.ok_bind, ea, eb, ← hae, ← hbe, if_neg hdist, t2]
      unfold kTriangle
      rw [List.getElem?_map, List.getElem?_range m1, List.getElem?_map, List.getElem?_range m2]
      simp only [Option.map_some]
      unfold ThreeTangent.mkTriangleX
      dsimp only
      rw [Res.ok_bind, hcc, Res.ok_bind]
      rfl
    · exact ⟨c0.center, c0, fun h => absurd h hi⟩
  choose J C hJC using hcont
  have hapart : ∀ a b, a < n → b < n → a ≠ b → 2 * ((apMap c0 phi (chain0 c0 n shift a)).radius * (apMap c0 phi (chain0 c0 n shift b)).radius) ≤
      lprod (apMap c0 phi (chain0 c0 n shift a)) (apMap c0 phi (chain0 c0 n shift b)) := (ap_ring hc hn shift hphi).rr
  have hvr := (ap_ring hc hn shift hphi).vr
  have three : ∀ a b c, a < n → b < n → c < n → a ≠ b → a ≠ c → b ≠ c → ∀ T : Pt,
      OnCircle (apMap c0 phi (chain0 c0 n shift a)).center (apMap c0 phi (chain0 c0 n shift a)).radius T →
      OnCircle (apMap c0 phi (chain0 c0 n shift b)).center (apMap c0 phi (chain0 c0 n shift b)).radius T →
      OnCircle (apMap c0 phi (chain0 c0 n shift c)).center (apMap c0 phi (chain0 c0 n shift c)).radius T → False :=
    fun a b c ha hb hcn hab hac hbc T => no_common_point (hvr a) (hvr b) (hvr c) (hapart a b ha hb hab) (hapart a c ha hcn hac) (hapart b c hb hcn hbc)
  obtain ⟨-, a1, a2, a3⟩ := hJC 0 (by omega)
  obtain ⟨-, b1, b2, b3⟩ := hJC 1 (by omega)
  obtain ⟨-, c1, c2, c3⟩ := hJC 2 (by omega)
  rw [Nat.mod_eq_of_lt (show 0 + 1 < n by omega)] at a1
  rw [Nat.mod_eq_of_lt (show 0 + 2 < n by omega)] at a2
  rw [Nat.mod_eq_of_lt (show 1 + 1 < n by omega)] at b1
  have e3 : (1 + 2) % n < n ∧ (1 + 2) % n ≠ 1 ∧ (1 + 2) % n ≠ 2 := by
    rcases Nat.lt_or_ge 3 n with h | h
    · rw [Nat.mod_eq_of_lt h]; omega
    · have : n = 3 := by omega
      subst this; decide
  have e4 : (2 + 2) % n < n ∧ (2 + 2) % n ≠ (1 + 2) % n ∧ (2 + 2) % n ≠ 2 := by
    rcases Nat.lt_or_ge 4 n with h | h
    · rw [Nat.mod_eq_of_lt h, Nat.mod_eq_of_lt (show 1 + 2 < n by omega)]; omega
    · have : n = 3 ∨ n = 4 := by omega
      rcases this with rfl | rfl <;> decide
  have d01 : J 0 ≠ J 1 := by
    intro e
    rw [← e] at b2
    exact three 1 2 _ (by omega) (by omega) e3.1 (by omega) (Ne.symm e3.2.1) (Ne.symm e3.2.2) _ a1 a2 b2
  have d02 : J 0 ≠ J 2 := by
    intro e
    rw [← e] at c1
    exact three 1 2 _ (by omega) (by omega) e3.1 (by omega) (Ne.symm e3.2.1) (Ne.symm e3.2.2) _ a1 a2 c1
  have d12 : J 1 ≠ J 2 := by
    intro e
    rw [← e] at c2
    exact three 2 _ _ (by omega) e3.1 e4.1 (Ne.symm e3.2.2) (Ne.symm e4.2.2) (Ne.symm e4.2.1) _ b1 b2 c2
  obtain ⟨cw, hcw, -⟩ := C40_circumcircle ⟨J 0, J 1, J 2⟩ (GV.circle_not_collinear (hs.last hc).1.ne' d01 d02 d12 a3 b3 c3)
  refine ⟨circles0, (List.range n).map (fun i => some (C i)) ++ [some cw], (List.range (n + 1)).map (apC c0 n phi shift),
    ((List.range n).map (fun i => Inversion.on_circle (C i)) ++ [Inversion.on_circle cw]), ?_, ?_, ?_⟩
  · have hpn : pyDiv π (n : ℝ) = .ok (π / n) := by
      unfold pyDiv; rw [if_neg (by exact_mod_cast (show n ≠ 0 by omega))]
    have hdiv : pyDiv 1 phi = .ok (1 / phi) := by unfold pyDiv; rw [if_neg hp]
    have hge : 0 < 1 / phi * (1 / phi) - 1 := by
      have : phi ^ 2 < 1 := by rw [← sq_abs]; nlinarith [abs_nonneg phi]
      have e : 1 / phi * (1 / phi) - 1 = (1 - phi ^ 2) / phi ^ 2 := by field_simp
      rw [e]
      exact div_pos (by linarith) (by positivity)
    have hsqrt : pySqrt (1 / phi * (1 / phi) - 1) = .ok (√(1 / phi * (1 / phi) - 1)) := by
      unfold pySqrt; rw [if_neg (not_lt.2 hge.le)]
    have eiota : Inversion.on_circle ⟨(⟨c0.radius * (1 / phi), 0⟩ : Pt) + c0.center, c0.radius * √(1 / phi * (1 / phi) - 1)⟩ = iota := by
      rw [hiota]
      unfold Inversion.on_circle
      rw [← iota_eq hp hphi]
      rfl
    unfold startingCircles
    rw [hdiv, Res.ok_bind, hsqrt, Res.ok_bind]
    dsimp only
    rw [mkCircle_pos (mul_pos hR (Real.sqrt_pos.2 hge)), Res.ok_bind, hpn, Res.ok_bind]
    rw [eiota, hKs, mapM_ok _ (fun i => GCircle.circle (apMap c0 phi (chain0 c0 n shift i))), Res.ok_bind,
      mkCircle_pos (show 0 < c0.radius - 2 * (c0.radius / (1 + sin (π / n)) * sin (π / n)) from h0.ipos), Res.ok_bind]
    · have hin : iota.invert_circle ⟨c0.center, c0.radius - 2 * (c0.radius / (1 + sin (π / n)) * sin (π / n))⟩ =
          .ok (.circle (apMap c0 phi (inner0 c0 n))) := himg (inner0 c0 n) h0.ipos p2
      rw [hin, Res.ok_bind, hc0', mapM_ok _ (fun i => (J i, some (C i))), Res.ok_bind]
      · have hjt : jTriangle (((List.range n).map fun i => (J i, some (C i))).map Prod.fst) = .ok ⟨J 0, J 1, J 2⟩ := by
          obtain ⟨m, rfl⟩ : ∃ m, n = m + 3 := ⟨n - 3, by omega⟩
          rw [List.range_succ_eq_map, List.range_succ_eq_map, List.range_succ_eq_map]
          rfl
        rw [hjt, Res.ok_bind, hcw, Res.ok_bind, List.map_map]
        rfl
      · intro i hi
        exact (hJC i (List.mem_range.1 hi)).1
    · intro i _
      rw [mkCircle_pos (show 0 < c0.radius / (1 + sin (π / n)) * sin (π / n) from h0.pos i), Res.ok_bind, ang]
      exact himg (chain0 c0 n shift i) (h0.pos i) (p1 i)
  · rw [hc0, mapM_ok _ (fun g : GCircle => match g with | .circle c => c | .line _ => c0)]
    · rw [List.map_map]; rfl
    · intro g hg
      obtain ⟨j, -, rfl⟩ := List.mem_map.1 hg
      rfl
  · rw [mapM_ok _ (fun o : Option Circle => match o with | some c => Inversion.on_circle c | none => ⟨c0.center, 0⟩)]
    · rw [List.map_append, List.map_map]; rfl
    · intro o ho
      rcases List.mem_append.1 ho with ho | ho
      · obtain ⟨j, -, rfl⟩ := List.mem_map.1 ho
        rfl
      · rw [List.mem_singleton] at ho
        subst ho
        rfl

/-- The starting circles exist for the unit circle, `n = 3` and `phi = 1/10`, whatever the shift. -/
example (shift : ℝ) : ∃ circles0 invCircles C0 inversions, startingCircles ⟨⟨0, 0⟩, 1⟩ 3 (1 / 10) shift = .ok (circles0, invCircles) ∧
    circles0.mapM asCircle = .ok C0 ∧ invCircles.mapM onCircle = .ok inversions := by
  refine (C107_start_iff ⟨⟨0, 0⟩, 1⟩ (by norm_num [Circle.Valid]) 3 (le_refl _) (1 / 10) shift (by norm_num) (by norm_num [abs_of_pos]) ?_).2
    fun i _ h => ?_
  · norm_num [abs_of_pos]
  · have h3 : cos (π / (3 : ℕ)) = 1 / 2 := by rw [show π / ((3 : ℕ) : ℝ) = π / 3 by norm_num, Real.cos_pi_div_three]
    rw [h3] at h
    have := Real.cos_le_one (((i : ℝ) + shift) * 2 * (π / (3 : ℕ)) + π / (3 : ℕ))
    linarith

/-- C107: two scripts, one gasket.  The circles of `startingCircles` are the ones of `SteinerChain` in `ApollonianGasket.py`.  Its inversions, found as
circumcircles of contact points, are the ones that `ApollonianGasket.py` finds with radical centers, for a chain turned by one circle. -/
theorem C107_same (c0 : Circle) (hc : c0.Valid) (n : ℕ) (hn : 3 ≤ n) (phi shift : ℝ) (hphi : |phi| < 1) (circles0 circles0' circles0'' : List GCircle)
    (invCircles : List (Option Circle)) (C0 : List Circle) (inversions inversions' inversions'' : List Inversion)
    (h : startingCircles c0 n phi shift = .ok (circles0, invCircles)) (hC0 : circles0.mapM asCircle = .ok C0)
    (hinv : invCircles.mapM onCircle = .ok inversions) (h' : start c0 n phi shift = .ok (circles0', inversions'))
    (h'' : start c0 n phi (shift + 1) = .ok (circles0'', inversions'')) : circles0 = circles0' ∧ inversions = inversions'' := by
  obtain ⟨-, e1, e2, -⟩ := starting_explicit hc hn hphi h hC0 hinv
  obtain ⟨f1, -, -⟩ := start_explicit hc hn hphi h'
  obtain ⟨-, f2, -⟩ := start_explicit hc hn hphi h''
  exact ⟨by rw [e1, f1], by rw [e2, f2]⟩

/-- C107: the errors of `startingCircles`, for every circle, every `n` and every shift.  `phi = 0` (concentric circles) gives a division by zero, where
`SteinerChain` has a special case; `phi` beyond -1 and 1 is stopped by `sqrt`, and -1 and 1 by the check of the radius. -/
theorem C107_errors (c0 : Circle) (n : ℕ) (phi shift : ℝ) :
    (phi = 0 → startingCircles c0 n phi shift = .error .zeroDivision) ∧
    (1 < |phi| → startingCircles c0 n phi shift = .error (.valueError "math domain error")) ∧
    (|phi| = 1 → startingCircles c0 n phi shift = .error (.valueError "`radius` is not positive.")) := by
  refine ⟨?_, ?_, ?_⟩
  · rintro rfl
    unfold startingCircles pyDiv
    rw [if_pos rfl]
    rfl
  · intro h
    have hp : phi ≠ 0 := by rintro rfl; rw [abs_zero] at h; linarith
    have hsq : 1 < phi ^ 2 := by rw [← sq_abs]; nlinarith
    have e : 1 / phi * (1 / phi) - 1 = (1 - phi ^ 2) / phi ^ 2 := by field_simp
    have hneg : 1 / phi * (1 / phi) - 1 < 0 := by
      rw [e]; exact div_neg_of_neg_of_pos (by linarith) (by positivity)
    unfold startingCircles
    rw [show pyDiv 1 phi = .ok (1 / phi) by unfold pyDiv; rw [if_neg hp], Res.ok_bind,
      show pySqrt (1 / phi * (1 / phi) - 1) = .error (.valueError "math domain error") by unfold pySqrt; rw [if_pos hneg]]
    rfl
  · intro h
    have hp : phi ≠ 0 := by rintro rfl; rw [abs_zero] at h; linarith
    have hsq : phi ^ 2 = 1 := by rw [← sq_abs, h, one_pow]
    have e : 1 / phi * (1 / phi) - 1 = 0 := by
      have : 1 / phi * (1 / phi) - 1 = (1 - phi ^ 2) / phi ^ 2 := by field_simp
      rw [this, hsq]; norm_num
    unfold startingCircles
    rw [show pyDiv 1 phi = .ok (1 / phi) by unfold pyDiv; rw [if_neg hp], Res.ok_bind,
      show pySqrt (1 / phi * (1 / phi) - 1) = .ok 0 by unfold pySqrt; rw [e, if_neg (lt_irrefl _), Real.sqrt_zero], Res.ok_bind]
    dsimp only
    rw [mul_zero, show mkCircle ((⟨c0.radius * (1 / phi), 0⟩ : Pt) + c0.center) 0 = .error (.valueError "`radius` is not positive.") by
      unfold mkCircle; rw [if_pos le_rfl]]
    rfl

/-- The three kinds of errors, for the circle of radius 3. -/
example : CircularGasket.startingCircles ⟨⟨0, 0⟩, 3⟩ 3 0 0 = .error .zeroDivision ∧
    CircularGasket.startingCircles ⟨⟨0, 0⟩, 3⟩ 3 2 0 = .error (.valueError "math domain error") ∧
    CircularGasket.startingCircles ⟨⟨0, 0⟩, 3⟩ 3 (-1) 0 = .error (.valueError "`radius` is not positive.") :=
  ⟨(C107_errors _ _ _ _).1 rfl, (C107_errors _ _ _ _).2.1 (by norm_num), (C107_errors _ _ _ _).2.2 (by norm_num)⟩

/-- C107: `drawCircularGasket` at depth `d + 1`, for any outer circle, any `n ≥ 3`, any shift, and the values of `phi` for which no mirror can be a line.
It draws `d + 1` lists of circles, the starting ones and the generations, with `n + 1` and `n (n - 1) n^e` circles.  All the circles drawn are inside the outer
circle and no two of them overlap. -/
theorem C107_draw (c0 : Circle) (hc : c0.Valid) (n : ℕ) (hn : 3 ≤ n) (d : ℕ) (phi shift : ℝ) (hp : phi ≠ 0)
    (hphi : |phi| * (1 + sin (π / n)) < cos (π / n))
    (hsize : 1 / 1000 + (|c0.center.x| + |c0.center.y| + c0.radius) / 10000 ≤ (1 - phi ^ 2) * c0.radius * sin (π / n) * (1 - sin (π / n)) / 4) :
    ∃ Ls : List (List Circle), drawCircularGasket c0 n d phi shift = .ok Ls ∧
      Ls.map List.length = (n + 1) :: (List.range d).map (fun e => n * (n - 1) * n ^ e) ∧
      Ls.flatten.Pairwise (fun a b => (disc a).Apart (disc b)) ∧ ∀ c ∈ Ls.flatten, c.Valid ∧ (outside c0).Apart (disc c) := by
  have hR : 0 < c0.radius := hc
  have hphi1 := phi_lt_one hn hphi
  obtain ⟨hs0, hs1⟩ := sine_bounds hn
  have hsize' : 1 / 1000 + (|c0.center.x| + |c0.center.y| + c0.radius) / 10000 ≤ (1 - |phi|) * c0.radius := by
    refine hsize.trans ?_
    have e : 1 - phi ^ 2 = (1 - |phi|) * (1 + |phi|) := by rw [← sq_abs phi]; ring
    have hA : 0 < (1 - |phi|) * c0.radius := mul_pos (by linarith) hR
    have h1 : (1 + |phi|) * (sin (π / n) * (1 - sin (π / n))) ≤ 4 := by
      have a1 : sin (π / n) * (1 - sin (π / n)) ≤ 1 := by nlinarith
      have a2 : 0 ≤ sin (π / n) * (1 - sin (π / n)) := mul_nonneg hs0.le (by linarith)
      have a3 := abs_nonneg phi
      nlinarith
    have := mul_le_mul_of_nonneg_left h1 hA.le
    rw [e]
    linarith
  obtain ⟨circles0', inversions', h', hpow⟩ := C99_start c0 hc n hn phi (n * shift + 1) hphi hsize
  obtain ⟨circles0, invCircles, C0, inversions, h, hC0, hinv⟩ := (C107_start_iff c0 hc n hn phi (n * shift) hp hphi1 hsize').2
    ((apM_ne hc hn (n * shift) hphi1).1 (start_explicit hc hn hphi1 h').2.2)
  have einv : inversions = inversions' := by
    rw [(starting_explicit hc hn hphi1 h hC0 hinv).2.2.1, (start_explicit hc hn hphi1 h').2.1]
  rw [← einv] at hpow
  obtain ⟨hlen0, -, hin0, hpw0, L, hL⟩ := C107_gasket_partial c0 hc n hn phi (n * shift) hphi1 circles0 invCircles C0 inversions h hC0 hinv hpow
    (fun h1 => absurd hphi (not_lt.2 h1))
  refine ⟨C0 :: (List.range d).map (fun e => (L e).map Prod.fst), ?_, ?_, ?_, ?_⟩
  · unfold drawCircularGasket
    rw [h, Res.ok_bind]
    dsimp only
    rw [mapM_ok _ (fun e => (L e).map pairG) _ (fun e _ => (hL e).1), Res.ok_bind, List.mapM_cons, hC0, Res.ok_bind, List.map_map,
      mapM_ok _ (fun l : List GCircle => l.map fun g => match g with | .circle c => c | .line _ => c0), Res.ok_bind]
    · rw [Res.pure_ok]
      congr 1
      rw [List.map_map]
      apply List.map_congr_left
      intro e _
      simp only [Function.comp_apply, List.map_map]
      rfl
    · intro l hl
      obtain ⟨e, -, rfl⟩ := List.mem_map.1 hl
      refine mapM_ok _ _ _ ?_
      intro g hg
      simp only [Function.comp_apply, List.map_map] at hg
      obtain ⟨p, -, rfl⟩ := List.mem_map.1 hg
      rfl
  · rw [List.map_cons, hlen0, List.map_map]
    congr 1
    apply List.map_congr_left
    intro e _
    simp only [Function.comp_apply, List.length_map]
    exact (hL e).2.1
  · rw [List.pairwise_flatten]
    refine ⟨?_, ?_⟩
    · intro l hl
      rcases List.mem_cons.1 hl with rfl | hl
      · exact hpw0
      · obtain ⟨e, -, rfl⟩ := List.mem_map.1 hl
        rw [List.pairwise_map]
        exact (hL e).2.2.2.1
    · rw [List.pairwise_cons]
      refine ⟨?_, ?_⟩
      · intro l hl a ha b hb
        obtain ⟨e, -, rfl⟩ := List.mem_map.1 hl
        obtain ⟨p, hpm, rfl⟩ := List.mem_map.1 hb
        exact ((hL e).2.2.1 p hpm).2.2 a ha
      · rw [List.pairwise_map]
        refine List.pairwise_lt_range.imp ?_
        intro e1 e2 he a ha b hb
        obtain ⟨q, hqm, rfl⟩ := List.mem_map.1 ha
        obtain ⟨p, hpm, rfl⟩ := List.mem_map.1 hb
        exact ((hL e2).2.2.2.2.1 e1 he p hpm q hqm).symm
  · intro c hcm
    obtain ⟨l, hl, hcl⟩ := List.mem_flatten.1 hcm
    rcases List.mem_cons.1 hl with rfl | hl
    · exact hin0 c hcl
    · obtain ⟨e, -, rfl⟩ := List.mem_map.1 hl
      obtain ⟨p, hpm, rfl⟩ := List.mem_map.1 hcl
      exact ⟨((hL e).2.2.1 p hpm).1, ((hL e).2.2.1 p hpm).2.1⟩

/-- Values as in the script: a circle of radius 3, `n = 3`, `phi = 0.25`, no shift, depth 4.  The script draws 4, 6, 18 and 54 circles. -/
example : ∃ Ls : List (List Circle), drawCircularGasket ⟨⟨0, 0⟩, 3⟩ 3 3 (1 / 4) 0 = .ok Ls ∧ Ls.map List.length = [4, 6, 18, 54] ∧
    Ls.flatten.Pairwise (fun a b => (disc a).Apart (disc b)) := by
  have hc : (⟨⟨0, 0⟩, 3⟩ : Circle).Valid := by unfold Circle.Valid; norm_num
  have hs : sin (π / (3 : ℕ)) = √3 / 2 := by push_cast; exact sin_pi_div_three
  have hcos : cos (π / (3 : ℕ)) = 1 / 2 := by push_cast; exact cos_pi_div_three
  have h3 : √3 ^ 2 = 3 := Real.sq_sqrt (by norm_num)
  have h3a : √3 < 1.733 := by rw [Real.sqrt_lt' (by norm_num)]; norm_num
  have h3b : 1.732 < √3 := Real.lt_sqrt_of_sq_lt (by norm_num)
  obtain ⟨Ls, e, hlen, hpw, -⟩ := C107_draw ⟨⟨0, 0⟩, 3⟩ hc 3 le_rfl 3 (1 / 4) 0 (by norm_num)
    (by rw [hs, hcos, abs_of_pos (by norm_num)]; linarith) (by rw [hs]; norm_num; nlinarith)
  exact ⟨Ls, e, by rw [hlen]; rfl, hpw⟩

/-- C107: without a condition on the size the claim is false: for the outer circle of radius `10⁻⁵` and `phi = 1/2` (`n = 3`, `shift = 0`) no mirror is
a line, by `C99_small_counterexample`, and yet the inner circle is taken by `invert_circle` for a circle through the pole and its image is not a circle,
whatever `n ≥ 3` and the shift are. -/
theorem C107_small_counterexample (n : ℕ) (hn : 3 ≤ n) (shift : ℝ) : (⟨⟨0, 0⟩, 1 / 100000⟩ : Circle).Valid ∧
    ¬ ∃ circles0 invCircles C0, startingCircles ⟨⟨0, 0⟩, 1 / 100000⟩ n (1 / 2) shift = .ok (circles0, invCircles) ∧
      circles0.mapM asCircle = .ok C0 := by
  refine ⟨by unfold Circle.Valid; norm_num, ?_⟩
  rintro ⟨circles0, invCircles, C0, h, hC⟩
  unfold startingCircles at h
  simp only [Res.bind_ok, Res.pure_ok] at h
  obtain ⟨ip, hip, r, hr, circ0, hc0, a, ha, chain, -, inner, hin, g, hg, JC, -, T, -, cc, -, he⟩ := h
  injection he with he1 he2
  rw [← he1, List.mapM_append] at hC
  simp only [Res.bind_ok, Res.pure_ok, List.mapM_cons, List.mapM_nil] at hC
  obtain ⟨l1, -, l2, ⟨b, hb, -⟩, -⟩ := hC
  cases g with
  | line l => exact absurd hb (by unfold asCircle; simp)
  | circle c =>
    have hq : inner.center = ⟨0, 0⟩ ∧ 0 < inner.radius ∧ inner.radius ≤ 1 / 100000 := by
      unfold pyDiv at ha
      have hn0 : ((n : ℕ) : ℝ) ≠ 0 := by exact_mod_cast (show n ≠ 0 by omega)
      rw [if_neg hn0] at ha
      injection ha with ha
      obtain ⟨s0, s1⟩ := sine_bounds hn
      unfold mkCircle at hin
      split_ifs at hin with h0
      injection hin with hin
      rw [← hin]
      refine ⟨rfl, not_le.1 h0, ?_⟩
      dsimp only
      rw [← ha]
      have : 0 < 1 / 100000 / (1 + sin (π / n)) * sin (π / n) := by positivity
      linarith
    have hI : circ0.center = ⟨2 / 100000, 0⟩ := by
      unfold pyDiv at hip
      rw [if_neg (by norm_num)] at hip
      injection hip with hip
      unfold mkCircle at hc0
      split_ifs at hc0
      injection hc0 with hc0
      rw [← hc0, ← hip]
      apply Pt.ext
      · simp only [Pt.add_x]; norm_num
      · simp only [Pt.add_y]; norm_num
    unfold Inversion.invert_circle at hg
    dsimp only at hg
    rw [if_neg] at hg
    · simp only [Res.bind_ok, Res.pure_ok] at hg
      obtain ⟨a, -, h⟩ := hg
      exact absurd h (by simp)
    · obtain ⟨h1, h2, h3⟩ := hq
      have e : (Inversion.on_circle circ0).pole = circ0.center := rfl
      generalize inner.radius = q at *
      rw [h1, e, hI, not_lt, abs_le]
      unfold sepsilon_
      constructor <;> norm_num <;> nlinarith
