import Verif.Props.Exact3
import Verif.Props.Steiner
import Verif.Props.MobiusPower

/-!
# More exact conditions

As in `Props/Exact.lean`: for properties that hold only under a condition, the exact condition.
-/

open Spec Real Classical

/-! ### Lists -/

theorem mapM_forall {α β : Type} (f : α → Res β) {l : List α} {r : List β} (h : l.mapM f = .ok r) :
    ∀ a ∈ l, ∃ b ∈ r, f a = .ok b := by
  induction l generalizing r with
  | nil => intro a ha; simp at ha
  | cons x l ih =>
    rw [List.mapM_cons] at h
    simp only [Res.bind_ok, Res.pure_ok] at h
    obtain ⟨b, hb, r', hr', rfl⟩ := h
    intro a ha
    rcases List.mem_cons.1 ha with rfl | ha
    · exact ⟨b, by simp, hb⟩
    · obtain ⟨b', h1, h2⟩ := ih hr' a ha
      exact ⟨b', by simp [h1], h2⟩

/-! ### C31, C32 -/

/-- `n + 1` circles: a closed chain of `n` circles, each tangent to the next one, all of them tangent from the inside to the outer
circle, and from the outside to the last one. -/
def Spec.IsSteiner (O : Pt) (R : ℝ) (n : ℕ) (chain : ℕ → Circle) (inner : Circle) : Prop :=
  (∀ i < n, 0 < (chain i).radius ∧
    ExtTangent (chain i).center (chain i).radius (chain ((i + 1) % n)).center (chain ((i + 1) % n)).radius ∧
    IntTangent O R (chain i).center (chain i).radius ∧
    ExtTangent inner.center inner.radius (chain i).center (chain i).radius) ∧ 0 < inner.radius

/-- The pole of the inversion is farther than the tolerance from the circles of the regular chain: their powers are larger
than `2^-26`.  Here `R` is the radius of the outer circle, and `s` the sine of `π/n`. -/
def Spec.PoleFar (R : ℝ) (n : ℕ) (phi shift : ℝ) : Prop :=
  (∀ i < n, 1 / 2 ^ 26 < R ^ 2 * (1 / phi ^ 2 + (1 - sin (π / n)) / (1 + sin (π / n)) -
    2 * cos (((i : ℝ) + shift) * (2 * π / n)) / (phi * (1 + sin (π / n))))) ∧
  1 / 2 ^ 26 < R ^ 2 * (1 / phi ^ 2 - ((1 - sin (π / n)) / (1 + sin (π / n))) ^ 2)

theorem chain0_power {c0 : Circle} {n : ℕ} (hn : 3 ≤ n) {phi : ℝ} (shift : ℝ) (hp : phi ≠ 0) (i : ℕ) :
    sqDist (chain0 c0 n shift i).center (pole0 c0 phi) - (chain0 c0 n shift i).radius ^ 2 =
      c0.radius ^ 2 * (1 / phi ^ 2 + (1 - sin (π / n)) / (1 + sin (π / n)) -
        2 * cos (((i : ℝ) + shift) * (2 * π / n)) / (phi * (1 + sin (π / n)))) := by
  obtain ⟨hs0, hs1⟩ := sine_bounds hn
  unfold chain0 pole0 unit_vector_ sqDist
  rw [show ((i : ℝ) + shift) * 2 * (π / n) = ((i : ℝ) + shift) * (2 * π / n) by ring]
  obtain ⟨β, hβ⟩ : ∃ β, β = ((i : ℝ) + shift) * (2 * π / n) := ⟨_, rfl⟩
  obtain ⟨s, hs⟩ : ∃ s, s = sin (π / n) := ⟨_, rfl⟩
  rw [← hβ, ← hs]
  rw [← hs] at hs0
  have h1 : 1 + s ≠ 0 := by linarith
  have e := sin_sq_add_cos_sq β
  simp only [Pt.add_x, Pt.add_y, Pt.smul_x, Pt.smul_y]
  field_simp
  linear_combination c0.radius ^ 2 * phi ^ 2 * e

theorem inner0_power {c0 : Circle} {n : ℕ} (hn : 3 ≤ n) {phi : ℝ} (hp : phi ≠ 0) :
    sqDist (inner0 c0 n).center (pole0 c0 phi) - (inner0 c0 n).radius ^ 2 =
      c0.radius ^ 2 * (1 / phi ^ 2 - ((1 - sin (π / n)) / (1 + sin (π / n))) ^ 2) := by
  obtain ⟨hs0, hs1⟩ := sine_bounds hn
  unfold inner0 pole0 sqDist
  obtain ⟨s, hs⟩ : ∃ s, s = sin (π / n) := ⟨_, rfl⟩
  rw [← hs] at hs0 ⊢
  have h1 : 1 + s ≠ 0 := by linarith
  simp only [Pt.add_x, Pt.add_y]
  field_simp
  ring

theorem invert_circle_circle {iota : Inversion} {c : Circle} {g : Circle} (h : iota.invert_circle c = .ok (.circle g)) :
    sepsilon_ < |sqDist c.center iota.pole - c.radius ^ 2| := by
  unfold Inversion.invert_circle at h
  dsimp only at h
  by_contra hn
  have e : (c.center.x - iota.pole.x) ^ 2 + (c.center.y - iota.pole.y) ^ 2 - c.radius * c.radius =
      sqDist c.center iota.pole - c.radius ^ 2 := by unfold sqDist; ring
  rw [e, if_neg hn] at h
  simp only [Res.bind_ok, Res.pure_ok] at h
  obtain ⟨a, -, h⟩ := h
  exact absurd h (by simp)

/-- When only circles are returned, the pole is far enough from the circles of the regular chain. -/
theorem steiner_far {c0 : Circle} (hc : c0.Valid) {n : ℕ} (hn : 3 ≤ n) {phi shift : ℝ} (hphi : |phi| < 1) (hp : phi ≠ 0)
    {chain : ℕ → Circle} {inner : Circle} {ell : Ellipse}
    (h : SteinerChain c0 n phi shift = .ok ⟨(List.range n).map (fun i => .circle (chain i)) ++ [.circle inner], ell⟩) :
    PoleFar c0.radius n phi shift := by
  have h0 := chain0_ok hc hn shift
  have hphi0 : SteinerChain_phi0_ c0 n shift = .ok ((List.range n).map (chain0 c0 n shift) ++ [inner0 c0 n]) := by
    unfold SteinerChain_phi0_
    dsimp only
    rw [mapM_ok _ (chain0 c0 n shift), Res.ok_bind, mkCircle_pos (show 0 < c0.radius - 2 * (c0.radius / (1 + sin (π / n)) * sin (π / n)) from h0.ipos)]
    · rfl
    · intro i _
      exact mkCircle_pos (h0.pos i)
  unfold SteinerChain at h
  rw [if_neg (by omega), hphi0, Res.ok_bind] at h
  dsimp only at h
  rw [if_pos hp] at h
  obtain ⟨r, hr, h⟩ := Res.bind_ok.1 h
  have hall := mapM_forall _ hr
  have hcirc : ∀ g ∈ r, ∃ c, g = GCircle.circle c := by
    have : r = (List.range n).map (fun i => .circle (chain i)) ++ [.circle inner] := by
      revert h
      split
      · intro h
        simp only [Res.bind_ok, Res.pure_ok, SteinerRes.mk.injEq] at h
        obtain ⟨_, _, _, _, h, _⟩ := h
        exact h
      · intro h; exact absurd h (by simp)
    rw [this]
    intro g hg
    rcases List.mem_append.1 hg with hg | hg
    · obtain ⟨i, -, rfl⟩ := List.mem_map.1 hg
      exact ⟨_, rfl⟩
    · rw [List.mem_singleton] at hg
      exact ⟨_, hg⟩
  obtain ⟨q1, q2⟩ := pole0_power hc hn shift hphi hp
  have key : ∀ c ∈ (List.range n).map (chain0 c0 n shift) ++ [inner0 c0 n],
      (c0.radius / |phi| - c0.radius) ^ 2 ≤ sqDist c.center (pole0 c0 phi) - c.radius ^ 2 →
      1 / 2 ^ 26 < sqDist c.center (pole0 c0 phi) - c.radius ^ 2 := by
    intro c hcm hge
    obtain ⟨g, hg, e⟩ := hall c hcm
    obtain ⟨c', rfl⟩ := hcirc g hg
    have := invert_circle_circle e
    change sepsilon_ < |sqDist c.center (pole0 c0 phi) - c.radius ^ 2| at this
    have h1 : (0 : ℝ) ≤ (c0.radius / |phi| - c0.radius) ^ 2 := sq_nonneg _
    rw [abs_of_nonneg (show 0 ≤ sqDist c.center _ - c.radius ^ 2 from le_trans h1 hge)] at this
    exact this
  constructor
  · intro i hi
    rw [← chain0_power hn shift hp]
    exact key _ (List.mem_append_left _ (List.mem_map.2 ⟨i, List.mem_range.2 hi, rfl⟩)) (q1 i)
  · rw [← inner0_power hn hp]
    exact key _ (by simp) q2

theorem steiner_htol {c0 : Circle} {n : ℕ} (hn : 3 ≤ n) {phi shift : ℝ} (h : phi ≠ 0 → PoleFar c0.radius n phi shift) :
    phi ≠ 0 → (∀ i < n, sepsilon_ <
        sqDist (chain0 c0 n shift i).center (pole0 c0 phi) - (chain0 c0 n shift i).radius ^ 2) ∧
      sepsilon_ < sqDist (inner0 c0 n).center (pole0 c0 phi) - (inner0 c0 n).radius ^ 2 := by
  intro hp
  obtain ⟨h1, h2⟩ := h hp
  refine ⟨fun i hi => ?_, ?_⟩
  · rw [chain0_power hn shift hp]; exact h1 i hi
  · rw [inner0_power hn hp]; exact h2

/-- C31, the exact condition: a Steiner chain is returned exactly when `phi = 0` or the pole of the inversion is farther than the
tolerance from the circles of the regular chain. -/
theorem C31_exact (c0 : Circle) (hc : c0.Valid) (n : ℕ) (hn : 3 ≤ n) (phi shift : ℝ) (hphi : |phi| < 1) :
    (∃ (chain : ℕ → Circle) (inner : Circle) (ell : Ellipse),
      SteinerChain c0 n phi shift = .ok ⟨(List.range n).map (fun i => .circle (chain i)) ++ [.circle inner], ell⟩ ∧
      IsSteiner c0.center c0.radius n chain inner) ↔ (phi ≠ 0 → PoleFar c0.radius n phi shift) := by
  constructor
  · rintro ⟨chain, inner, ell, h, -⟩ hp
    exact steiner_far hc hn hphi hp h
  · intro h
    obtain ⟨chain, inner, b, h1, h2, -, -⟩ := steiner_main' hc hn shift hphi (steiner_htol hn h)
    exact ⟨chain, inner, _, h1, fun i hi => ⟨h2.pos i, h2.next i hi, h2.outer i, h2.touch i⟩, h2.ipos⟩

/-- A chain of five circles around the common center (`phi = 0`), in a circle as small as one likes. -/
example (r : ℝ) (hr : 0 < r) : ∃ (chain : ℕ → Circle) (inner : Circle) (ell : Ellipse),
    SteinerChain ⟨⟨1, 2⟩, r⟩ 5 0 1 = .ok ⟨(List.range 5).map (fun i => .circle (chain i)) ++ [.circle inner], ell⟩ ∧
    IsSteiner ⟨1, 2⟩ r 5 chain inner :=
  (C31_exact ⟨⟨1, 2⟩, r⟩ hr 5 (by norm_num) 0 1 (by norm_num)).2 fun h => absurd rfl h

/-- C32, the exact condition: an ellipse through the centers of the circles of a chain is returned exactly under the condition
of `C31_exact`. -/
theorem C32_exact (c0 : Circle) (hc : c0.Valid) (n : ℕ) (hn : 3 ≤ n) (phi shift : ℝ) (hphi : |phi| < 1) :
    (∃ (chain : ℕ → Circle) (inner : Circle) (ell : Ellipse),
      SteinerChain c0 n phi shift = .ok ⟨(List.range n).map (fun i => .circle (chain i)) ++ [.circle inner], ell⟩ ∧
      ell.Valid ∧ ell.rminor ≤ ell.rmajor ∧ ∀ i < n, OnEllipse ell.center ell.rmajor ell.rminor ell.rad (chain i).center) ↔
    (phi ≠ 0 → PoleFar c0.radius n phi shift) := by
  constructor
  · rintro ⟨chain, inner, ell, h, -⟩ hp
    exact steiner_far hc hn hphi hp h
  · intro h
    obtain ⟨chain, inner, b, h1, h2, hb, hb2⟩ := steiner_main' hc hn shift hphi (steiner_htol hn h)
    obtain ⟨h3, h4, h5⟩ := chain_ellipse hc h2 hb hb2
    exact ⟨chain, inner, _, h1, h3, h4, fun i _ => h5 i⟩

/-- The condition holds for the unit circle, five circles and `phi = 1/2`, and fails for the radius `10⁻⁵`. -/
example : PoleFar 1 5 (1 / 2) 0 ∧ ¬ PoleFar (1 / 100000) 5 (1 / 2) 0 := by
  obtain ⟨hs0, hs1⟩ := sine_bounds (n := 5) (by norm_num)
  push_cast at hs0 hs1
  obtain ⟨s, hs⟩ : ∃ s, s = sin (π / 5) := ⟨_, rfl⟩
  rw [← hs] at hs0 hs1
  have hq0 : 0 < (1 - s) / (1 + s) := div_pos (by linarith) (by linarith)
  have hq1 : (1 - s) / (1 + s) < 1 := by rw [div_lt_one (by linarith)]; linarith
  have hm : (1 - s) / (1 + s) = 2 / (1 + s) - 1 := by field_simp; ring
  have hr0 : 0 < 2 / (1 + s) := by positivity
  have hr1 : 2 / (1 + s) < 2 := by rw [div_lt_iff₀ (by linarith)]; linarith
  constructor
  · constructor
    · intro i _
      push_cast
      rw [← hs, hm, add_zero]
      have hc := cos_le_one ((i : ℝ) * (2 * π / 5))
      have e : 2 * cos ((i : ℝ) * (2 * π / 5)) / (1 / 2 * (1 + s)) = 2 / (1 + s) * (2 * cos ((i : ℝ) * (2 * π / 5))) := by
        field_simp
      rw [e]
      have : 2 / (1 + s) * (2 * cos ((i : ℝ) * (2 * π / 5))) ≤ 2 / (1 + s) * 2 :=
        mul_le_mul_of_nonneg_left (by linarith) hr0.le
      norm_num
      linarith
    · push_cast
      rw [← hs]
      have : ((1 - s) / (1 + s)) ^ 2 < 1 := by nlinarith
      norm_num
      linarith
  · rintro ⟨-, h⟩
    push_cast at h
    rw [← hs] at h
    have : 0 < ((1 - s) / (1 + s)) ^ 2 := by positivity
    norm_num at h
    linarith

/-! ### C51 -/

/-- Two invertible Moebius transformations acting in the same way have proportional matrices. -/
theorem mobius_proportional {f g : Mobius} (hf : Matrix.det f.M ≠ 0) (hg : Matrix.det g.M ≠ 0)
    (h : ∀ P, f.transform P = g.transform P) : ∃ μ : ℂ, μ ≠ 0 ∧ f.M = μ • g.M := by
  have hf' := (det_ne_iff _).1 hf
  have hg' := (det_ne_iff _).1 hg
  have key : ∀ P, (f.M 0 0 * num P + f.M 0 1 * den P) * (g.M 1 0 * num P + g.M 1 1 * den P) =
      (f.M 1 0 * num P + f.M 1 1 * den P) * (g.M 0 0 * num P + g.M 0 1 * den P) := by
    intro P
    obtain ⟨e, he⟩ := C49_bijection f hf
    have h1 := (C49_transform f hf P (e P)).1 (he P)
    have h2 := (C49_transform g hg P (e P)).1 (by rw [← h]; exact he P)
    unfold IsMobImage at h1 h2
    generalize num P = n at h1 h2 ⊢
    generalize den P = d at h1 h2 ⊢
    generalize e P = Q at h1 h2
    cases Q with
    | inf =>
      simp only [num, den, mul_zero, mul_one] at h1 h2
      rw [← h1, ← h2]; ring
    | fin Q =>
      simp only [den, mul_one] at h1 h2
      rw [h1, h2]; ring
  have k1 := key .inf
  have k2 := key (.fin ⟨0, 0⟩)
  have k3 := key (.fin ⟨1, 0⟩)
  have n0 : num (.fin ⟨0, 0⟩) = 0 := by simp [num, cpx]; rfl
  have n1 : num (.fin ⟨1, 0⟩) = 1 := by simp [num, cpx]; rfl
  rw [n0] at k2
  rw [n1] at k3
  simp only [num, den, mul_zero, mul_one, zero_add, add_zero] at k1 k2 k3
  have hd : g.M 0 0 * g.M 1 1 - g.M 0 1 * g.M 1 0 ≠ 0 := by
    rw [← Matrix.det_fin_two]; exact hg
  refine ⟨(g.M 1 1 * f.M 0 0 - g.M 0 1 * f.M 1 0) / (g.M 0 0 * g.M 1 1 - g.M 0 1 * g.M 1 0), ?_, ?_⟩
  · intro h0
    rw [div_eq_zero_iff, or_iff_left hd] at h0
    apply hf
    have e1 : g.M 0 0 * f.M 1 1 - g.M 1 0 * f.M 0 1 = 0 := by linear_combination h0 - k3 + k1 + k2
    have e : (g.M 0 0 * g.M 1 1 - g.M 0 1 * g.M 1 0) * Matrix.det f.M = 0 := by
      rw [Matrix.det_fin_two]
      linear_combination (g.M 0 0 * f.M 1 1 - g.M 1 0 * f.M 0 1) * h0 + (g.M 1 1 * f.M 0 1 - g.M 0 1 * f.M 1 1) * k1
    exact (mul_eq_zero.1 e).resolve_left hd
  · ext i j
    rw [Matrix.smul_apply, smul_eq_mul, div_mul_eq_mul_div, eq_div_iff hd]
    fin_cases i <;> fin_cases j <;> simp only [Fin.zero_eta, Fin.mk_one, Fin.isValue]
    · linear_combination (-g.M 0 1) * k1
    · linear_combination (g.M 0 0) * k2 - g.M 0 1 * (k3 - k1 - k2)
    · linear_combination (-g.M 1 1) * k1
    · linear_combination (-g.M 1 1) * (k3 - k1 - k2) + (g.M 1 0) * k2

/-- C51, the exact condition: `gpower` returns a one-parameter group of invertible transformations which agrees with `power` at the
integers exactly in the cases of `ExactPower`. -/
theorem C51_exact (eig : Matrix (Fin 2) (Fin 2) ℂ → Mobius.Eig) (f : Mobius) (h : Matrix.det f.M ≠ 0)
    (he : Mobius.IsEig f.M (eig f.M)) :
    (∃ F : ℝ → Mobius, (∀ t, f.gpower eig t = .ok (F t) ∧ Matrix.det (F t).M ≠ 0) ∧
      (∀ s t P, (F (s + t)).transform P = ((F t).transform P >>= (F s).transform)) ∧
      ∀ k : ℤ, ∃ g, f.power k = .ok g ∧ ∀ P, (F k).transform P = g.transform P) ↔ ExactPower f.M := by
  refine ⟨?_, C51_gpower_partial eig f h he⟩
  rintro ⟨F, hF, -, hk⟩
  by_contra hx
  obtain ⟨e, hee⟩ := C49_bijection f h
  obtain ⟨g, hg, hact⟩ := hk 1
  obtain ⟨g', hg', -, hact'⟩ := C50_power f h e hee 1
  rw [hg, Except.ok.injEq] at hg'
  subst hg'
  obtain ⟨hF1, hdF⟩ := hF ((1 : ℤ) : ℝ)
  obtain ⟨μ, hμ, hM⟩ := mobius_proportional h hdF (fun P => by rw [hact, hact', hee, zpow_one])
  generalize ((1 : ℤ) : ℝ) = t at hF1 hdF hM
  generalize F t = G at hF1 hdF hM
  have hdisc : Matrix.trace f.M ^ 2 - 4 * Matrix.det f.M = μ ^ 2 * (Matrix.trace G.M ^ 2 - 4 * Matrix.det G.M) := by
    rw [hM, Matrix.trace_fin_two, Matrix.det_fin_two, Matrix.trace_fin_two, Matrix.det_fin_two]
    simp only [Matrix.smul_apply, smul_eq_mul]; ring
  unfold ExactPower at hx
  rw [not_or] at hx
  obtain ⟨hx1, hx2⟩ := hx
  have hcond : (f.M 0 0 + f.M 1 1) * (f.M 0 0 + f.M 1 1) - 4 * (f.M 0 0 * f.M 1 1 - f.M 1 0 * f.M 0 1) =
      Matrix.trace f.M ^ 2 - 4 * Matrix.det f.M := by
    rw [Matrix.trace_fin_two, Matrix.det_fin_two]; ring
  unfold Mobius.gpower at hF1
  dsimp only at hF1
  rw [hcond, if_pos (not_le.1 hx1), ← Matrix.trace_fin_two f.M] at hF1
  by_cases hcl : npCloseC (f.M 0 0) (Matrix.trace f.M / 2) ∧ npCloseC (f.M 0 1) 0 ∧ npCloseC (f.M 1 0) 0 ∧
        npCloseC (f.M 1 1) (Matrix.trace f.M / 2)
  · rw [if_pos hcl] at hF1
    obtain ⟨a, -, h1⟩ := Res.bind_ok.1 hF1
    rw [Res.pure_ok] at h1
    apply hx2
    have e1 : f.M = !![μ * a, 0; 0, μ * a] := by
      rw [hM, ← h1]
      ext i j
      fin_cases i <;> fin_cases j <;> simp
    refine ⟨?_, Or.inl ⟨_, e1⟩⟩
    rw [e1, Matrix.trace_fin_two, Matrix.det_fin_two]
    simp; ring
  · rw [if_neg hcl] at hF1
    have hne : Matrix.trace f.M ^ 2 - 4 * Matrix.det f.M ≠ 0 := by
      intro h0
      exact hx2 ⟨by linear_combination h0, Or.inr hcl⟩
    apply hne
    obtain ⟨a, -, h1⟩ := Res.bind_ok.1 hF1
    obtain ⟨b, -, h2⟩ := Res.bind_ok.1 h1
    clear h1 hF1
    obtain ⟨P, hP⟩ : ∃ P, P = (if npCloseC ((!![f.M 0 0 - Matrix.trace f.M / 2, f.M 0 1; f.M 1 0, f.M 1 1 - Matrix.trace f.M / 2] :
      Matrix (Fin 2) (Fin 2) ℂ) 0 1) 0 ∧ npCloseC ((!![f.M 0 0 - Matrix.trace f.M / 2, f.M 0 1; f.M 1 0, f.M 1 1 - Matrix.trace f.M / 2] :
      Matrix (Fin 2) (Fin 2) ℂ) 1 1) 0 then
      !![(!![f.M 0 0 - Matrix.trace f.M / 2, f.M 0 1; f.M 1 0, f.M 1 1 - Matrix.trace f.M / 2] : Matrix (Fin 2) (Fin 2) ℂ) 0 0, 1;
        (!![f.M 0 0 - Matrix.trace f.M / 2, f.M 0 1; f.M 1 0, f.M 1 1 - Matrix.trace f.M / 2] : Matrix (Fin 2) (Fin 2) ℂ) 1 0, 0]
      else !![(!![f.M 0 0 - Matrix.trace f.M / 2, f.M 0 1; f.M 1 0, f.M 1 1 - Matrix.trace f.M / 2] : Matrix (Fin 2) (Fin 2) ℂ) 0 1, 0;
        (!![f.M 0 0 - Matrix.trace f.M / 2, f.M 0 1; f.M 1 0, f.M 1 1 - Matrix.trace f.M / 2] : Matrix (Fin 2) (Fin 2) ℂ) 1 1, 1]) := ⟨_, rfl⟩
    rw [← hP] at h2
    by_cases hdP : Matrix.det P = 0
    · rw [if_pos hdP] at h2; exact absurd h2 (by simp)
    · rw [if_neg hdP, Res.pure_ok] at h2
      have hu : IsUnit (Matrix.det P) := isUnit_iff_ne_zero.2 hdP
      have ht : Matrix.trace G.M = 2 * a := by
        rw [← h2, Matrix.trace_mul_comm, ← mul_assoc, Matrix.nonsing_inv_mul _ hu, one_mul, Matrix.trace_fin_two]
        simp; ring
      have hd : Matrix.det G.M = a ^ 2 := by
        rw [← h2, Matrix.det_mul, Matrix.det_mul, Matrix.det_nonsing_inv, Ring.inverse_eq_inv', Matrix.det_fin_two_of]
        field_simp; ring
      rw [hdisc, ht, hd]; ring

/-- `ExactPower` holds for `z ↦ z/2` and fails for `z ↦ z / 1.0001`. -/
example : ExactPower !![1, 0; 0, 2] ∧ ¬ ExactPower !![1, 0; 0, 10001 / 10000] := by
  constructor
  · left
    have : (Matrix.trace (!![1, 0; 0, 2] : Matrix (Fin 2) (Fin 2) ℂ) ^ 2 - 4 * Matrix.det !![1, 0; 0, 2]) = (1 : ℂ) := by
      simp [Matrix.trace_fin_two]; norm_num
    rw [this, norm_one]; unfold sepsilon_; norm_num
  · have : (Matrix.trace (!![1, 0; 0, 10001 / 10000] : Matrix (Fin 2) (Fin 2) ℂ) ^ 2 - 4 * Matrix.det !![1, 0; 0, 10001 / 10000]) =
        ((1 / 10 ^ 8 : ℝ) : ℂ) := by
      simp [Matrix.trace_fin_two]; norm_num
    rintro (h | ⟨h, -⟩)
    · rw [this, Complex.norm_real, Real.norm_of_nonneg (by norm_num)] at h
      unfold sepsilon_ at h; norm_num at h
    · rw [h, sub_self] at this
      have := congrArg Complex.re this
      rw [Complex.ofReal_re] at this
      norm_num at this
