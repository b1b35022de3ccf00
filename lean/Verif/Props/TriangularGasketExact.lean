import Verif.Props.TriangularGasket
import Verif.Lemmas.TriGasketExact

/-!
# C101: when the script `triangularApollonianGasket.py` finishes
-/

open Spec Real Classical GV TriGasket

namespace TriGasket

theorem cornerCircle_zero (A : Pt) (c : Circle) : cornerCircle A c 0 = c := by
  unfold cornerCircle
  rw [pow_zero, one_mul]
  ext <;> simp

theorem HoleIs.vtx {A B C : Pt} {c : Circle} {W : List GV} {R : Set Pt} (h : HoleIs (.cll A B C c) W R) : VtxOk (A, B, C, c) := by
  obtain ⟨u, w, σ, γ, β, κ, m, h, hm, e, -⟩ := h
  have := h.hσ
  exact ⟨u, w, σ, γ, β, κ, _, h, by positivity, e⟩

/-- The state of the script after the first lines. -/
theorem setup {A B C : Pt} (h : ¬ Collinear A B C) : ∃ m, (⟨A, B, C⟩ : Triangle).malfatti_circles = .ok (some m) ∧
    MalfattiConfig A B C m.cA.center m.cA.radius m.cB.center m.cB.radius m.cC.center m.cC.radius m.TA m.TB m.TC ∧
    VtxOk (A, B, C, m.cA) ∧ VtxOk (B, A, C, m.cB) ∧ VtxOk (C, A, B, m.cC) ∧
    (∀ depth, (∃ L, drawTriangularGasket A B C depth = .ok L) ↔ ∀ k ≤ depth, ∀ v ∈ [(A, B, C, m.cA), (B, A, C, m.cB), (C, A, B, m.cC)],
      CornerFine v.1 v.2.1 v.2.2.1 (cornerCircle v.1 v.2.2.2 k)) ∧
    ∀ depth, OnlyCorner (drawTriangularGasket A B C depth) := by
  obtain ⟨m, em, M⟩ := C43_malfatti ⟨A, B, C⟩ h
  dsimp only at M
  obtain ⟨a, b, c, -, la, lb, lc, inv⟩ := start h M
  obtain ⟨V, hVe⟩ : ∃ V : List Vtx, V = [(A, B, C, m.cA), (B, A, C, m.cB), (C, A, B, m.cC)] := ⟨_, rfl⟩
  have hh := inv.isHole
  have v1 : VtxOk (A, B, C, m.cA) := by
    obtain ⟨W, R, x⟩ := hh (.cll A B C m.cA) (by simp)
    exact HoleIs.vtx x
  have v2 : VtxOk (B, A, C, m.cB) := by
    obtain ⟨W, R, x⟩ := hh (.cll B A C m.cB) (by simp)
    exact HoleIs.vtx x
  have v3 : VtxOk (C, A, B, m.cC) := by
    obtain ⟨W, R, x⟩ := hh (.cll C A B m.cC) (by simp)
    exact HoleIs.vtx x
  have hV : ∀ v ∈ V, VtxOk v := by
    rw [hVe]
    simp only [List.mem_cons, List.not_mem_nil, or_false, forall_eq_or_imp, forall_eq]
    exact ⟨v1, v2, v3⟩
  have cor : Corners V 0 [.ccl m.cA m.cB A B, .ccl m.cB m.cC B C, .ccl m.cC m.cA C A, .ccc m.cA m.cB m.cC, .cll A B C m.cA,
      .cll B A C m.cB, .cll C A B m.cC] := by
    unfold Corners
    rw [hVe]
    simp [vhole, cornerCircle_zero]
  have fst : ∀ sts, first A B C m.cA m.cB m.cC = .ok sts ↔ List.Forall₂ (fun h st => fill h = .ok st) [.ccl m.cA m.cB A B, .ccl m.cB m.cC B C,
      .ccl m.cC m.cA C A, .ccc m.cA m.cB m.cC, .cll A B C m.cA, .cll B A C m.cB, .cll C A B m.cC] sts := by
    intro sts
    unfold first
    constructor
    · intro e
      obtain ⟨s1, e1, e⟩ := Res.bind_ok.1 e
      obtain ⟨s2, e2, e⟩ := Res.bind_ok.1 e
      obtain ⟨s3, e3, e⟩ := Res.bind_ok.1 e
      obtain ⟨s4, e4, e⟩ := Res.bind_ok.1 e
      obtain ⟨s5, e5, e⟩ := Res.bind_ok.1 e
      obtain ⟨s6, e6, e⟩ := Res.bind_ok.1 e
      obtain ⟨s7, e7, e⟩ := Res.bind_ok.1 e
      rw [← Res.pure_ok.1 e]
      exact .cons e1 (.cons e2 (.cons e3 (.cons e4 (.cons e5 (.cons e6 (.cons e7 .nil))))))
    · intro e
      obtain _ | ⟨e1, e⟩ := e
      obtain _ | ⟨e2, e⟩ := e
      obtain _ | ⟨e3, e⟩ := e
      obtain _ | ⟨e4, e⟩ := e
      obtain _ | ⟨e5, e⟩ := e
      obtain _ | ⟨e6, e⟩ := e
      obtain _ | ⟨e7, e⟩ := e
      obtain _ | _ := e
      unfold fill at e1 e2 e3 e4 e5 e6 e7
      dsimp only at e1 e2 e3 e4 e5 e6 e7
      rw [e1, Res.ok_bind, e2, Res.ok_bind, e3, Res.ok_bind, e4, Res.ok_bind, e5, Res.ok_bind, e6, Res.ok_bind, e7, Res.ok_bind]
      rfl
  refine ⟨m, em, M, v1, v2, v3, ?_, ?_⟩
  · intro depth
    rw [← hVe]
    unfold drawTriangularGasket
    rw [em, Res.ok_bind]
    dsimp only
    have hi := cor.fill_iff hV hh
    constructor
    · rintro ⟨L, hr⟩
      obtain ⟨sts, e, hr⟩ := Res.bind_ok.1 hr
      have f := (fst sts).1 e
      have key := (passes_iff hV (inv.step f) (cor.step hV f)).1 ⟨L, hr⟩
      rintro (_ | k) hk
      · exact hi.1 ⟨_, f⟩
      · have := key k (by omega)
        rwa [show 0 + 1 + k = k + 1 by ring] at this
    · intro hf
      obtain ⟨sts, f⟩ := hi.2 (hf 0 (Nat.zero_le _))
      obtain ⟨L, hp⟩ := (passes_iff (d := depth) hV (inv.step f) (cor.step hV f)).2 fun j hj => by
        have := hf (j + 1) (by omega)
        rwa [show j + 1 = 0 + 1 + j by ring] at this
      exact ⟨L, by rw [(fst sts).2 f, Res.ok_bind]; exact hp⟩
  · intro depth
    unfold drawTriangularGasket
    rw [em, Res.ok_bind]
    dsimp only
    refine OnlyCorner.bind ?_ fun sts e => passes_only (inv.step ((fst sts).1 e))
    have fo : ∀ h ∈ [Hole.ccl m.cA m.cB A B, .ccl m.cB m.cC B C, .ccl m.cC m.cA C A, .ccc m.cA m.cB m.cC, .cll A B C m.cA,
        .cll B A C m.cB, .cll C A B m.cC], OnlyCorner (fill h) := by
      intro h hm
      obtain ⟨W, R, x⟩ := hh h hm
      exact fill_only x
    simp only [List.mem_cons, List.not_mem_nil, or_false, forall_eq_or_imp, forall_eq] at fo
    obtain ⟨f1, f2, f3, f4, f5, f6, f7⟩ := fo
    exact f1.bind fun _ _ => f2.bind fun _ _ => f3.bind fun _ _ => f4.bind fun _ _ => f5.bind fun _ _ => f6.bind fun _ _ => f7.bind fun _ _ => OnlyCorner.ok _

end TriGasket

/-- C101, the exact condition: for a triangle that is not flat the script finishes if and only if, in each of the three corners and for each of the
circles number `0` to `depth` (they form a geometric sequence), the lines of `side_side_circle` are accepted by the tests with tolerance. -/
theorem C101_exact (A B C : Pt) (h : ¬ Collinear A B C) : ∃ m, (⟨A, B, C⟩ : Triangle).malfatti_circles = .ok (some m) ∧
    ∀ depth, (∃ L, drawTriangularGasket A B C depth = .ok L) ↔ ∀ k ≤ depth, CornerFine A B C (cornerCircle A m.cA k) ∧
      CornerFine B A C (cornerCircle B m.cB k) ∧ CornerFine C A B (cornerCircle C m.cC k) := by
  obtain ⟨m, em, -, -, -, -, hi, -⟩ := setup h
  refine ⟨m, em, fun depth => (hi depth).trans ?_⟩
  simp

/-- C101: the only errors are those of the lines and of the points of intersection in a corner. -/
theorem C101_error (A B C : Pt) (h : ¬ Collinear A B C) (depth : ℕ) (e : Err) (he : drawTriangularGasket A B C depth = .error e) :
    e = .valueError "`A` and `B` must be distinct." ∨ e = .valueError "`B` is not a point." ∨ e = .valueError "`C` is not a point." := by
  obtain ⟨m, em, -, -, -, -, -, ho⟩ := setup h
  have := ho depth e he
  simpa [cornerErrs] using this

/-- No other error for the triangle `(0, 0)`, `(1, 0)`, `(0, 1)`, at any depth. -/
example (depth : ℕ) : drawTriangularGasket ⟨0, 0⟩ ⟨1, 0⟩ ⟨0, 1⟩ depth ≠ .error .zeroDivision := by
  intro h
  rcases C101_error _ _ _ (by norm_num [Collinear, cross]) depth _ h with h | h | h <;> simp at h

/-- C101, a failure: for every triangle that is not flat, the script raises a `ValueError` as soon as the depth is large enough, although the gasket
has circles at every depth: the circles in the corner are too small for the tolerance of `intersection_line_line`. -/
theorem C101_deep_counterexample (A B C : Pt) (h : ¬ Collinear A B C) :
    ∃ N, ∀ depth ≥ N, ∃ msg, drawTriangularGasket A B C depth = .error (.valueError msg) := by
  obtain ⟨m, em, -, ⟨u, w, σ, γ, β, κ, l, hc, hl, e⟩, -, -, hi, ho⟩ := setup h
  dsimp only at hc e
  have hσ := hc.hσ
  have hγ := hc.hγ
  have hβ := hc.hβ
  have hr := hc.ratio_pos
  have hr1 : (1 - σ) / (1 + σ) < 1 := by rw [div_lt_one (by linarith)]; linarith
  obtain ⟨N, hN⟩ := exists_pow_lt_of_lt_one (show 0 < 1 / 2 ^ 26 / (σ * l * (γ * β)) by positivity) hr1
  refine ⟨N, fun depth hd => ?_⟩
  cases hx : drawTriangularGasket A B C depth with
  | ok L =>
    exfalso
    have := ((hi depth).1 ⟨L, hx⟩) N hd (A, B, C, m.cA) (by simp)
    dsimp only at this
    rw [e, hc.cornerCircle hl, hc.fine_iff (by positivity)] at this
    have := (this.2.2.2 B (.inl rfl)).2
    rw [hc.cross_B, abs_of_pos (by positivity)] at this
    rw [lt_div_iff₀ (by positivity)] at hN
    linarith
  | error e =>
    rcases C101_error A B C h depth e hx with rfl | rfl | rfl <;> exact ⟨_, rfl⟩

/-- C101: for a flat triangle `malfatti_circles` returns `None`, and the script raises a `TypeError`. -/
theorem C101_flat (A B C : Pt) (h : Collinear A B C) (h1 : A ≠ B) (h2 : A ≠ C) (depth : ℕ) :
    drawTriangularGasket A B C depth = .error .typeError := by
  unfold drawTriangularGasket
  rw [C43_malfatti_flat ⟨A, B, C⟩ h h1 h2, Res.ok_bind]
