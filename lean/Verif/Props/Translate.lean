import Verif.Props.Line
import Verif.Props.Transforms

/-! C98: `Line.translate` and the constructor of `Reflection`. -/

open Spec Real Classical

theorem lineSet_translate (A B v : Pt) (a b : Bool) (P : Pt) :
    LineSet ⟨A + v, B + v, a, b⟩ (P + v) ↔ LineSet ⟨A, B, a, b⟩ P := by
  have key : ∀ (X Y : Pt) (t : ℝ), P + v = (X + v) + t • ((Y + v) - (X + v)) ↔ P = X + t • (Y - X) := by
    intro X Y t
    constructor
    · intro h
      have hx := congrArg Pt.x h
      have hy := congrArg Pt.y h
      simp at hx hy
      ext <;> simp <;> linarith
    · intro h
      rw [h]
      ext <;> simp <;> ring
  unfold LineSet
  cases a <;> cases b <;> simp only [OnLine, OnRay, OnSegment, key]

/-- C98: the translated line is the translate of the set of points of the line (a segment gives a segment, a half-line gives a half-line), for
every line and vector for which the method returns; it is a line the constructor accepts. -/
theorem C98_translate_partial (l : Line) (v : Pt) (l' : Line) (h : l.translate v = .ok l') :
    (∀ P, LineSet l' (P + v) ↔ LineSet l P) ∧ l'.Valid ∧ l'.extendA = l.extendA ∧ l'.extendB = l.extendB := by
  unfold Line.translate at h
  obtain ⟨hv, rfl⟩ := mkLine_ok.1 h
  exact ⟨fun P => lineSet_translate _ _ _ _ _ P, hv, rfl, rfl⟩

/-- C98: `translate` raises exactly when the translated points are close in the sense of `np.allclose`. -/
theorem C98_exact (l : Line) (v : Pt) :
    ((∃ l', l.translate v = .ok l') ↔ ¬ allclose (l.A + v) (l.B + v)) ∧
      (allclose (l.A + v) (l.B + v) → ∃ msg, l.translate v = .error (.valueError msg)) := by
  unfold Line.translate
  constructor
  · constructor
    · rintro ⟨l', h⟩; exact (mkLine_ok.1 h).1
    · intro h; exact ⟨_, mkLine_ok.2 ⟨h, rfl⟩⟩
  · intro h
    unfold mkLine
    rw [if_pos h]
    exact ⟨_, rfl⟩

/-- A segment of length one cannot be moved to abscissa `10^6`. -/
example : ∃ msg, (⟨⟨0, 0⟩, ⟨1, 0⟩, false, false⟩ : Line).translate ⟨10 ^ 6, 0⟩ = .error (.valueError msg) :=
  (C98_exact _ _).2 (by unfold allclose npClose; norm_num [abs_of_pos, Pt.add_x, Pt.add_y])

/-- C98: the unit segment on the x axis cannot be translated by `(10^6, 0)`: the tolerance of `np.allclose` grows with the coordinates. -/
theorem C98_translate_counterexample :
    (⟨⟨0, 0⟩, ⟨1, 0⟩, false, false⟩ : Line).Valid ∧
      ∃ msg, (⟨⟨0, 0⟩, ⟨1, 0⟩, false, false⟩ : Line).translate ⟨1000000, 0⟩ = .error (.valueError msg) := by
  constructor
  · unfold Line.Valid allclose npClose; norm_num
  · refine (C98_exact _ _).2 ?_
    unfold allclose npClose
    constructor <;> norm_num [abs_of_pos, abs_of_neg]

/-- C98: translations compose and are undone. -/
theorem C98_translate_compose (l l' l'' : Line) (v w : Pt) (h : l.translate v = .ok l') (h' : l'.translate w = .ok l'') :
    l.translate (v + w) = .ok l'' ∧ (l.Valid → l'.translate (-v) = .ok l) := by
  unfold Line.translate at *
  obtain ⟨hv, rfl⟩ := mkLine_ok.1 h
  obtain ⟨hw, rfl⟩ := mkLine_ok.1 h'
  dsimp only at *
  have assoc : ∀ X : Pt, X + v + w = X + (v + w) := by intro X; ext <;> simp <;> ring
  have canc : ∀ X : Pt, X + v + -v = X := by intro X; ext <;> simp
  rw [← assoc, ← assoc, canc, canc]
  exact ⟨h', fun hl => mkLine_ok.2 ⟨hl, rfl⟩⟩

/-- Two translations of a half-line, and the way back. -/
example : (⟨⟨0, 0⟩, ⟨1, 0⟩, false, true⟩ : Line).translate (⟨3, 4⟩ + ⟨-1, 2⟩) = .ok ⟨⟨2, 6⟩, ⟨3, 6⟩, false, true⟩ ∧
    (⟨⟨3, 4⟩, ⟨4, 4⟩, false, true⟩ : Line).translate (-⟨3, 4⟩) = .ok ⟨⟨0, 0⟩, ⟨1, 0⟩, false, true⟩ ∧
    ∀ P, LineSet ⟨⟨3, 4⟩, ⟨4, 4⟩, false, true⟩ (P + ⟨3, 4⟩) ↔ LineSet ⟨⟨0, 0⟩, ⟨1, 0⟩, false, true⟩ P := by
  have h1 : (⟨⟨0, 0⟩, ⟨1, 0⟩, false, true⟩ : Line).translate ⟨3, 4⟩ = .ok ⟨⟨3, 4⟩, ⟨4, 4⟩, false, true⟩ := by
    unfold Line.translate mkLine
    rw [if_neg (by unfold allclose npClose; norm_num [abs_of_pos])]
    congr 2 <;> ext <;> norm_num
  have h2 : (⟨⟨3, 4⟩, ⟨4, 4⟩, false, true⟩ : Line).translate ⟨-1, 2⟩ = .ok ⟨⟨2, 6⟩, ⟨3, 6⟩, false, true⟩ := by
    unfold Line.translate mkLine
    rw [if_neg (by unfold allclose npClose; norm_num [abs_of_pos])]
    congr 2 <;> ext <;> norm_num
  obtain ⟨h3, h4⟩ := C98_translate_compose _ _ _ _ _ h1 h2
  exact ⟨h3, h4 (by unfold Line.Valid allclose npClose; norm_num [abs_of_pos]), (C98_translate_partial _ _ _ h1).1⟩

/-- C98: the constructor of `Reflection` accepts every line and keeps the full line through its two points, so the reflection in a segment or a
half-line is the reflection in the line that carries it. -/
theorem C98_reflection_init (l : Line) (hl : l.Valid) :
    ∃ R, mkReflection l = .ok R ∧ R.line.Valid ∧ (∀ P, LineSet R.line P ↔ OnLine l.A l.B P) ∧
      (∀ l2 : Line, l2.A = l.A → l2.B = l.B → mkReflection l2 = .ok R) := by
  have key : ∀ l2 : Line, l2.A = l.A → l2.B = l.B → mkReflection l2 = .ok ⟨⟨l.A, l.B, true, true⟩⟩ := by
    intro l2 hA hB
    unfold mkReflection
    rw [hA, hB, mkLine_ok.2 ⟨hl, rfl⟩]
    rfl
  exact ⟨_, key l rfl rfl, hl, fun P => Iff.rfl, key⟩

/-- A segment translated by `(3, 4)`. -/
example : (⟨⟨0, 0⟩, ⟨1, 0⟩, false, false⟩ : Line).translate ⟨3, 4⟩ = .ok ⟨⟨3, 4⟩, ⟨4, 4⟩, false, false⟩ := by
  unfold Line.translate
  have e1 : (⟨0, 0⟩ : Pt) + ⟨3, 4⟩ = ⟨3, 4⟩ := by ext <;> simp
  have e2 : (⟨1, 0⟩ : Pt) + ⟨3, 4⟩ = ⟨4, 4⟩ := by ext <;> simp; norm_num
  dsimp only
  rw [e1, e2]
  refine mkLine_ok.2 ⟨?_, rfl⟩
  unfold allclose npClose
  norm_num
