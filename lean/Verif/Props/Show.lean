import Verif.Model.Show
import Verif.Props.Line
import Verif.Props.Triangle

/-!
# C87: what is printed
-/

open Spec Real Classical

namespace Spec

/-- The points that a sentence about the points `A` and `B` speaks of. -/
def Meaning (s : String) (A B P : Pt) : Prop :=
  (s = "Infinite line passing through A and B.\n" ∧ OnLine A B P) ∨
  (s = "Half-line with origin B and passing through A.\n" ∧ OnRay B A P) ∨
  (s = "Half-line with origin A and passing through B.\n" ∧ OnRay A B P) ∨
  (s = "Segment joining A and B.\n" ∧ OnSegment A B P)

/-- Whether a message about the point `M` is true.  `(AB]` is the half-line with origin `B`, `[AB)` the one with origin `A`. -/
def MessageTrue (s : String) (A B M : Pt) : Prop :=
  (s = "The point is on the line (AB), but not on the segment [AB]." ∧ OnLine A B M ∧ ¬ OnSegment A B M) ∨
  (s = "The point is on the line (AB), but not on the half-line (AB]." ∧ OnLine A B M ∧ ¬ OnRay B A M) ∨
  (s = "The point is on the line (AB), but not on the half-line [AB)." ∧ OnLine A B M ∧ ¬ OnRay A B M)

end Spec

/-- C87: `Line.show` prints the two points, and its last sentence speaks of exactly the points of the segment, half-line or line that
`includes` decides (C06). -/
theorem C87_show_line (l : Line) (hl : l.Valid) :
    l.show.res = .ok () ∧ [Txt.str "       A: ", .tup l.A, .str "\n"] ∈ l.show.out ∧
    [Txt.str "       B: ", .tup l.B, .str "\n"] ∈ l.show.out ∧
    ∃ s, l.show.out.getLast? = some [.str s] ∧ (∀ P, Meaning s l.A l.B P ↔ LineSet l P) ∧
      ∀ M, ¬ allclose l.A M → ¬ allclose l.B M → (Meaning s l.A l.B M ↔ l.includes M (strict := true) = true) := by
  have key : ∃ s, l.show.out.getLast? = some [.str s] ∧ (∀ P, Meaning s l.A l.B P ↔ LineSet l P) := by
    obtain ⟨A, B, ea, eb⟩ := l
    cases ea <;> cases eb <;> refine ⟨_, rfl, fun P => ?_⟩ <;> unfold Meaning LineSet <;> simp
  obtain ⟨s, h1, h2⟩ := key
  exact ⟨rfl, by simp [Line.show], by simp [Line.show], s, h1, h2, fun M hA hB => by rw [h2, C06_includes_strict l hl M hA hB]⟩

/-- C87: what is printed determines the object. -/
theorem C87_show_injective :
    (∀ l l' : Line, l.show.out = l'.show.out → l = l') ∧ (∀ c c' : Circle, c.show.out = c'.show.out → c = c') ∧
    (∀ e e' : Ellipse, e.show.out = e'.show.out → e = e') ∧ (∀ i i' : Inversion, i.show.out = i'.show.out → i = i') ∧
    (∀ r r' : Rotation, r.show.out = r'.show.out → r = r') ∧ (∀ s s' : ScalingXY, s.show.out = s'.show.out → s = s') ∧
    (∀ h h' : Homothety, h.show.out = h'.show.out → h = h') ∧ (∀ s s' : Scaling, s.show.out = s'.show.out → s = s') ∧
    (∀ s s' : Shear, s.vector ≠ ⟨0, 0⟩ → s.show.out = s'.show.out → s = s') := by
  have unit : ∀ (d d' : Bool) (p p' : Bool), ((if d = true then "degree" else "radian") ++ (if p = true then "" else "s") : String) =
      (if d' = true then "degree" else "radian") ++ (if p' = true then "" else "s") → d = d' := by
    decide
  have name : ∀ (d d' : Bool) (a : ℝ), unitName d a = unitName d' a → d = d' := by
    intro d d' a h
    unfold unitName at h
    by_cases h1 : a = 1
    · rw [if_pos h1] at h; exact unit d d' true true (by simpa using h)
    · rw [if_neg h1] at h; exact unit d d' false false (by simpa using h)
  refine ⟨?_, ?_, ?_, ?_, ?_, ?_, ?_, ?_, ?_⟩
  · intro l l' h
    unfold Line.show at h
    simp only [List.cons.injEq, Txt.tup.injEq, Txt.bool.injEq, and_true, true_and] at h
    exact Line.ext h.1 h.2.1 h.2.2.1 h.2.2.2.1
  · intro c c' h
    unfold Circle.show at h
    simp only [List.cons.injEq, Txt.tup.injEq, Txt.num.injEq, and_true, true_and] at h
    exact Circle.ext h.1 h.2
  · intro e e' h
    unfold Ellipse.show at h
    simp only [List.cons.injEq, Txt.tup.injEq, Txt.num.injEq, Txt.str.injEq, and_true, true_and] at h
    obtain ⟨h1, h2, h3, h4, h5⟩ := h
    rw [h4] at h5
    exact Ellipse.ext h1 h2 h3 h4 (name _ _ _ h5)
  · intro c c' h
    unfold Inversion.show at h
    simp only [List.cons.injEq, Txt.tup.injEq, Txt.num.injEq, and_true, true_and] at h
    exact Inversion.ext h.1 h.2
  · rintro ⟨a, b, c⟩ ⟨a', b', c'⟩ h
    unfold Rotation.show at h
    simp only [List.cons.injEq, Txt.tup.injEq, Txt.num.injEq, Txt.str.injEq, and_true, true_and] at h
    obtain ⟨rfl, rfl, h3⟩ := h
    rw [name _ _ _ h3]
  · rintro ⟨a, b, c⟩ ⟨a', b', c'⟩ h
    unfold ScalingXY.show at h
    simp only [List.cons.injEq, Txt.tup.injEq, Txt.num.injEq, and_true, true_and] at h
    obtain ⟨rfl, rfl, rfl⟩ := h
    rfl
  · rintro ⟨a, b⟩ ⟨a', b'⟩ h
    unfold Homothety.show at h
    simp only [List.cons.injEq, Txt.tup.injEq, Txt.num.injEq, and_true, true_and] at h
    obtain ⟨rfl, rfl⟩ := h
    rfl
  · rintro ⟨a, b, c⟩ ⟨a', b', c'⟩ h
    unfold Scaling.show at h
    simp only [List.cons.injEq, Txt.tup.injEq, Txt.num.injEq, and_true, true_and] at h
    obtain ⟨rfl, rfl, rfl⟩ := h
    rfl
  · rintro ⟨a, v, r, t, d⟩ ⟨a', v', r', t', d'⟩ hv h
    unfold Shear.show at h
    simp only [List.cons.injEq, Txt.tup.injEq, Txt.num.injEq, Txt.str.injEq, and_true, true_and] at h
    obtain ⟨rfl, rfl, h3, rfl, h5⟩ := h
    have hr : r = r' := by
      have hx := congrArg Pt.x h3
      have hy := congrArg Pt.y h3
      simp only at hx hy
      by_cases h0 : v.x = 0
      · have h1 : v.y ≠ 0 := fun h1 => hv (Pt.ext h0 h1)
        have := mul_right_cancel₀ h1 hx
        linarith
      · exact mul_right_cancel₀ h0 hy
    have hd : d = d' := by
      by_cases h1 : t = 1 ∨ t = 0
      · rw [if_pos h1] at h5; exact unit d d' true true (by simpa using h5)
      · rw [if_neg h1] at h5; exact unit d d' false false (by simpa using h5)
    rw [hr, hd]

/-- C87: `Triangle.show` says "flat" exactly for the flat triangles, and "almost flat" for those whose angle at `A` has a squared
cosine above 0.99. -/
theorem C87_show_triangle_partial (T : Triangle) (h1 : T.B ≠ T.A) (h2 : T.C ≠ T.A) :
    T.show.res = .ok () ∧ ([Txt.str "The triangle is flat.\n"] ∈ T.show.out ↔ Collinear T.A T.B T.C) ∧
    ((∃ f, [Txt.str "The triangle is almost flat (flatness: ", .num f, .str ").\n"] ∈ T.show.out) ↔
      ¬ Collinear T.A T.B T.C ∧ 99 / 100 * (sqDist T.A T.B * sqDist T.A T.C) < dot (T.B - T.A) (T.C - T.A) ^ 2) := by
  obtain ⟨f, hf, h0, hle, hc, -⟩ := C33_flatness T h1 h2
  have hval : f * (sqDist T.A T.B * sqDist T.A T.C) = dot (T.B - T.A) (T.C - T.A) ^ 2 ∧ 0 < sqDist T.A T.B * sqDist T.A T.C := by
    have hp := mul_pos (sqDist_pos h1.symm) (sqDist_pos h2.symm)
    refine ⟨?_, hp⟩
    have e := flatness_eq T h1.symm h2.symm
    rw [hf] at e
    have e := Except.ok.inj e
    have hd := flatness_den T h1.symm h2.symm
    rw [e, div_mul_eq_mul_div, div_eq_iff hd.ne']
    unfold sqDist cross dot
    simp only [Pt.sub_x, Pt.sub_y]
    ring
  unfold Triangle.show
  dsimp only
  rw [hf]
  dsimp only
  by_cases g1 : f = 1
  · rw [if_pos g1]
    have := hc.1 g1
    simp [this]
  · rw [if_neg g1]
    have hnc : ¬ Collinear T.A T.B T.C := fun h => g1 (hc.2 h)
    have hiff : 99 / 100 * (sqDist T.A T.B * sqDist T.A T.C) < dot (T.B - T.A) (T.C - T.A) ^ 2 ↔ 99 / 100 < f := by
      rw [← hval.1]
      exact mul_lt_mul_iff_left₀ hval.2
    by_cases g2 : f > 99 / 100
    · rw [if_pos g2]
      simp only [hiff]
      simp [hnc, g2]
    · rw [if_neg g2]
      simp only [hiff]
      simp [hnc]
      simpa using g2

/-- C87 is false for degenerate triangles: `Triangle.show` raises. -/
theorem C87_show_triangle_counterexample (T : Triangle) (h : T.B = T.A ∨ T.C = T.A) : T.show.res = .error .zeroDivision := by
  unfold Triangle.show
  dsimp only
  rw [C33_flatness_raises T h]

/-- C87 is false for projections: `Projection.show` always raises, after it has printed the two points of the line `D` and nothing of the line
`Delta`. -/
theorem C87_show_projection_counterexample (p : Projection) : p.show.res = .error .attributeError ∧ p.show.out.length = 3 ∧
    [Txt.str "                 A: ", .arr p.D.A, .str "\n"] ∈ p.show.out ∧ [Txt.str "                 B: ", .arr p.D.B, .str "\n"] ∈ p.show.out := by
  unfold Projection.show Line.getattr
  simp

/-- C87: the attributes of a `Line` are the four stored ones, and no others. -/
theorem C87_line_attributes (l : Line) :
    (l.getattr "A" = .ok (.arr l.A) ∧ l.getattr "B" = .ok (.arr l.B) ∧ l.getattr "extendA" = .ok (.bool l.extendA) ∧
      l.getattr "extendB" = .ok (.bool l.extendB)) ∧
    ∀ name, name ∉ ["A", "B", "extendA", "extendB"] → l.getattr name = .error .attributeError := by
  refine ⟨⟨rfl, rfl, rfl, rfl⟩, ?_⟩
  intro name h
  simp only [List.mem_cons, List.not_mem_nil, or_false, not_or] at h
  obtain ⟨h1, h2, h3, h4⟩ := h
  unfold Line.getattr
  rw [if_neg h1, if_neg h2, if_neg h3, if_neg h4]

/-- C87: `includes` prints only when it answers `False`, and then the message is true, for points that are not `np.allclose` to the end
points when the collinearity is checked. -/
theorem C87_includes_message_partial (l : Line) (hl : l.Valid) (M : Pt) (hA : ¬ allclose l.A M) (hB : ¬ allclose l.B M) (strict : Bool) :
    (l.includesP M strict).res = .ok (l.includes M strict) ∧
    ∀ m ∈ (l.includesP M strict).out, ∃ s, m = [.str s] ∧ MessageTrue s l.A l.B M ∧ l.includes M strict = false := by
  have hres : ∀ st ch, (l.includesP M st ch).res = .ok (l.includes M st ch) := by
    intro st ch
    unfold Line.includesP Line.includes
    split_ifs <;> simp_all
  refine ⟨hres strict true, ?_⟩
  intro m hm
  by_cases hc : collinear_ l.A l.B M
  · have hon : OnLine l.A l.B M := by
      rcases (collinear_of_valid hl M).1 hc with (h | h) | h
      · exact absurd h hA
      · exact absurd h hB
      · exact h
    by_cases hs : strict = true
    · subst hs
      have h6 := C06_includes_strict l hl M hA hB
      have hr := hres true true
      have hfalse : l.includes M true = false → ¬ LineSet l M := fun h h' => by rw [h6.2 h'] at h; exact absurd h (by simp)
      obtain ⟨A, B, ea, eb⟩ := l
      unfold LineSet at hfalse
      unfold Line.includesP at hm hr
      rw [if_neg (by simp [hc])] at hm hr
      cases ea <;> cases eb <;> simp at hm hr hfalse
      · split_ifs at hm hr with g
        · simp at hm
        · simp at hm hr
          exact ⟨_, hm, Or.inl ⟨rfl, hon, hfalse hr⟩, hr⟩
      · split_ifs at hm hr with g
        · simp at hm
        · simp at hm hr
          exact ⟨_, hm, Or.inr (Or.inr ⟨rfl, hon, hfalse hr⟩), hr⟩
      · split_ifs at hm hr with g
        · simp at hm
        · simp at hm hr
          exact ⟨_, hm, Or.inr (Or.inl ⟨rfl, hon, hfalse hr⟩), hr⟩
    · unfold Line.includesP at hm
      rw [if_neg (by simp [hc]), if_pos (Or.inl (by simpa using hs))] at hm
      simp at hm
  · unfold Line.includesP at hm
    rw [if_pos ⟨rfl, hc⟩] at hm
    simp at hm

/-- C87 is false at the origin of a half-line, which is said not to be on it. -/
theorem C87_origin_message_counterexample (A B : Pt) :
    ((⟨A, B, false, true⟩ : Line).includesP A (strict := true)).out =
      [[.str "The point is on the line (AB), but not on the half-line [AB)."]] ∧
    ¬ MessageTrue "The point is on the line (AB), but not on the half-line [AB)." A B A := by
  constructor
  · unfold Line.includesP
    rw [if_neg (by simp [collinear_, allclose_refl])]
    simp
  · unfold MessageTrue
    simp
    intro _
    exact ⟨0, le_refl _, by ext <;> simp⟩

/-- A point of the line beyond the segment. -/
example : ((⟨⟨0, 0⟩, ⟨1, 0⟩, false, false⟩ : Line).includesP ⟨3, 0⟩ (strict := true)).out =
    [[.str "The point is on the line (AB), but not on the segment [AB]."]] := by
  have : collinear_ ⟨0, 0⟩ ⟨1, 0⟩ ⟨3, 0⟩ := by
    rw [collinear_iff]; right; unfold Spec.Collinear cross; simp
  unfold Line.includesP
  simp [this, dot_]

/-- One of the printed lines is the label followed by the value. -/
def Spec.Labelled {α : Type} (p : Printed α) (label : String) (v : Txt) : Prop :=
  ∃ ln ∈ p.out, ∃ tail, ln = .str label :: v :: tail

/-- C87: each value is printed after its own label, for the circles, ellipses, inversions and transformations. -/
theorem C87_labels (c : Circle) (e : Ellipse) (i : Inversion) (T : Triangle) (r : Rotation) (s : Shear) (xy : ScalingXY) (h : Homothety)
    (sc : Scaling) :
    Labelled c.show " center: " (.tup c.center) ∧ Labelled c.show " radius: " (.num c.radius) ∧
    Labelled e.show "       center: " (.tup e.center) ∧ Labelled e.show " major radius: " (.num e.rmajor) ∧
    Labelled e.show " minor radius: " (.num e.rminor) ∧ Labelled e.show "        angle: " (.num e.alpha) ∧
    Labelled i.show "      pole: " (.tup i.pole) ∧ Labelled i.show "     power: " (.num i.power) ∧
    Labelled T.show "       A: " (.tup T.A) ∧ Labelled T.show "       B: " (.tup T.B) ∧ Labelled T.show "       C: " (.tup T.C) ∧
    Labelled r.show "    center: " (.tup r.center) ∧ Labelled r.show "     angle: " (.num r.theta) ∧
    Labelled s.show "        vertex: " (.tup s.vertex) ∧ Labelled s.show "  first vector: " (.tup s.vector) ∧
    Labelled s.show "         angle: " (.num s.angle) ∧
    (∃ w, Labelled s.show " second vector: " (.tup w) ∧ dot w s.vector = 0 ∧ cross s.vector w = s.ratio * dot s.vector s.vector) ∧
    Labelled xy.show "              center: " (.tup xy.center) ∧ Labelled xy.show " scale factor x-axis: " (.num xy.sx) ∧
    Labelled xy.show " scale factor y-axis: " (.num xy.sy) ∧
    Labelled h.show "     center: " (.tup h.center) ∧ Labelled h.show "      scale: " (.num h.scale) ∧
    Labelled sc.show "     center: " (.tup sc.center) ∧ Labelled sc.show "  direction: " (.tup sc.direction) ∧
    Labelled sc.show "      scale: " (.num sc.scale) := by
  have hT : ∀ s v, (∃ tail, (.str s :: v :: tail) ∈ ([[.str "Triangle:\n"], [.str "       A: ", .tup T.A, .str "\n"],
      [.str "       B: ", .tup T.B, .str "\n"], [.str "       C: ", .tup T.C, .str "\n"]] : List (List Txt))) → Labelled T.show s v := by
    rintro s v ⟨tail, hm⟩
    refine ⟨_, ?_, tail, rfl⟩
    unfold Triangle.show
    dsimp only
    cases T.flatness with
    | error e => exact hm
    | ok f =>
      dsimp only
      split_ifs <;> simp only [List.mem_append] <;> first | exact Or.inl hm | exact hm
  refine ⟨?_, ?_, ?_, ?_, ?_, ?_, ?_, ?_, hT _ _ ⟨[.str "\n"], by simp⟩, hT _ _ ⟨[.str "\n"], by simp⟩, hT _ _ ⟨[.str "\n"], by simp⟩,
    ?_, ?_, ?_, ?_, ?_, ⟨⟨-s.ratio * s.vector.y, s.ratio * s.vector.x⟩, ?_, by unfold dot; ring, by unfold cross dot; ring⟩, ?_, ?_, ?_, ?_, ?_, ?_, ?_, ?_⟩
  all_goals
    first
    | exact ⟨_, by simp [Circle.show, Ellipse.show, Inversion.show, Rotation.show, Shear.show, ScalingXY.show, Homothety.show, Scaling.show], _, rfl⟩
    | (unfold Labelled; simp [Circle.show, Ellipse.show, Inversion.show, Rotation.show, Shear.show, ScalingXY.show, Homothety.show, Scaling.show])

/-- What `show` prints for the half-line from `(0, 0)` through `(1, 0)`: the last sentence speaks of its points, for example not of
`(-1, 0)`. -/
example : (⟨⟨0, 0⟩, ⟨1, 0⟩, false, true⟩ : Line).show.res = .ok () ∧
    ∃ s, (⟨⟨0, 0⟩, ⟨1, 0⟩, false, true⟩ : Line).show.out.getLast? = some [.str s] ∧ ¬ Meaning s ⟨0, 0⟩ ⟨1, 0⟩ ⟨-1, 0⟩ := by
  obtain ⟨h, -, -, s, hs, hm, -⟩ := C87_show_line ⟨⟨0, 0⟩, ⟨1, 0⟩, false, true⟩ (by unfold Line.Valid allclose npClose; norm_num)
  refine ⟨h, s, hs, fun h' => ?_⟩
  obtain ⟨t, ht, e⟩ := (hm _).1 h'
  have := congrArg Pt.x e
  norm_num at this
  linarith

/-- Circles of radii 1 and 2 are printed differently; the radius is printed after its label. -/
example : (⟨⟨0, 0⟩, 1⟩ : Circle).show.out ≠ (⟨⟨0, 0⟩, 2⟩ : Circle).show.out ∧
    Labelled (⟨⟨0, 0⟩, 2⟩ : Circle).show " radius: " (.num 2) := by
  constructor
  · intro h
    have := congrArg Circle.radius (C87_show_injective.2.1 _ _ h)
    norm_num at this
  · exact (C87_labels ⟨⟨0, 0⟩, 2⟩ ⟨⟨0, 0⟩, 2, 1, 0, true⟩ ⟨⟨0, 0⟩, 1⟩ ⟨⟨0, 0⟩, ⟨1, 0⟩, ⟨0, 1⟩⟩ ⟨⟨0, 0⟩, 1, true⟩ ⟨⟨0, 0⟩, ⟨1, 0⟩, 1, 45, true⟩
      ⟨⟨0, 0⟩, 1, 1⟩ ⟨⟨0, 0⟩, 2⟩ ⟨⟨0, 0⟩, ⟨1, 0⟩, 2⟩).2.1

/-- The triangle `(0, 0), (1, 1), (2, 2)` is announced to be flat, the triangle `(0, 0), (4, 0), (0, 3)` is not. -/
example : [Txt.str "The triangle is flat.\n"] ∈ (⟨⟨0, 0⟩, ⟨1, 1⟩, ⟨2, 2⟩⟩ : Triangle).show.out ∧
    [Txt.str "The triangle is flat.\n"] ∉ (⟨⟨0, 0⟩, ⟨4, 0⟩, ⟨0, 3⟩⟩ : Triangle).show.out := by
  constructor
  · exact (C87_show_triangle_partial ⟨⟨0, 0⟩, ⟨1, 1⟩, ⟨2, 2⟩⟩ (by simp [Pt.ext_iff]) (by simp [Pt.ext_iff])).2.1.2
      (by norm_num [Collinear, cross])
  · rw [(C87_show_triangle_partial ⟨⟨0, 0⟩, ⟨4, 0⟩, ⟨0, 3⟩⟩ (by simp [Pt.ext_iff]) (by simp [Pt.ext_iff])).2.1]
    norm_num [Collinear, cross]

/-- The attributes of a line. -/
example : (⟨⟨0, 0⟩, ⟨1, 0⟩, false, true⟩ : Line).getattr "extendA" = .ok (.bool false) ∧
    (⟨⟨0, 0⟩, ⟨1, 0⟩, false, true⟩ : Line).getattr "C" = .error .attributeError :=
  ⟨(C87_line_attributes _).1.2.2.1, (C87_line_attributes _).2 "C" (by decide)⟩

/-- What is printed about the point `(3, 0)` and the segment from `(0, 0)` to `(1, 0)` is true. -/
example (s : String) (h : [Txt.str s] ∈ ((⟨⟨0, 0⟩, ⟨1, 0⟩, false, false⟩ : Line).includesP ⟨3, 0⟩ false).out) :
    MessageTrue s ⟨0, 0⟩ ⟨1, 0⟩ ⟨3, 0⟩ := by
  obtain ⟨s', e, hm, -⟩ := (C87_includes_message_partial ⟨⟨0, 0⟩, ⟨1, 0⟩, false, false⟩
    (by unfold Line.Valid allclose npClose; norm_num) ⟨3, 0⟩ (by unfold allclose npClose; norm_num [abs_of_pos])
    (by unfold allclose npClose; norm_num [abs_of_pos, abs_of_neg]) false).2 _ h
  simp at e
  rw [e]
  exact hm
