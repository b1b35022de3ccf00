import Verif.Model.Aliases
import Verif.Model.Ellipse
import Verif.Model.Mobius
import Verif.Model.Transforms
import Verif.Model.PyVal
import Verif.Lemmas.Basic

/-!
# C02: class invariants over every call history

`Reach o` says that the object `o` can be obtained by a finite sequence of constructor calls and API operations.  The
objects without invariant (`Inversion`, `Mobius`, `Affine`, `Triangle`, `Rotation`, `Homothety`, `Scaling`, `ScalingXY`) can
be constructed from any attributes, so that they are universally quantified in the rules.
-/

open Classical

/-- The objects that have an invariant. -/
inductive Obj where
  | line (l : Line)
  | circle (c : Circle)
  | arc (a : Arc)
  | ellipse (e : Ellipse)

namespace Spec

/-- The class invariants: positive radii, two points that are not `np.allclose` (written out). -/
def Invariant : Obj → Prop
  | .line l => ¬ (|l.A.x - l.B.x| ≤ 1 / 10 ^ 8 + 1 / 10 ^ 5 * |l.B.x| ∧ |l.A.y - l.B.y| ≤ 1 / 10 ^ 8 + 1 / 10 ^ 5 * |l.B.y|)
  | .circle c => 0 < c.radius
  | .arc a => 0 < a.radius
  | .ellipse e => 0 < e.rmajor ∧ 0 < e.rminor

end Spec

open Spec

/-- The objects in the results. -/
def GCircle.obj : GCircle → Obj
  | .circle c => .circle c
  | .line l => .line l

def Circle.OrthRes.obj : Circle.OrthRes → Obj
  | .circle c => .circle c
  | .arc a => .arc a
  | .line l => .line l

def MidRes.objs : MidRes → List Obj
  | .single g => [g.obj]
  | .pair g h => [g.obj, h.obj]

def CCRes.objs : CCRes → List Obj
  | .circle c => [.circle c]
  | _ => []

def SteinerRes.objs (r : SteinerRes) : List Obj := .ellipse r.ellipse :: r.circles.map GCircle.obj

/-- The object given as an argument that may be a `Circle` or an `Ellipse`. -/
def EllArg.obj : EllArg → Obj
  | .circ c => .circle c
  | .ell e => .ellipse e

/-- Objects obtained by a finite sequence of API operations. -/
inductive Reach : Obj → Prop
  -- constructors
  | Line_init {A B eA eB l} : mkLine A B eA eB = .ok l → Reach (.line l)
  | Circle_init {O r c} : mkCircle O r = .ok c → Reach (.circle c)
  | Arc_init {O r a1 a2 d a} : mkArc O r a1 a2 d = .ok a → Reach (.arc a)
  | Ellipse_init {O a b al d e} : mkEllipse O a b al d = .ok e → Reach (.ellipse e)
  -- Line
  | Line_perpendicular {l M eH eM l'} : Reach (.line l) → l.perpendicular M eH eM = .ok l' → Reach (.line l')
  | Line_rotate {l alpha O d l'} : Reach (.line l) → l.rotate alpha O d = .ok l' → Reach (.line l')
  | Line_translate {l v l'} : Reach (.line l) → l.translate v = .ok l' → Reach (.line l')
  | Line_invert {l iota g} : Reach (.line l) → l.invert iota = .ok (some g) → Reach g.obj
  -- Circle
  | Circle_orthogonal_in {c P1 P2 arc r} : Reach (.circle c) →
      c.orthogonal_through_two_points_in_circle P1 P2 arc = .ok r → Reach r.obj
  | Circle_orthogonal_on {c a1 a2 arc r} : Reach (.circle c) →
      c.orthogonal_through_two_points_on_circle a1 a2 arc = .ok r → Reach r.obj
  | Circle_radical_axis {c c2 l} : Reach (.circle c) → Reach (.circle c2) → c.radical_axis c2 = .ok (some l) → Reach (.line l)
  | Circle_as_ellipse {c e} : Reach (.circle c) → c.as_ellipse = .ok e → Reach (.ellipse e)
  | Circle_intersection_with_circle {c c2 r o} : Reach (.circle c) → Reach (.circle c2) →
      c.intersection_with_circle c2 = .ok r → o ∈ r.objs → Reach o
  | circleAB {A B c} : circleAB A B = .ok c → Reach (.circle c)
  | circleOA {O A c} : circleOA O A = .ok c → Reach (.circle c)
  | mid_circles {c c2 r o} : Reach (.circle c) → Reach (.circle c2) → mid_circles c c2 = .ok r → o ∈ r.objs → Reach o
  | SteinerChain {c n phi shift r o} : Reach (.circle c) → SteinerChain c n phi shift = .ok r → o ∈ r.objs → Reach o
  -- Ellipse
  | Ellipse_diameter {e t l} : Reach (.ellipse e) → e.diameter t = .ok l → Reach (.line l)
  | Ellipse_diameters_fst {e t l l'} : Reach (.ellipse e) → e.diameters t = .ok (l, l') → Reach (.line l)
  | Ellipse_diameters_snd {e t l l'} : Reach (.ellipse e) → e.diameters t = .ok (l, l') → Reach (.line l')
  | Ellipse_from_equation {A B C D E F ev e} : Ellipse.from_equation A B C D E F ev = .ok e → Reach (.ellipse e)
  | Ellipse_from_five_points {P ev e} : Ellipse.from_five_points P ev = .ok e → Reach (.ellipse e)
  | Ellipse_from_center_and_matrix {O eig e} : Ellipse.from_center_and_eigen O eig = .ok e → Reach (.ellipse e)
  | Ellipse_from_boundary3 {eigh P Q R e} : Ellipse.from_boundary3 eigh P Q R = .ok e → Reach (.ellipse e)
  | Ellipse_from_boundary4 {argsort P e} : Ellipse.from_boundary4 argsort P = .ok e → Reach (.ellipse e)
  | Ellipse_LownerJohn {env path ip bp e} : Ellipse.lownerJohn env path ip bp = .ok (some e) → Reach (.ellipse e)
  -- Inversion
  | Inversion_invert_circle {iota : Inversion} {c g} : Reach (.circle c) → iota.invert_circle c = .ok g → Reach g.obj
  | Inversion_invert_line {iota : Inversion} {l g} : Reach (.line l) → iota.invert_line l = .ok (some g) → Reach g.obj
  | Inversion_invert_gcircle {iota : Inversion} {g g'} : Reach g.obj → iota.invert_gcircle g = .ok (some g') → Reach g'.obj
  -- Triangle
  | Triangle_incircle {T : Triangle} {c} : T.incircle = .ok c → Reach (.circle c)
  | Triangle_circumcircle {T : Triangle} {c} : T.circumcircle = .ok (some c) → Reach (.circle c)
  | Triangle_excircles {T : Triangle} {cA cB cC c} : T.excircles = .ok (cA, cB, cC) → c ∈ [cA, cB, cC] → Reach (.circle c)
  | Triangle_malfatti {T : Triangle} {m c} : T.malfatti_circles = .ok (some m) → c ∈ [m.cA, m.cB, m.cC] → Reach (.circle c)
  | Triangle_steiner_ellipse {T : Triangle} {e} : T.steiner_ellipse = .ok (some e) → Reach (.ellipse e)
  | Triangle_steiner_inellipse {T : Triangle} {e} : T.steiner_inellipse = .ok (some e) → Reach (.ellipse e)
  -- Affine, Mobius
  | Affine_transform_line {f : Affine} {l l'} : Reach (.line l) → f.transform_line l = .ok (some l') → Reach (.line l')
  | Affine_transform_ellipse {f : Affine} {a e} : Reach (EllArg.obj a) → f.transform_ellipse a = .ok (some e) →
      Reach (.ellipse e)
  | Mobius_transform_circle {f : Mobius} {c g} : Reach (.circle c) → f.transform_circle c = .ok g → Reach g.obj
  | Mobius_transform_line {f : Mobius} {l g} : Reach (.line l) → f.transform_line l = .ok g → Reach g.obj
  -- Reflection, Projection
  | Reflection_line {l R} : Reach (.line l) → mkReflection l = .ok R → Reach (.line R.line)
  | Reflection_circle {R : Reflection} {c c'} : Reach (.line R.line) → Reach (.circle c) → R.reflect_circle c = .ok c' →
      Reach (.circle c')
  | Reflection_reflect_line {R : Reflection} {l l'} : Reach (.line R.line) → Reach (.line l) → R.reflect_line l = .ok l' →
      Reach (.line l')
  | Projection_D {D Delta p} : Reach (.line D) → (∀ l, Delta = some l → Reach (.line l)) → mkProjection D Delta = .ok p →
      Reach (.line p.D)
  | Projection_Delta {D Delta p} : Reach (.line D) → (∀ l, Delta = some l → Reach (.line l)) → mkProjection D Delta = .ok p →
      Reach (.line p.Delta)
  -- Rotation, Homothety, Scaling
  | Rotation_circle {R : Rotation} {c c'} : Reach (.circle c) → R.rotate_circle c = .ok c' → Reach (.circle c')
  | Rotation_ellipse {R : Rotation} {e e'} : Reach (.ellipse e) → R.rotate_ellipse e = .ok e' → Reach (.ellipse e')
  | Rotation_line {R : Rotation} {l l'} : Reach (.line l) → R.rotate_line l = .ok l' → Reach (.line l')
  | Homothety_circle {h : Homothety} {c c'} : Reach (.circle c) → h.transform_circle c = .ok c' → Reach (.circle c')
  | Scaling_circle {S : Scaling} {c e} : Reach (.circle c) → S.scale_circle c = .ok e → Reach (.ellipse e)

/-! ## A small Hoare logic for `Res` -/

/-- Every normal result satisfies `p`. -/
def Post {α : Type} (r : Res α) (p : α → Prop) : Prop := ∀ x, r = .ok x → p x

namespace Post

theorem err {α : Type} {e : Err} {p : α → Prop} : Post (.error e) p := by intro x h; cases h

theorem ok {α : Type} {a : α} {p : α → Prop} (h : p a) : Post (.ok a) p := by intro x hx; cases hx; exact h

theorem ret {α : Type} {a : α} {p : α → Prop} (h : p a) : Post (pure a) p := ok h

theorem bind {α β : Type} {r : Res α} {f : α → Res β} {q : α → Prop} {p : β → Prop} (hr : Post r q)
    (h : ∀ a, q a → Post (f a) p) : Post (r >>= f) p := by
  intro x hx
  cases r with
  | error e => cases hx
  | ok a => exact h a (hr a rfl) x hx

theorem bind' {α β : Type} {r : Res α} {f : α → Res β} {p : β → Prop}
    (h : ∀ a, Post (f a) p) : Post (r >>= f) p := bind (q := fun _ => True) (fun _ _ => trivial) (fun a _ => h a)

theorem ite {α : Type} {c : Prop} [Decidable c] {a b : Res α} {p : α → Prop} (ha : c → Post a p) (hb : ¬ c → Post b p) :
    Post (if c then a else b) p := by
  split
  · exact ha ‹_›
  · exact hb ‹_›

theorem mono {α : Type} {r : Res α} {p q : α → Prop} (h : Post r p) (hpq : ∀ a, p a → q a) : Post r q :=
  fun x hx => hpq x (h x hx)

theorem mapM {α β : Type} {f : α → Res β} {p : β → Prop} (h : ∀ a, Post (f a) p) :
    ∀ l : List α, Post (l.mapM f) (fun r => ∀ b ∈ r, p b) := by
  intro l
  induction l with
  | nil => exact ok (by simp)
  | cons a l ih =>
    rw [List.mapM_cons]
    refine bind (h a) fun b hb => bind ih fun r hr => ret ?_
    intro x hx
    rcases List.mem_cons.1 hx with rfl | hx
    · exact hb
    · exact hr x hx

end Post

theorem post_mkLine {A B : Pt} {ea eb : Bool} : Post (mkLine A B ea eb) fun l => Invariant (.line l) := by
  intro l h; exact mkLine_valid h

theorem post_mkLineX {A B : XPt} {ea eb : Bool} : Post (mkLineX A B ea eb) fun l => Invariant (.line l) := by
  unfold mkLineX
  split
  · exact post_mkLine
  · exact Post.err
  · exact Post.err

theorem post_mkCircle {O : Pt} {r : ℝ} : Post (mkCircle O r) fun c => Invariant (.circle c) := by
  intro c h
  obtain ⟨hr, rfl⟩ := mkCircle_ok.1 h
  exact hr

theorem post_mkArc {O : Pt} {r a b : ℝ} {d : Bool} : Post (mkArc O r a b d) fun c => Invariant (.arc c) := by
  unfold mkArc
  exact Post.ite (fun _ => Post.err) fun h => Post.ok (not_le.1 h)

theorem post_mkEllipse {O : Pt} {a b al : ℝ} {d : Bool} : Post (mkEllipse O a b al d) fun e => Invariant (.ellipse e) := by
  unfold mkEllipse
  exact Post.ite (fun _ => Post.err) fun h => Post.ite (fun _ => Post.err) fun h' => Post.ok ⟨not_le.1 h, not_le.1 h'⟩

/-- Splits a program into its branches and closes those that end with an exception or a constructor call. -/
macro "post" : tactic => `(tactic| (repeat' first
  | exact Post.err
  | exact post_mkLine
  | exact post_mkLineX
  | exact post_mkCircle
  | exact post_mkArc
  | exact post_mkEllipse
  | (refine Post.bind post_mkLine fun _ _ => ?_)
  | (refine Post.bind post_mkLineX fun _ _ => ?_)
  | (refine Post.bind post_mkCircle fun _ _ => ?_)
  | (refine Post.bind post_mkArc fun _ _ => ?_)
  | (refine Post.bind post_mkEllipse fun _ _ => ?_)
  | (refine Post.bind' fun _ => ?_)
  | (refine Post.ite (fun _ => ?_) (fun _ => ?_))
  | (refine Post.ret ?_)
  | (refine Post.ok ?_)
  | assumption
  | split))

theorem post_circumcircle (T : Triangle) : Post T.circumcircle fun r => ∀ c, r = some c → Invariant (.circle c) := by
  unfold Triangle.circumcircle
  dsimp only
  post
  · intro c h; cases h
  · intro c h; cases h; assumption

theorem post_perpendicular (l : Line) (M : Pt) (a b : Bool) : Post (l.perpendicular M a b) fun l => Invariant (.line l) := by
  unfold Line.perpendicular
  dsimp only
  post

theorem post_rotate (l : Line) (alpha : ℝ) (O : Pt) (d : Bool) : Post (l.rotate alpha O d) fun l => Invariant (.line l) := by
  unfold Line.rotate
  dsimp only
  post

theorem post_translate (l : Line) (v : Pt) : Post (l.translate v) fun l => Invariant (.line l) := by
  unfold Line.translate
  post

theorem post_orthogonal_in (c : Circle) (P1 P2 : Pt) (arc : Bool) :
    Post (c.orthogonal_through_two_points_in_circle P1 P2 arc) fun r => Invariant r.obj := by
  unfold Circle.orthogonal_through_two_points_in_circle
  dsimp only
  post

theorem post_orthogonal_on (c : Circle) (a b : ℝ) (arc : Bool) :
    Post (c.orthogonal_through_two_points_on_circle a b arc) fun r => Invariant r.obj := by
  unfold Circle.orthogonal_through_two_points_on_circle
  dsimp only
  post

theorem post_radical_axis (c c2 : Circle) : Post (c.radical_axis c2) fun r => ∀ l, r = some l → Invariant (.line l) := by
  unfold Circle.radical_axis
  dsimp only
  post
  all_goals (intro l h; cases h; try assumption)

theorem post_mid_circles (c c2 : Circle) (h : Invariant (.circle c)) :
    Post (mid_circles c c2) fun r => ∀ o ∈ r.objs, Invariant o := by
  unfold mid_circles
  dsimp only
  post
  all_goals
    intro o ho
    simp only [MidRes.objs, List.mem_cons, List.not_mem_nil, or_false] at ho
  all_goals first
    | (subst ho; assumption)
    | (rcases ho with rfl | rfl <;> assumption)

theorem post_intersection_circle (c c2 : Circle) (h : Invariant (.circle c)) :
    Post (intersection_circle_circle c c2) fun r => ∀ o ∈ r.objs, Invariant o := by
  unfold intersection_circle_circle
  dsimp only
  post
  all_goals
    intro o ho
    simp only [CCRes.objs, List.mem_cons, List.not_mem_nil, or_false] at ho
  all_goals (subst ho; assumption)

theorem post_invert_circle (iota : Inversion) (c : Circle) : Post (iota.invert_circle c) fun g => Invariant g.obj := by
  unfold Inversion.invert_circle
  dsimp only
  post

theorem post_invert_line (iota : Inversion) (l : Line) (h : Invariant (.line l)) :
    Post (iota.invert_line l) fun r => ∀ g, r = some g → Invariant g.obj := by
  unfold Inversion.invert_line
  dsimp only
  refine Post.ite (fun _ => Post.ok fun g hg => by cases hg; exact h) fun _ => ?_
  split
  · refine Post.bind (post_circumcircle _) fun r hr => ?_
    cases r with
    | none => exact Post.ret fun g hg => by cases hg
    | some c => exact Post.ret fun g hg => by cases hg; exact hr c rfl
  · exact Post.err
  · exact Post.err

theorem post_steiner (c : Circle) (n : ℕ) (phi shift : ℝ) :
    Post (SteinerChain c n phi shift) fun r => ∀ o ∈ r.objs, Invariant o := by
  unfold SteinerChain
  refine Post.ite (fun _ => Post.err) fun _ => ?_
  have h0 : Post (SteinerChain_phi0_ c n shift) fun r => ∀ x ∈ r, Invariant (.circle x) := by
    unfold SteinerChain_phi0_
    dsimp only
    refine Post.bind (Post.mapM (p := fun x => Invariant (.circle x)) (fun _ => post_mkCircle) _) fun r hr => ?_
    refine Post.bind post_mkCircle fun x hx => Post.ret ?_
    intro y hy
    rcases List.mem_append.1 hy with hy | hy
    · exact hr y hy
    · rw [List.mem_singleton.1 hy]; exact hx
  refine Post.bind h0 fun r hr => ?_
  dsimp only
  have h1 : ∀ circles : List GCircle, (∀ g ∈ circles, Invariant g.obj) →
      Post (match circles.getLast? with
        | some (.circle inner) => do
          let b ← pySqrt ((inner.radius + c.radius) / 2 * ((inner.radius + c.radius) / 2) -
            (inner.center.x - c.center.x) / 2 * ((inner.center.x - c.center.x) / 2))
          let ell ← mkEllipse ((c.center + inner.center) / (2 : ℝ)) ((inner.radius + c.radius) / 2) b 0
          return (⟨circles, ell⟩ : SteinerRes)
        | _ => .error .attributeError) fun r => ∀ o ∈ r.objs, Invariant o := by
    intro circles hc
    split
    · refine Post.bind' fun b => Post.bind post_mkEllipse fun e he => Post.ret ?_
      intro o ho
      simp only [SteinerRes.objs, List.mem_cons, List.mem_map] at ho
      rcases ho with rfl | ⟨g, hg, rfl⟩
      · exact he
      · exact hc g hg
    · exact Post.err
  split
  · exact Post.bind (Post.mapM (p := fun g => Invariant g.obj) (fun x => post_invert_circle _ x) _) fun cs hcs => h1 cs hcs
  · refine Post.bind (q := fun cs => ∀ g ∈ cs, Invariant (GCircle.obj g)) (Post.ok ?_) fun cs hcs => h1 cs hcs
    intro g hg
    obtain ⟨x, hx, rfl⟩ := List.mem_map.1 hg
    exact hr x hx

theorem post_from_equation (A B C D E F : ℝ) (ev : ℝ × ℝ) :
    Post (Ellipse.from_equation A B C D E F ev) fun e => Invariant (.ellipse e) := by
  unfold Ellipse.from_equation
  dsimp only
  post

theorem post_from_eigen (O : Pt) (e : Ellipse.Eigh) :
    Post (Ellipse.from_center_and_eigen O e) fun e => Invariant (.ellipse e) := by
  unfold Ellipse.from_center_and_eigen
  dsimp only
  post

theorem post_boundary4 (argsort : (Fin 4 → Pt) → Equiv.Perm (Fin 4)) (P : Fin 4 → Pt) :
    Post (Ellipse.from_boundary4 argsort P) fun e => Invariant (.ellipse e) := by
  unfold Ellipse.from_boundary4
  dsimp only
  post

theorem post_boundary3 (eigh : Matrix (Fin 2) (Fin 2) ℝ → Ellipse.Eigh) (P Q R : Pt) :
    Post (Ellipse.from_boundary3 eigh P Q R) fun e => Invariant (.ellipse e) :=
  Post.bind' fun _ => post_from_eigen _ _

theorem post_ljBase (env : Ellipse.LJEnv) (bp : List Pt) :
    Post (Ellipse.lownerJohnBase env bp) fun r => ∀ e, r = some e → Invariant (.ellipse e) := by
  unfold Ellipse.lownerJohnBase
  split
  · exact Post.ok fun e h => by cases h
  · exact Post.ok fun e h => by cases h
  · exact Post.ok fun e h => by cases h
  · exact Post.bind (post_boundary3 _ _ _ _) fun e he => Post.ret fun e' h => by cases h; exact he
  · exact Post.bind (post_boundary4 _ _) fun e he => Post.ret fun e' h => by cases h; exact he
  · exact Post.bind' fun q => Post.bind (post_from_equation _ _ _ _ _ _ _) fun e he =>
      Post.ret fun e' h => by cases h; exact he
  · exact Post.err

theorem post_lj (env : Ellipse.LJEnv) : ∀ (n : ℕ) (path : List Bool) (ip bp : List Pt), ip.length = n →
    Post (Ellipse.lownerJohn env path ip bp) fun r => ∀ e, r = some e → Invariant (.ellipse e) := by
  intro n
  induction n with
  | zero =>
    intro path ip bp hn
    rw [Ellipse.lownerJohn, dif_pos (Or.inl hn)]
    exact post_ljBase env bp
  | succ n ih =>
    intro path ip bp hn
    rw [Ellipse.lownerJohn]
    split
    · exact post_ljBase env bp
    · dsimp only
      have hlt : env.randint path % ip.length < ip.length := Nat.mod_lt _ (by omega)
      have hl : (ip.eraseIdx (env.randint path % ip.length)).length = n := by
        rw [List.length_eraseIdx_of_lt hlt]; omega
      refine Post.bind (ih _ _ _ hl) fun r hr => ?_
      cases r with
      | none => exact ih _ _ _ hl
      | some e => exact Post.ite (fun _ => Post.ret hr) fun _ => ih _ _ _ hl

theorem post_incircle (T : Triangle) : Post T.incircle fun c => Invariant (.circle c) := by
  unfold Triangle.incircle
  dsimp only
  post

theorem post_excircles (T : Triangle) : Post T.excircles fun r => ∀ c ∈ [r.1, r.2.1, r.2.2], Invariant (.circle c) := by
  unfold Triangle.excircles
  dsimp only
  post
  intro c hc
  simp only [List.mem_cons, List.not_mem_nil, or_false] at hc
  rcases hc with rfl | rfl | rfl <;> assumption

theorem post_malfatti (T : Triangle) :
    Post T.malfatti_circles fun r => ∀ m, r = some m → ∀ c ∈ [m.cA, m.cB, m.cC], Invariant (.circle c) := by
  unfold Triangle.malfatti_circles
  dsimp only
  post
  · intro m h; cases h
  · intro m h c hc
    cases h
    simp only [List.mem_cons, List.not_mem_nil, or_false] at hc
    rcases hc with rfl | rfl | rfl <;> assumption

theorem post_ellipseOfCoeffs (q : Coeffs) (d : Bool) :
    Post (Affine.ellipseOfCoeffs q d) fun e => Invariant (.ellipse e) := by
  unfold Affine.ellipseOfCoeffs
  dsimp only
  post

theorem post_transform_ellipse (f : Affine) (a : EllArg) :
    Post (f.transform_ellipse a) fun r => ∀ e, r = some e → Invariant (.ellipse e) := by
  unfold Affine.transform_ellipse
  refine Post.ite (fun _ => Post.ok fun e h => by cases h) fun _ => ?_
  have h : ∀ x : Ellipse, Post (do return some (← Affine.ellipseOfCoeffs (f.imageCoeffs x.equation) x.degrees))
      fun r => ∀ e, r = some e → Invariant (.ellipse e) := fun x =>
    Post.bind (post_ellipseOfCoeffs _ _) fun e he => Post.ret fun e' h => by cases h; exact he
  dsimp only
  cases a with
  | circ c => exact Post.bind' h
  | ell e => exact Post.bind' h

theorem post_steiner_ellipse (T : Triangle) : Post T.steiner_ellipse fun r => ∀ e, r = some e → Invariant (.ellipse e) := by
  unfold Triangle.steiner_ellipse
  refine Post.bind' fun fl => Post.ite (fun _ => Post.ret fun e h => by cases h) fun _ => ?_
  refine Post.bind' fun circ => Post.bind' fun f => ?_
  split
  · exact post_transform_ellipse _ _
  · exact Post.err

theorem post_steiner_inellipse (T : Triangle) :
    Post T.steiner_inellipse fun r => ∀ e, r = some e → Invariant (.ellipse e) := by
  unfold Triangle.steiner_inellipse
  refine Post.bind' fun fl => Post.ite (fun _ => Post.ret fun e h => by cases h) fun _ => ?_
  refine Post.bind' fun circ => Post.bind' fun f => ?_
  split
  · exact post_transform_ellipse _ _
  · exact Post.err

theorem post_affine_line (f : Affine) (l : Line) :
    Post (f.transform_line l) fun r => ∀ l', r = some l' → Invariant (.line l') := by
  unfold Affine.transform_line
  exact Post.ite (fun _ => Post.ok fun e h => by cases h) fun _ =>
    Post.bind post_mkLine fun l hl => Post.ret fun e' h => by cases h; exact hl

theorem post_mobius_circle (f : Mobius) (c : Circle) : Post (f.transform_circle c) fun g => Invariant g.obj := by
  unfold Mobius.transform_circle
  dsimp only
  post

theorem post_mobius_line (f : Mobius) (l : Line) : Post (f.transform_line l) fun g => Invariant g.obj := by
  unfold Mobius.transform_line
  dsimp only
  post

theorem post_mkProjection (D : Line) (Delta : Option Line) :
    Post (mkProjection D Delta) fun p => Invariant (.line p.D) ∧ Invariant (.line p.Delta) := by
  unfold mkProjection
  dsimp only
  post
  all_goals (constructor <;> assumption)

theorem post_circleAB (A B : Pt) : Post (circleAB A B) fun c => Invariant (.circle c) := by
  unfold _root_.circleAB
  post

theorem post_circleOA (O A : Pt) : Post (circleOA O A) fun c => Invariant (.circle c) := by
  unfold _root_.circleOA
  post

theorem post_scale_circle (S : Scaling) (c : Circle) : Post (S.scale_circle c) fun e => Invariant (.ellipse e) := by
  unfold Scaling.scale_circle
  dsimp only
  post

/-- C02: every object obtained by a finite sequence of constructor calls and API operations satisfies the class
invariant: circles, arcs and ellipses have positive radii, and the two points of a line are not `np.allclose`.
Missing for the full claim: results with `nan` or `inf` entries are pseudo errors of the model (`nonFinite`). -/
theorem C02_invariants_partial (o : Obj) (h : Reach o) : Invariant o := by
  induction h with
  | Line_init h => exact post_mkLine _ h
  | Circle_init h => exact post_mkCircle _ h
  | Arc_init h => exact post_mkArc _ h
  | Ellipse_init h => exact post_mkEllipse _ h
  | Line_perpendicular _ h => exact post_perpendicular _ _ _ _ _ h
  | Line_rotate _ h => exact post_rotate _ _ _ _ _ h
  | Line_translate _ h => exact post_translate _ _ _ h
  | Line_invert _ h ih => exact post_invert_line _ _ ih _ h _ rfl
  | Circle_orthogonal_in _ h => exact post_orthogonal_in _ _ _ _ _ h
  | Circle_orthogonal_on _ h => exact post_orthogonal_on _ _ _ _ _ h
  | Circle_radical_axis _ _ h => exact post_radical_axis _ _ _ h _ rfl
  | Circle_as_ellipse _ h => exact post_mkEllipse _ h
  | Circle_intersection_with_circle _ _ h ho ih _ => exact post_intersection_circle _ _ ih _ h _ ho
  | circleAB h => exact post_circleAB _ _ _ h
  | circleOA h => exact post_circleOA _ _ _ h
  | mid_circles _ _ h ho ih _ => exact post_mid_circles _ _ ih _ h _ ho
  | SteinerChain _ h ho => exact post_steiner _ _ _ _ _ h _ ho
  | Ellipse_diameter _ h => exact post_mkLine _ h
  | Ellipse_diameters_fst _ h =>
    refine (Post.bind post_mkLine fun l hl => Post.bind post_mkLine fun l' _ => Post.ret ?_ :
      Post (Ellipse.diameters _ _) fun r => Invariant (.line r.1)) _ h
    exact hl
  | Ellipse_diameters_snd _ h =>
    refine (Post.bind post_mkLine fun l _ => Post.bind post_mkLine fun l' hl' => Post.ret ?_ :
      Post (Ellipse.diameters _ _) fun r => Invariant (.line r.2)) _ h
    exact hl'
  | Ellipse_from_equation h => exact post_from_equation _ _ _ _ _ _ _ _ h
  | Ellipse_from_five_points h => exact (Post.bind' fun _ => post_from_equation _ _ _ _ _ _ _ : Post _ _) _ h
  | Ellipse_from_center_and_matrix h => exact post_from_eigen _ _ _ h
  | Ellipse_from_boundary3 h => exact post_boundary3 _ _ _ _ _ h
  | Ellipse_from_boundary4 h => exact post_boundary4 _ _ _ h
  | Ellipse_LownerJohn h => exact post_lj _ _ _ _ _ rfl _ h _ rfl
  | Inversion_invert_circle _ h => exact post_invert_circle _ _ _ h
  | Inversion_invert_line _ h ih => exact post_invert_line _ _ ih _ h _ rfl
  | Inversion_invert_gcircle _ h => simp [Inversion.invert_gcircle, pyIsinstance, bind, Except.bind] at h
  | Triangle_incircle h => exact post_incircle _ _ h
  | Triangle_circumcircle h => exact post_circumcircle _ _ h _ rfl
  | Triangle_excircles h hc => exact post_excircles _ _ h _ hc
  | Triangle_malfatti h hc => exact post_malfatti _ _ h _ rfl _ hc
  | Triangle_steiner_ellipse h => exact post_steiner_ellipse _ _ h _ rfl
  | Triangle_steiner_inellipse h => exact post_steiner_inellipse _ _ h _ rfl
  | Affine_transform_line _ h => exact post_affine_line _ _ _ h _ rfl
  | Affine_transform_ellipse _ h => exact post_transform_ellipse _ _ _ h _ rfl
  | Mobius_transform_circle _ h => exact post_mobius_circle _ _ _ h
  | Mobius_transform_line _ h => exact post_mobius_line _ _ _ h
  | Reflection_line _ h =>
    exact (Post.bind post_mkLine fun l hl => Post.ret hl : Post (mkReflection _) fun R => Invariant (.line R.line)) _ h
  | Reflection_circle _ _ h => exact (Post.bind' fun _ => post_mkCircle : Post _ _) _ h
  | Reflection_reflect_line _ _ h => exact (Post.bind' fun _ => Post.bind' fun _ => post_mkLine : Post _ _) _ h
  | Projection_D _ _ h => exact (post_mkProjection _ _ _ h).1
  | Projection_Delta _ _ h => exact (post_mkProjection _ _ _ h).2
  | Rotation_circle _ h => exact (Post.bind' fun _ => post_mkCircle : Post _ _) _ h
  | Rotation_ellipse _ h => exact (Post.bind' fun _ => post_mkEllipse : Post _ _) _ h
  | Rotation_line _ h => exact (Post.bind' fun _ => Post.bind' fun _ => post_mkLine : Post _ _) _ h
  | Homothety_circle _ h => exact (Post.bind' fun _ => post_mkCircle : Post _ _) _ h
  | Scaling_circle _ h => exact post_scale_circle _ _ _ h

/-- The result is a `ValueError`. -/
def IsValueErr {α : Type} (r : Res α) : Prop := ∃ msg, r = .error (.valueError msg)

/-- C02: what would violate the invariant raises `ValueError`. -/
theorem C02_rejects (A B O : Pt) (ea eb d : Bool) (r a b al : ℝ) :
    (allclose A B → IsValueErr (mkLine A B ea eb)) ∧ (r ≤ 0 → IsValueErr (mkCircle O r)) ∧
    (r ≤ 0 → IsValueErr (mkArc O r a b d)) ∧ (a ≤ 0 ∨ b ≤ 0 → IsValueErr (mkEllipse O a b al d)) := by
  refine ⟨fun h => ?_, fun h => ?_, fun h => ?_, fun h => ?_⟩
  · exact ⟨_, if_pos h⟩
  · exact ⟨_, if_pos h⟩
  · exact ⟨_, if_pos h⟩
  · unfold mkEllipse
    by_cases ha : a ≤ 0
    · exact ⟨_, if_pos ha⟩
    · rw [if_neg ha, if_pos (h.resolve_left ha)]
      exact ⟨_, rfl⟩

/-- C02: a degenerate image is an exception, not an object: a homothety of ratio zero on a circle, an affine map that
shrinks a line below the tolerance. -/
theorem C02_degenerate_images (O : Pt) (c : Circle) (f : Affine) (l : Line) (hdet : Matrix.det f.A ≠ 0)
    (hl : allclose (f.transform l.A) (f.transform l.B)) :
    IsValueErr ((Homothety.mk O 0).transform_circle c) ∧ IsValueErr (f.transform_line l) := by
  constructor
  · refine ⟨"`radius` is not positive.", ?_⟩
    simp [Homothety.transform_circle, Homothety.transformPt, Homothety.transform, onPoints, Pt.arr, Homothety.transformMat,
      Out.toPt, mkCircle, bind, Except.bind, pure, Except.pure]
  · refine ⟨"`A` and `B` must be distinct.", ?_⟩
    rw [Affine.transform_line, if_neg hdet, mkLine, if_pos hl]
    rfl

/-- C02 fails for `nan`: `nan <= 0` is false, so that `Circle((0, 0), nan)` is created, and its radius is not a positive
number. -/
theorem C02_nan_counterexample :
    ∃ c : PyCircle, PyCircle.init (.tuple [.num .int (.fin 0), .num .int (.fin 0)]) (.num .float .nan) = .ok c ∧
      ∀ k x, c.radius = .num k x → ¬ (x = .pinf ∨ ∃ r : ℝ, x = .fin r ∧ 0 < r) := by
  refine ⟨⟨(.fin 0, .fin 0), .num .float .nan⟩, rfl, ?_⟩
  intro k x h
  cases h
  simp

/-- A history: the circumcircle of a triangle, inverted, then as an ellipse. -/
example (T : Triangle) (c : Circle) (iota : Inversion) (c' : Circle) (e : Ellipse) (h1 : T.circumcircle = .ok (some c))
    (h2 : iota.invert_circle c = .ok (.circle c')) (h3 : c'.as_ellipse = .ok e) : 0 < e.rmajor :=
  (C02_invariants_partial _ (.Circle_as_ellipse (.Inversion_invert_circle (.Triangle_circumcircle h1) h2) h3)).1

/-- A concrete reachable object. -/
example : Reach (.ellipse ⟨⟨3, 4⟩, 2, 2, 0, true⟩) :=
  .Circle_as_ellipse (.Circle_init (O := ⟨3, 4⟩) (r := 2) (mkCircle_pos (by norm_num)))
    (by rw [Circle.as_ellipse, mkEllipse, if_neg (by norm_num), if_neg (by norm_num)])

/-- Refused: a line through `(1, 1)` and `(1, 1)`, a circle of radius `-2`, an arc of radius 0, an ellipse with a minor radius 0. -/
example : IsValueErr (mkLine ⟨1, 1⟩ ⟨1, 1⟩) ∧ IsValueErr (mkCircle ⟨0, 0⟩ (-2)) ∧ IsValueErr (mkArc ⟨0, 0⟩ (-2) 3 0 true) ∧
    IsValueErr (mkEllipse ⟨0, 0⟩ 3 0 45 true) := by
  obtain ⟨h1, h2, h3, h4⟩ := C02_rejects ⟨1, 1⟩ ⟨1, 1⟩ ⟨0, 0⟩ true true true (-2) 3 0 45
  exact ⟨h1 (by unfold allclose npClose; norm_num), h2 (by norm_num), h3 (by norm_num), h4 (Or.inr le_rfl)⟩

/-- Refused: the image of a circle by the homothety of scale 0, and of the segment from `(0, 0)` to `(1, 1)` by `x ↦ x / 10^9`. -/
example : IsValueErr ((Homothety.mk ⟨1, 2⟩ 0).transform_circle ⟨⟨3, 4⟩, 5⟩) ∧
    IsValueErr ((⟨!![1 / 10 ^ 9, 0; 0, 1 / 10 ^ 9], ⟨0, 0⟩⟩ : Affine).transform_line ⟨⟨0, 0⟩, ⟨1, 1⟩, false, false⟩) :=
  C02_degenerate_images _ _ _ _ (by rw [Matrix.det_fin_two]; norm_num)
    (by unfold allclose npClose Affine.transform; norm_num [abs_of_pos])
