import Verif.Model.Objects
import Verif.Model.Ellipse

/-!
# numpy arrays as mutable objects

The rest of the model treats points as values.  Here the arrays are cells of a heap, and the objects hold references to
them: `np.asarray(P, dtype=float)` returns its argument itself, not a copy, when this is already an array of floats
(numpy documentation of `asarray`).
-/

open Classical
noncomputable section

/-- The float arrays in memory (one-dimensional ones), and the next free address. -/
structure Heap where
  get : ℕ → List ℝ
  next : ℕ

namespace Heap

/-- A new array. -/
def alloc (h : Heap) (l : List ℝ) : ℕ × Heap := (h.next, ⟨Function.update h.get h.next l, h.next + 1⟩)

/-- In-place modification of the array at address `a`. -/
def write (h : Heap) (a : ℕ) (l : List ℝ) : Heap := ⟨Function.update h.get a l, h.next⟩

/-- The point stored in the array at address `a`. -/
def pt (h : Heap) (a : ℕ) : Pt := ⟨(h.get a).getD 0 0, (h.get a).getD 1 0⟩

end Heap

/-- An argument: a reference to a float array of the caller, or a tuple, a list or an array of integers. -/
inductive HArg where
  | arr (a : ℕ)
  | seq (l : List ℝ)

/-- `np.asarray(·, dtype=float)`: no copy of a float array. -/
def HArg.asarray (h : Heap) : HArg → ℕ × Heap
  | .arr a => (a, h)
  | .seq l => h.alloc l

/-- The entries of an argument. -/
def HArg.entries (h : Heap) : HArg → List ℝ
  | .arr a => h.get a
  | .seq l => l

/-- internal.py 48-55 `error_if_not_point_` for such an argument. -/
def HArg.check (h : Heap) (key : String) (v : HArg) : Res Unit :=
  if (v.entries h).length ≠ 2 then .error (.valueError ("`" ++ key ++ "` is not a point.")) else .ok ()

/-- geometry.py 357-366: a `Circle`; the center is a reference. -/
structure HCircle where
  center : ℕ
  radius : ℝ

/-- geometry.py 361-366 `Circle.__init__`. -/
def HCircle.init (h : Heap) (center : HArg) (radius : ℝ) : Res (HCircle × Heap) := do
  center.check h "center"
  if radius ≤ 0 then .error (.valueError "`radius` is not positive.")
  else
    let (a, h) := center.asarray h
    .ok (⟨a, radius⟩, h)

/-- The circle as a value, at a given moment. -/
def HCircle.view (h : Heap) (c : HCircle) : Circle := ⟨h.pt c.center, c.radius⟩

/-- geometry.py 54-68: a `Line`; the points are references. -/
structure HLine where
  A : ℕ
  B : ℕ
  extendA : Bool
  extendB : Bool

/-- geometry.py 60-68 `Line.__init__`. -/
def HLine.init (h : Heap) (A B : HArg) (extendA extendB : Bool) : Res (HLine × Heap) := do
  A.check h "A"
  B.check h "B"
  let (a, h) := A.asarray h
  let (b, h) := B.asarray h
  if allclose (h.pt a) (h.pt b) then .error (.valueError "`A` and `B` must be distinct.")
  else .ok (⟨a, b, extendA, extendB⟩, h)

/-- The line as a value, at a given moment. -/
def HLine.view (h : Heap) (l : HLine) : Line := ⟨h.pt l.A, h.pt l.B, l.extendA, l.extendB⟩

/-- geometry.py 1488-1498: an `Inversion`; the pole is a reference. -/
structure HInversion where
  pole : ℕ
  power : ℝ

/-- geometry.py 1494-1498 `Inversion.__init__`. -/
def HInversion.init (h : Heap) (pole : HArg) (power : ℝ) : Res (HInversion × Heap) := do
  pole.check h "pole"
  let (a, h) := pole.asarray h
  .ok (⟨a, power⟩, h)

/-- The inversion as a value, at a given moment. -/
def HInversion.view (h : Heap) (i : HInversion) : Inversion := ⟨h.pt i.pole, i.power⟩

/-- geometry.py 1508-1511 `Inversion.invert(inf)`: the attribute `pole` itself is returned. -/
def HInversion.invert_inf (i : HInversion) : ℕ := i.pole

/-- geometry.py 580-587 `Circle.as_ellipse`: the `Ellipse` has the array `center` of the circle as its center. -/
def HCircle.as_ellipse_center (h : Heap) (c : HCircle) : ℕ × Heap := (HArg.arr c.center).asarray h

/-- geometry.py 1037-1069 `Ellipse.point_from_angle` on a vector of angles: line 1049 converts with `np.asarray`, line 1061
is the in-place `theta *= pi/180`; the points are computed from the modified array. -/
def Ellipse.point_from_angleH (h : Heap) (e : Ellipse) (theta : HArg) (degrees : Bool) : List Pt × Heap :=
  let (a, h) := theta.asarray h
  let h := if degrees = true then h.write a ((h.get a).map (· * (Real.pi / 180))) else h
  ((h.get a).map fun t => e.point_from_angle t false, h)

/-! ## Histories -/

/-- The memory, and the arrays the caller has a reference to. -/
structure World where
  heap : Heap
  known : Set ℕ

/-- What the caller can do: create an array, write into one of theirs, construct an object from arguments, call
`point_from_angle`. -/
inductive Ev where
  | alloc (l : List ℝ)
  | write (a : ℕ) (l : List ℝ)
  | newCircle (v : HArg) (r : ℝ)
  | newLine (v w : HArg)
  | newInversion (v : HArg) (k : ℝ)
  | pointFromAngle (e : Ellipse) (v : HArg) (degrees : Bool)

/-- The arguments refer to arrays of the caller. -/
def HArg.In (K : Set ℕ) : HArg → Prop
  | .arr a => a ∈ K
  | .seq _ => True

/-- One event; an event with a reference the caller does not have is impossible and changes nothing. -/
def World.step (w : World) : Ev → World
  | .alloc l => ⟨(w.heap.alloc l).2, insert w.heap.next w.known⟩
  | .write a l => if a ∈ w.known then ⟨w.heap.write a l, w.known⟩ else w
  | .newCircle v r => if v.In w.known then
      (match HCircle.init w.heap v r with
        | .ok (_, h) => ⟨h, w.known⟩
        | .error _ => w)
    else w
  | .newLine v u => if v.In w.known ∧ u.In w.known then
      (match HLine.init w.heap v u true true with
        | .ok (_, h) => ⟨h, w.known⟩
        | .error _ => w)
    else w
  | .newInversion v k => if v.In w.known then
      (match HInversion.init w.heap v k with
        | .ok (_, h) => ⟨h, w.known⟩
        | .error _ => w)
    else w
  | .pointFromAngle e v d => if v.In w.known then ⟨(e.point_from_angleH w.heap v d).2, w.known⟩ else w

/-- A finite history. -/
def World.run (w : World) (evs : List Ev) : World := evs.foldl World.step w

end
