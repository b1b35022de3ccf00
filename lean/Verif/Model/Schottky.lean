import Verif.Model.Mobius
import Verif.Model.UniqueWith
import Mathlib.GroupTheory.FreeGroup.Reduce

/-!
# Model of examples/Schottky.py

`free_group("a, b")` of sympy is the free group on two generators: an element is its reduced word, `array_form` groups equal letters.  The number of
letters `n` and the angle `theta` are parameters; the script has `n = 6` and `theta = -0.5`.
-/

open Classical
noncomputable section

namespace Schottky

/-- examples/Schottky.py 11: the two generators. -/
inductive Gen where
  | a
  | b
deriving DecidableEq

/-- The keys "a", "b" (with `true`) and "A", "B" (with `false`) of the dictionaries. -/
abbrev Letter := Gen × Bool

/-- examples/Schottky.py 11-16 `elems`. -/
def elems : List (FreeGroup Gen) := [FreeGroup.of .a, (FreeGroup.of .a)⁻¹, FreeGroup.of .b, (FreeGroup.of .b)⁻¹]

/-- examples/Schottky.py 19-20: `product(elems, repeat=n)`, the last entry varies fastest. -/
def points : ℕ → List (List (FreeGroup Gen))
  | 0 => [[]]
  | n + 1 => elems.flatMap fun x => (points n).map fun t => x :: t

/-- examples/Schottky.py 22-23: `reduce` without initial value fails on an empty sequence. -/
def multiply : List (FreeGroup Gen) → Res (FreeGroup Gen)
  | [] => .error .typeError
  | x :: l => .ok (l.foldl (fun u v => u * v) x)

/-- `array_form` of sympy: runs of equal generators with their exponents. -/
def runs : List Letter → List (Gen × ℤ)
  | [] => []
  | (x, s) :: l =>
    let e : ℤ := if s then 1 else -1
    match runs l with
    | (y, k) :: t => if y = x then (y, e + k) :: t else (x, e) :: (y, k) :: t
    | [] => [(x, e)]

/-- `transfo.array_form`. -/
def array_form (g : FreeGroup Gen) : List (Gen × ℤ) := runs g.toWord

/-- examples/Schottky.py 39-42 `total`. -/
def total (g : FreeGroup Gen) : ℕ := ((array_form g).map fun x => x.2.natAbs).sum

/-- examples/Schottky.py 37-48 `Gn`. `unique_with` never fails (C96). -/
def Gn (n : ℕ) : Res (List (FreeGroup Gen)) := do
  let L ← (points n).mapM multiply
  match UniqueWith.unique_with L (fun u v => decide (u = v)) with
  | none => .error .typeError
  | some (_, transfos) => return transfos.filter fun g => decide (total g = n)

/-- The circles and the transformations of the script. -/
structure Data where
  Ca : Line
  CA : Circle
  Cb : Circle
  CB : Circle
  Moba : Mobius
  Mobb : Mobius
  MobA : Mobius
  MobB : Mobius

/-- examples/Schottky.py 52-73, for the angle `theta`.  The divisions are divisions of Python floats, except the one of line 63, whose numerator is a numpy
float. -/
def data (theta : ℝ) : Res Data := do
  let Ca ← mkLine ⟨-1, 0⟩ ⟨1, 0⟩
  let Rc := √2 / 4
  let yI := -3 * √2 / 4
  let CA ← mkCircle ⟨0, yI⟩ Rc
  let T : Pt := ⟨Rc * Real.cos theta, yI + Rc * Real.sin theta⟩
  let P : Pt := ⟨T.x + T.y * Real.tan theta, 0⟩
  let PT := distance_ T P
  let xTprime := P.x + PT
  let xPprime ← pyDiv (-yI) (Real.tan theta)
  let PprimeTprime := |xTprime - xPprime|
  let q ← npDiv (yI * PprimeTprime) xPprime
  let Rcprime := |q|
  let Cb ← mkCircle ⟨xTprime, -Rcprime⟩ Rcprime
  let CB ← mkCircle ⟨-xTprime, -Rcprime⟩ Rcprime
  let Moba : Mobius := ⟨!![(√2 : ℂ), Complex.I; -Complex.I, (√2 : ℂ)]⟩
  let Mobb : Mobius := ⟨!![toC Cb.center, ((dot1_ Cb.center - Cb.radius ^ 2 : ℝ) : ℂ); 1, -toC CB.center]⟩
  let MobA := Moba.inverse
  let MobB := Mobb.inverse
  return ⟨Ca, CA, Cb, CB, Moba, Mobb, MobA, MobB⟩

/-- examples/Schottky.py 75-80: the dictionary `Mobs`. -/
def Data.mob (D : Data) : Letter → Mobius
  | (.a, true) => D.Moba
  | (.b, true) => D.Mobb
  | (.a, false) => D.MobA
  | (.b, false) => D.MobB

/-- examples/Schottky.py 82-87: the dictionary `Circles`. -/
def Data.circ (D : Data) : Letter → GCircle
  | (.a, true) => .line D.Ca
  | (.b, true) => .circle D.Cb
  | (.a, false) => .circle D.CA
  | (.b, false) => .circle D.CB

/-- examples/Schottky.py 89-98 `transfo2seq`. -/
def transfo2seq (g : FreeGroup Gen) : List Letter :=
  (array_form g).flatMap fun p => if p.2 < 0 then List.replicate (-p.2).toNat (p.1, false) else List.replicate p.2.toNat (p.1, true)

/-- `reduce(lambda M1, M2: M1.compose(M2), mobs)`. -/
def composeAll : List Mobius → Res Mobius
  | [] => .error .typeError
  | m :: ms => .ok (ms.foldl (fun M1 M2 => M1.compose M2) m)

/-- `mobius.transform_line(Circles["a"])` or `mobius.transform_circle(Circles[seq[-1]])`. -/
def applyTo (f : Mobius) : GCircle → Res GCircle
  | .line l => f.transform_line l
  | .circle c => f.transform_circle c

/-- examples/Schottky.py 100-106 `circle`, for `n ≥ 1`.  An empty sequence fails in `reduce`. -/
def circle (D : Data) (n : ℕ) (g : FreeGroup Gen) : Res GCircle := do
  let seq := transfo2seq g
  let mobius ← composeAll ((seq.map D.mob).take (n - 1))
  match seq.getLast? with
  | some x => applyTo mobius (D.circ x)
  | none => .error .typeError

/-- examples/Schottky.py 118-153: the twelve circles drawn before the loop, in red, green, blue and yellow. -/
def second (D : Data) : Res (List GCircle) :=
  [((.a, false), (.a, false)), ((.a, false), (.b, false)), ((.a, false), (.b, true)),
   ((.a, true), (.a, true)), ((.a, true), (.b, false)), ((.a, true), (.b, true)),
   ((.b, true), (.a, true)), ((.b, true), (.b, true)), ((.b, true), (.a, false)),
   ((.b, false), (.a, true)), ((.b, false), (.a, false)), ((.b, false), (.b, false))].mapM
    fun p : Letter × Letter => applyTo (D.mob p.1) (D.circ p.2)

/-- The attributes `center` and `radius` used for drawing: a line has none. -/
def asCircle : GCircle → Res Circle
  | .circle c => .ok c
  | .line _ => .error .attributeError

/-- examples/Schottky.py 154-160: the circles drawn by the loop. -/
def drawn (D : Data) (n : ℕ) : Res (List Circle) := do
  let gs ← Gn n
  gs.mapM fun g => do asCircle (← circle D n g)

end Schottky
