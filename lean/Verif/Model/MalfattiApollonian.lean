import Verif.Model.Gasket
import Verif.Model.Triangle

/-!
# Model of `examples/MalfattiApollonian.py` and `examples/MalfattiApollonian_animation.py`

The functions are the same in the two scripts.  The drawing is left out; `colors` is a list from which every level takes one element, so it must be
longer than `depth`.
-/

open Classical
noncomputable section

namespace MalfattiApollonian

/-- examples/MalfattiApollonian.py 9-23 `soddyOuterCircle`.  The sides are numpy numbers, so the divisions are numpy divisions. -/
def soddyOuterCircle (ABC : Triangle) : Res Circle := do
  let a := ABC.a
  let b := ABC.b
  let c := ABC.c
  let p := a + b + c
  let s := p / 2
  let area ← pySqrt (s * (s - a) * (s - b) * (s - c))
  let q ← pySqrt (s * (a + b - s) * (a + c - s) * (b + c - s))
  let R ← npDiv (a * b * c) (4 * q)
  let r ← npDiv area s
  let radius ← npDiv area (4 * R + r - p)
  let qa ← npDiv area (s - a)
  let qb ← npDiv area (s - b)
  let qc ← npDiv area (s - c)
  let p1 := a - qa
  let p2 := b - qb
  let p3 := c - qc
  if p1 + p2 + p3 = 0 then .error .nonFinite
  else mkCircle ((p1 • ABC.A + p2 • ABC.B + p3 • ABC.C) / (p1 + p2 + p3)) |radius|

/-- examples/MalfattiApollonian.py 65 and 40: `circ.center` of what `invert_circle` returned.  A `Line` object has no attribute `center`. -/
def centered : GCircle → Res GCircle
  | .circle c => .ok (.circle c)
  | .line _ => .error .attributeError

/-- What `drawGasket` has at hand when it calls `gasket`. -/
structure Start where
  Mcircles : List Circle
  inversions : List Inversion
  circles0 : List (GCircle × ℕ)

/-- examples/MalfattiApollonian.py 46-69 `drawGasket` up to the call of `gasket`.  For a flat triangle `malfatti_circles` returns `None`, and
`None["circles"]` raises `TypeError`. -/
def drawGasket (t : Triangle) : Res Start := do
  match ← t.malfatti_circles with
  | none => .error .typeError
  | some m =>
    let soddyO ← soddyOuterCircle ⟨m.cA.center, m.cB.center, m.cC.center⟩
    let i0 ← Inversion.from_fixing_three_circles soddyO m.cB m.cC
    let i1 ← Inversion.from_fixing_three_circles soddyO m.cA m.cC
    let i2 ← Inversion.from_fixing_three_circles soddyO m.cA m.cB
    let i3 ← Inversion.from_fixing_three_circles m.cA m.cB m.cC
    let g0 ← centered (← i0.invert_circle m.cA)
    let g1 ← centered (← i1.invert_circle m.cB)
    let g2 ← centered (← i2.invert_circle m.cC)
    let g3 ← centered (← i3.invert_circle soddyO)
    return ⟨[m.cA, m.cB, m.cC, soddyO], [i0, i1, i2, i3], [(g0, 0), (g1, 1), (g2, 2), (g3, 3)]⟩

/-- examples/MalfattiApollonian.py 36-44 `gasket`: the circles of level `d`; level 0 is `circles0`. -/
def gasket (inversions : List Inversion) (circles0 : List (GCircle × ℕ)) : ℕ → Res (List (GCircle × ℕ))
  | 0 => return circles0
  | d + 1 => do
    let g ← gasket inversions circles0 d
    let circles ← Gasket.children inversions g
    circles.mapM fun circle => do
      let c ← centered circle.1
      return (c, circle.2)

/-- examples/MalfattiApollonian.py 76-85: the triangle `t1` that is drawn. -/
def normalised (t : Triangle) : Res Triangle := do
  match ← t.malfatti_circles with
  | none => .error .typeError
  | some m =>
    let soddyO ← soddyOuterCircle ⟨m.cA.center, m.cB.center, m.cC.center⟩
    let center := soddyO.center
    let radius := soddyO.radius
    return ⟨(t.A - center) / radius, (t.B - center) / radius, (t.C - center) / radius⟩

end MalfattiApollonian
