import Verif.Model.Gasket
import Verif.Model.Triangle
import Verif.Model.ThreeTangent

/-!
# Model of the circular part of `examples/triangularCircularGasket.py`

Lines 103-134 and 162-216.  The triangular part has the functions of `triangularApollonianGasket.py` (`Model/TriangularGasket`).  Simplifications: a drawn
sphere is the circle it is drawn for, colors are dropped.  The two parallel lists of a generation are one list of pairs, as in `Model/Gasket`.
-/

open Classical
noncomputable section

namespace CircularGasket

open Gasket

/-- `.center` and `.radius` of what `invert_circle` returned; a `Line` object has neither. -/
def asCircle : GCircle → Res Circle
  | .circle c => .ok c
  | .line _ => .error .attributeError

/-- `circles0[j]`, of which the attributes `center` and `radius` are taken. -/
def nth (circles0 : List GCircle) (j : ℕ) : Res Circle :=
  match circles0[j]? with
  | some g => asCircle g
  | none => .error .typeError

/-- geometry.py 1742-1748 `Triangle.__init__` with a point and two elements of the list `K`. -/
def kTriangle (J : Pt) (K : List XPt) (i j : ℕ) : Res Triangle :=
  match K[i]?, K[j]? with
  | some P, some Q => ThreeTangent.mkTriangleX J P Q
  | _, _ => .error .typeError

/-- examples/triangularCircularGasket.py 125-131: `J[i]` and `invCircles[i]`.  `distance` is `np.linalg.norm`, so the division is a numpy division. -/
def contact (circles0 : List GCircle) (K : List XPt) (n i : ℕ) : Res (Pt × Option Circle) := do
  let ip1 := (i + 1) % n
  let ip2 := (i + 2) % n
  let a ← nth circles0 ip2
  let A := a.center
  let rad := a.radius
  let b ← nth circles0 ip1
  let B := b.center
  if distance_ A B = 0 then .error .nonFinite
  else
    let J := A + (rad • (B - A)) / distance_ A B
    let T ← kTriangle J K ip1 ip2
    return (J, ← T.circumcircle)

/-- examples/triangularCircularGasket.py 132: the three first elements of `J`.  With fewer than three there is an `IndexError`; the checks of the radii
stop the script earlier. -/
def jTriangle : List Pt → Res Triangle
  | J0 :: J1 :: J2 :: _ => .ok ⟨J0, J1, J2⟩
  | _ => .error .typeError

/-- examples/triangularCircularGasket.py 103-134 `startingCircles`.  An element of `invCircles` is `None` for a flat triangle. -/
def startingCircles (c0 : Circle) (n : ℕ) (phi shift : ℝ) : Res (List GCircle × List (Option Circle)) := do
  let invphi ← pyDiv 1 phi
  let I : Pt := (⟨c0.radius * invphi, 0⟩ : Pt) + c0.center
  let r := c0.radius * (← pySqrt (invphi * invphi - 1))
  let circ0 ← mkCircle I r
  let sine := Real.sin (← pyDiv Real.pi n)
  let Cradius := c0.radius / (1 + sine)
  let Cside := Cradius * sine
  let iota := Inversion.on_circle circ0
  let K := (List.range n).map fun i : ℕ => iota.invert (.fin (c0.point_from_angle (((i : ℝ) + shift) * 2 * Real.pi / n) false))
  let chain ← (List.range n).mapM fun i : ℕ => do
    let circ1 ← mkCircle (Cradius • unit_vector_ (((i : ℝ) + shift) * 2 * Real.pi / n) + c0.center) Cside
    iota.invert_circle circ1
  let inner ← mkCircle c0.center (c0.radius - 2 * Cside)
  let circles0 := chain ++ [← iota.invert_circle inner]
  let JC ← (List.range n).mapM (contact circles0 K n)
  let T ← jTriangle (JC.map Prod.fst)
  return (circles0, JC.map Prod.snd ++ [← T.circumcircle])

/-- geometry.py 1580-1589 `Inversion.on_circle` with an element of `invCircles`; `None` has no attribute `center`. -/
def onCircle : Option Circle → Res Inversion
  | some c => .ok (Inversion.on_circle c)
  | none => .error .attributeError

/-- examples/triangularCircularGasket.py 170-174: the loop over `j`, with the circles `circles0[j]` kept. -/
def circles1Of (o : Option Circle) (i : ℕ) : List GCircle → Res (List (GCircle × ℕ))
  | [] => return []
  | g :: rest => do
    let iota ← onCircle o
    let circle ← invertG iota g
    let more ← circles1Of o i rest
    return (circle, i) :: more

/-- examples/triangularCircularGasket.py 169-171: the `circles0[j]` with `j != ip1 and j != ip2`. -/
def kept (circles0 : List GCircle) (n i : ℕ) : List GCircle :=
  (circles0.zipIdx.filter fun p => p.2 ≠ (i + 1) % n ∧ p.2 ≠ (i + 2) % n).map Prod.fst

/-- examples/triangularCircularGasket.py 162-177 `Circles1`. -/
def circles1 (circles0 : List GCircle) (invCircles : List (Option Circle)) : Res (List (GCircle × ℕ)) := do
  let n := circles0.length - 1
  let rows ← (invCircles.take n).zipIdx.mapM fun p => circles1Of p.1 p.2 (kept circles0 n p.2)
  return rows.flatten

/-- examples/triangularCircularGasket.py 188-193: the loop over `j` of `children`. -/
def childrenOf (g : GCircle) (k : ℕ) : List (Option Circle × ℕ) → Res (List (GCircle × ℕ))
  | [] => return []
  | (o, j) :: rest =>
    if k ≠ j then do
      let iota ← onCircle o
      let circle ← invertG iota g
      let more ← childrenOf g k rest
      return (circle, j) :: more
    else childrenOf g k rest

/-- examples/triangularCircularGasket.py 180-194 `children`. -/
def children (invCircles : List (Option Circle)) : List (GCircle × ℕ) → Res (List (GCircle × ℕ))
  | [] => return []
  | (g, k) :: rest => do
    let here ← childrenOf g k invCircles.zipIdx
    let more ← children invCircles rest
    return here ++ more

/-- examples/triangularCircularGasket.py 204-206: `allCircles[d+1]`. -/
def generation (circles0 : List GCircle) (invCircles : List (Option Circle)) : ℕ → Res (List (GCircle × ℕ))
  | 0 => circles1 circles0 invCircles
  | d + 1 => do
    let g ← generation circles0 invCircles d
    children invCircles g

/-- examples/triangularCircularGasket.py 197-216 `drawCircularGasket` with `depth = d + 1`: the circles drawn, one list per color.  For `depth = 0` the
script fails with an `IndexError`. -/
def drawCircularGasket (circle0 : Circle) (n d : ℕ) (phi shift : ℝ) : Res (List (List Circle)) := do
  let scircles ← startingCircles circle0 n phi (n * shift)
  let later ← (List.range d).mapM fun e => generation scircles.1 scircles.2 e
  (scircles.1 :: later.map fun g => g.map Prod.fst).mapM fun zcircles => zcircles.mapM asCircle

end CircularGasket
