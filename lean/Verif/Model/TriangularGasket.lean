import Verif.Model.Triangle
import Verif.Model.GasketMobius

/-!
# Model of `examples/triangularApollonianGasket.py`

The same functions are in `triangularCircularGasket.py`, which differs only by the drawing of the three Malfatti circles.  Simplifications: a drawn
sphere is the circle it is drawn for, colors are dropped (so is the `IndexError` when there are fewer colors than generations).
-/

open Classical
noncomputable section

namespace TriGasket

/-- examples/triangularApollonianGasket.py 40-42, 80-82, 103-105: the tuples describing a hole. -/
inductive Hole where
  | ccc (c1 c2 c3 : Circle)
  | ccl (cA cB : Circle) (A B : Pt)
  | cll (A B C : Pt) (circle : Circle)

/-- What filling a hole does: the circle drawn (`plotter.add_mesh`) and the tuple of new holes returned. -/
structure Step where
  drawn : Circle
  holes : List Hole

/-- examples/triangularApollonianGasket.py 17-18 `innerSoddyRadius`; `none` is `inf`, for which `1/r3` and `1/r2/r3` are `0.0`. -/
def innerSoddyRadius (r1 r2 : ℝ) (r3 : Option ℝ) : Res ℝ := do
  let k1 ← pyDiv 1 r1
  let k2 ← pyDiv 1 r2
  let k3 ← match r3 with
    | none => pure 0
    | some r => pyDiv 1 r
  let k12 ← pyDiv k1 r2
  let k23 ← match r3 with
    | none => pure 0
    | some r => pyDiv k2 r
  let k31 ← pyDiv k3 r1
  let s ← pySqrt (k12 + k23 + k31)
  pyDiv 1 (k1 + k2 + k3 + 2 * s)

/-- examples/triangularApollonianGasket.py 25-43 `innerSoddyCircle`. -/
def innerSoddyCircle (c1 c2 c3 : Circle) : Res Step := do
  let radius ← innerSoddyRadius c1.radius c2.radius (some c3.radius)
  let (center, _) ← (⟨c1.center, c2.center, c3.center⟩ : Triangle).equal_detour_point
  let c123 ← mkCircle center radius
  return ⟨c123, [.ccc c123 c1 c2, .ccc c123 c2 c3, .ccc c123 c1 c3]⟩

/-- `math.copysign(x, y)`; a zero `y` counts as `+0.0`. -/
def copysign (x y : ℝ) : ℝ := if y < 0 then -|x| else |x|

/-- examples/triangularApollonianGasket.py 48-83: `side_circle_circle` after the test of line 46. -/
def side_circle_circle0 (A B : Pt) (cA cB : Circle) : Res Step := do
  let rA := cA.radius
  let rB := cB.radius
  let zoA : ℂ := ⟨cA.center.x, cA.center.y⟩
  let zoB : ℂ := ⟨cB.center.x, cB.center.y⟩
  let zB : ℂ := ⟨A.x, A.y⟩
  let alpha ← pyAcos (← npDiv (B.x - A.x) (distance_ A B))
  let zX1 := Complex.exp (-alpha * Complex.I) * (zoA - zB)
  let zX2 := Complex.exp (-alpha * Complex.I) * (zoB - zB)
  let soddyR ← innerSoddyRadius rA rB none
  let sA ← pySqrt rA
  let sB ← pySqrt rB
  let Y : ℂ ← if zX1.re < zX2.re then do
      pure ⟨(← pyDiv (2 * rA * sB) (sA + sB)) + zX1.re, copysign soddyR zX1.im⟩
    else do
      pure ⟨(← pyDiv (2 * rB * sA) (sA + sB)) + zX2.re, copysign soddyR zX1.im⟩
  let Z := Complex.exp (Complex.I * alpha) * Y + zB
  let cAB ← mkCircle ⟨Z.re, Z.im⟩ soddyR
  return ⟨cAB, [.ccc cAB cA cB, .ccl cA cAB A B, .ccl cAB cB A B]⟩

/-- examples/triangularApollonianGasket.py 45-83 `side_circle_circle`. -/
def side_circle_circle (A B : Pt) (cA cB : Circle) : Res Step :=
  if A.y > B.y then side_circle_circle0 B A cB cA else side_circle_circle0 A B cA cB

/-- geometry.py 1742-1748 `Triangle.__init__` with a point and two results of `intersection_line_line`, which may be `None`. -/
def mkTriangleO (A : Pt) (B C : Option Pt) : Res Triangle :=
  match B, C with
  | some B, some C => .ok ⟨A, B, C⟩
  | none, _ => .error (.valueError "`B` is not a point.")
  | some _, none => .error (.valueError "`C` is not a point.")

/-- examples/triangularApollonianGasket.py 85-106 `side_side_circle`. -/
def side_side_circle (A B C : Pt) (circle : Circle) : Res Step := do
  let zA : ℂ := ⟨A.x, A.y⟩
  let zO : ℂ := ⟨circle.center.x, circle.center.y⟩
  let vec := zA - zO
  let zP := zO + (← Gasket.pyDivC (circle.radius * vec) ‖vec‖)
  let P : Pt := ⟨zP.re, zP.im⟩
  let OP := P - circle.center
  let tangent ← mkLine P (P + ⟨-OP.y, OP.x⟩)
  let lineAC ← mkLine A C
  let lineAB ← mkLine A B
  let P1 := Line.intersection_line_line tangent lineAC
  let P2 := Line.intersection_line_line tangent lineAB
  let T ← mkTriangleO A P1 P2
  let incircle ← T.incircle
  return ⟨incircle, [.cll A B C incircle, .ccl circle incircle A B, .ccl circle incircle A C]⟩

/-- examples/triangularApollonianGasket.py 113-130: the case distinction of `new_holes`. -/
def fill : Hole → Res Step
  | .ccc c1 c2 c3 => innerSoddyCircle c1 c2 c3
  | .ccl cA cB A B => side_circle_circle A B cA cB
  | .cll A B C circle => side_side_circle A B C circle

/-- examples/triangularApollonianGasket.py 108-131 `new_holes`: the loop over the three holes. -/
def new_holes (holes : Step) : Res (List Step) := holes.holes.mapM fill

/-- examples/triangularApollonianGasket.py 174-182: the first holes. -/
def first (A B C : Pt) (C1 C2 C3 : Circle) : Res (List Step) := do
  let h1 ← side_circle_circle A B C1 C2
  let h2 ← side_circle_circle B C C2 C3
  let h3 ← side_circle_circle C A C3 C1
  let h4 ← innerSoddyCircle C1 C2 C3
  let h5 ← side_side_circle A B C C1
  let h6 ← side_side_circle B A C C2
  let h7 ← side_side_circle C A B C3
  return [h1, h2, h3, h4, h5, h6, h7]

/-- examples/triangularApollonianGasket.py 184-189: the loop over `depth`; `drawn` are the circles drawn so far. -/
def passes : ℕ → List Circle → List Step → Res (List Circle)
  | 0, drawn, _ => return drawn
  | d + 1, drawn, holes => do
    let Holes ← holes.mapM new_holes
    passes d (drawn ++ Holes.flatten.map Step.drawn) Holes.flatten

/-- examples/triangularApollonianGasket.py 145-189 `drawTriangularGasket`: the list of the circles drawn.  Indexing `None` is a `TypeError`. -/
def drawTriangularGasket (A B C : Pt) (depth : ℕ) : Res (List Circle) := do
  match ← (⟨A, B, C⟩ : Triangle).malfatti_circles with
  | none => .error .typeError
  | some m =>
    let holes ← first A B C m.cA m.cB m.cC
    passes depth ([m.cA, m.cB, m.cC] ++ holes.map Step.drawn) holes

end TriGasket
