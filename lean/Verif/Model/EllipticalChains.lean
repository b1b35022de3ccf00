import Verif.Model.Affine
import Verif.Model.Inversion

/-!
# Model of the scripts with Steiner chains

`EllipticalSteinerChain.py`, `NestedSteinerChains.py`, `EllipticalNestedSteinerChains.py`, their animations and their 3D versions.  The numbers of the
scripts (`c0`, `ell0`, `n`, `phi`, `shift`) are arguments.  A drawn curve is an element of the list that is returned.  A drawn sphere (`pv.Sphere`) is the
set of its points, not a mesh.
-/

open Classical
noncomputable section

namespace EllipticalChains

/-- `f.transform_ellipse(c)` for an element of `chain["circles"]` (geometry.py 2198-2235).  A `Line` object has no method `equation`. -/
def transformG (f : Affine) : GCircle → Res (Option Ellipse)
  | .circle c => f.transform_ellipse (.circ c)
  | .line _ => if Matrix.det f.A = 0 then .ok none else .error .attributeError

/-- examples/EllipticalSteinerChain.py 6-12 (and its animation, lines 6-16). -/
def ellipticalChain (c0 : Circle) (ell0 : Ellipse) (n : ℕ) (phi shift : ℝ) : Res (List (Option Ellipse)) := do
  let f ← Affine.from_ellipse_to_ellipse (.circ c0) (.ell ell0)
  let chain ← SteinerChain c0 n phi shift
  chain.circles.mapM (transformG f)

/-- `SteinerChain(c, ...)["circles"]` for an element of a list of circles. -/
def chainOf (m : ℕ) (phi shift : ℝ) : GCircle → Res (List GCircle)
  | .circle c => do return (← SteinerChain c m phi shift).circles
  | .line _ => .error (.valueError "`c0` must be a `Circle` object.")

/-- examples/NestedSteinerChains.py 7-10 (and its animation, lines 15-17): `circles` and `chains`, with `n = 3` there. -/
def nestedChains (c0 : Circle) (n : ℕ) (phi shift : ℝ) (m : ℕ) (phi2 shift2 : ℝ) : Res (List GCircle × List (List GCircle)) := do
  let circles := (← SteinerChain c0 n phi shift).circles
  let chains ← (circles.take n).mapM (chainOf m phi2 shift2)
  return (circles, chains)

/-- `draw_circle` takes `C.center` and `C.radius`; a `Line` object has neither. -/
def asCircle : GCircle → Res Circle
  | .circle c => .ok c
  | .line _ => .error .attributeError

/-- examples/NestedSteinerChains.py 6-19: the circles drawn in blue and the ones drawn in red. -/
def nestedDrawn (c0 : Circle) (n : ℕ) (phi shift : ℝ) (m : ℕ) (phi2 shift2 : ℝ) : Res (List Circle × List (List Circle)) := do
  let r ← nestedChains c0 n phi shift m phi2 shift2
  let blue ← r.1.mapM asCircle
  let red ← r.2.mapM fun chain => chain.mapM asCircle
  return (blue, red)

/-- examples/EllipticalNestedSteinerChains.py 6-29: the ellipses drawn in blue and the ones drawn in red. -/
def ellipticalNested (c0 : Circle) (ell0 : Ellipse) (n : ℕ) (phi shift : ℝ) (m : ℕ) (phi2 shift2 : ℝ) :
    Res (List (Option Ellipse) × List (List (Option Ellipse))) := do
  let f ← Affine.from_ellipse_to_ellipse (.circ c0) (.ell ell0)
  let r ← nestedChains c0 n phi shift m phi2 shift2
  let blue ← r.1.mapM (transformG f)
  let red ← r.2.mapM fun chain => chain.mapM (transformG f)
  return (blue, red)

/-- examples/EllipticalSteinerChain3D.py 10-20: the matrix `Tr`, with `1/3` (1/2 and 3/4 in the animations) for `h`. -/
def tr3D (f : Affine) (h : ℝ) : Matrix (Fin 4) (Fin 4) ℝ :=
  !![f.A 0 0, f.A 0 1, 0, f.b.x;
     f.A 1 0, f.A 1 1, 0, f.b.y;
     0, 0, h, 0;
     0, 0, 0, 1]

/-- examples/EllipticalSteinerChain3D.py 36: `mesh.transform(Tr)` on a point of the mesh, in homogeneous coordinates. -/
def applyTr (T : Matrix (Fin 4) (Fin 4) ℝ) (v : Pt × ℝ) : Pt × ℝ :=
  let w := T.mulVec ![v.1.x, v.1.y, v.2, 1]
  (⟨w 0 / w 3, w 1 / w 3⟩, w 2 / w 3)

end EllipticalChains
