import Verif.Model.TriangularGasket
import Verif.Spec.Space

/-!
# Model of `examples/ApollonianIcosahedralGasket.py`

The functions that compute the circles of a face are those of `triangularApollonianGasket.py`; the spheres are flattened and moved to the face.
Simplifications: a mesh is the surface it approximates, colors are dropped.  `sphere.scale([1.0, 1.0, 0.3])` (line 57) changes the sphere or a copy of it,
depending on the version of pyvista: the factor is a parameter `h`, which is `0.3` or `1`.
-/

open Classical
noncomputable section

namespace Icosahedral

/-- `np.cross` of two vectors of space. -/
def npCross (u v : Pt3) : Pt3 := ⟨u.y * v.z - u.z * v.y, u.z * v.x - u.x * v.z, u.x * v.y - u.y * v.x⟩

/-- examples/ApollonianIcosahedralGasket.py 10-11 `vlength`. -/
def vlength (v : Pt3) : ℝ := Real.sqrt (v.x ^ 2 + v.y ^ 2 + v.z ^ 2)

/-- The division of an array by a numpy scalar. -/
def vdiv (v : Pt3) (s : ℝ) : Res Pt3 := do
  return ⟨← npDiv v.x s, ← npDiv v.y s, ← npDiv v.z s⟩

/-- examples/ApollonianIcosahedralGasket.py 31-35: the dictionary returned by `transfoMatrix`. -/
structure Transfo where
  Mat : Matrix (Fin 4) (Fin 4) ℝ
  P : Pt
  Q : Pt

/-- examples/ApollonianIcosahedralGasket.py 13-35 `transfoMatrix`. -/
def transfoMatrix (A B C : Pt3) : Res Transfo := do
  let B' := B - A
  let C' := C - A
  let n := npCross B' C'
  let n ← vdiv n (vlength n)
  let q := npCross n B'
  let q ← vdiv q (vlength q)
  let p ← vdiv B' (vlength B')
  let R : Matrix (Fin 3) (Fin 3) ℝ := !![p.x, q.x, n.x; p.y, q.y, n.y; p.z, q.z, n.z]
  let M : Matrix (Fin 4) (Fin 4) ℝ :=
    !![R 0 0, R 0 1, R 0 2, A.x;
       R 1 0, R 1 1, R 1 2, A.y;
       R 2 0, R 2 1, R 2 2, A.z;
       0, 0, 0, 1]
  let tR := R.transpose
  let P := tR.mulVec ![B'.x, B'.y, B'.z]
  let Q := tR.mulVec ![C'.x, C'.y, C'.z]
  return ⟨M, ⟨P 0, P 1⟩, ⟨Q 0, Q 1⟩⟩

/-- `mesh.transform(transfo)` on a point of the mesh, in homogeneous coordinates. -/
def applyMat (M : Matrix (Fin 4) (Fin 4) ℝ) (v : Pt3) : Pt3 :=
  let w := M.mulVec ![v.x, v.y, v.z, 1]
  ⟨w 0 / w 3, w 1 / w 3, w 2 / w 3⟩

/-- examples/ApollonianIcosahedralGasket.py 46-58 `pair_to_triplet`, `pretty_sphere`: the surface of the flattened sphere; `d` is the direction of a point
from the center. -/
def pretty_sphere (h : ℝ) (c : Circle) : Set Pt3 :=
  {v | ∃ d : Pt3, d.x ^ 2 + d.y ^ 2 + d.z ^ 2 = 1 ∧ v = ⟨c.center.x + c.radius * d.x, c.center.y + c.radius * d.y, h * (0 + c.radius * d.z)⟩}

/-- examples/ApollonianIcosahedralGasket.py 182-228 `drawFace`: the surfaces drawn. -/
def drawFace (h : ℝ) (A B C : Pt3) (depth : ℕ) : Res (List (Set Pt3)) := do
  let tm ← transfoMatrix A B C
  let circles ← TriGasket.drawTriangularGasket ⟨0, 0⟩ tm.P tm.Q depth
  return circles.map fun c => applyMat tm.Mat '' pretty_sphere h c

/-- examples/ApollonianIcosahedralGasket.py 232-245: the vertices, with `0.618033988749895` for `t`. -/
def vertices (t : ℝ) : Fin 12 → Pt3 :=
  ![⟨0, t, 1⟩, ⟨0, t, -1⟩, ⟨0, -t, 1⟩, ⟨0, -t, -1⟩, ⟨t, 1, 0⟩, ⟨t, -1, 0⟩, ⟨-t, 1, 0⟩, ⟨-t, -1, 0⟩, ⟨1, 0, t⟩, ⟨-1, 0, t⟩, ⟨1, 0, -t⟩, ⟨-1, 0, -t⟩]

/-- examples/ApollonianIcosahedralGasket.py 247-268: the faces. -/
def faces : List (Fin 12 × Fin 12 × Fin 12) :=
  [(0, 2, 8), (0, 8, 4), (0, 4, 6), (0, 6, 9), (0, 9, 2), (3, 11, 1), (3, 1, 10), (3, 10, 5), (3, 5, 7), (3, 7, 11), (8, 2, 5), (4, 8, 10), (6, 4, 1),
   (9, 6, 11), (2, 9, 7), (1, 11, 6), (10, 1, 4), (5, 10, 8), (7, 5, 2), (11, 7, 9)]

/-- examples/ApollonianIcosahedralGasket.py 275-283: the loop over the faces. -/
def script (h : ℝ) (t : ℝ) (depth : ℕ) : Res (List (List (Set Pt3))) :=
  faces.mapM fun f => drawFace h (vertices t f.1) (vertices t f.2.1) (vertices t f.2.2) depth

end Icosahedral
