import Verif.Model.Affine
import Verif.Model.Line

/-!
# Model of the classes `Projection`, `Rotation`, `Shear`, `ScalingXY`, `Homothety`, `Scaling`, geometry.py 2768-3420, of
`Reflection.get3x3matrix` and `as_affine`, geometry.py 2677-2702 and 2760-2765, and of `Affine.transform` on arrays
-/

open Classical
noncomputable section

/-! ## Array arguments -/

/-- The result of `np.asarray(M, dtype=float)` for the argument `M` of a `transform` method: an exception, or an array of
dimension 0, 1, 2 (with its entries) or more (only the shape matters). -/
inductive Arr where
  | bad (e : Err)
  | scalar (x : ℝ)
  | vec (l : List ℝ)
  | mat (n m : ℕ) (f : Matrix (Fin n) (Fin m) ℝ)
  | nd (d0 d1 d2 : ℕ) (ds : List ℕ)

/-- What the `transform` methods return: a point, an n x 2 matrix, or (`Affine` only) a higher dimensional array. -/
inductive Out where
  | pt (P : Pt)
  | mat (n : ℕ) (M : Matrix (Fin n) (Fin 2) ℝ)
  | nd

/-- The 1 x 2 matrix of a point: `M.reshape((1, 2))`. -/
def rowMat (x y : ℝ) : Matrix (Fin 1) (Fin 2) ℝ := !![x, y]

/-- The common prologue and epilogue of the `transform` methods (e.g. geometry.py 2883-2894 and 2908-2910): conversion to
an array, a vector is reshaped to one row (`ValueError` if it has not two entries), anything else that is not an n x 2
matrix is rejected; a point is returned for a vector.  `core` is the computation on n x 2 matrices. -/
def onPoints (core : (n : ℕ) → Matrix (Fin n) (Fin 2) ℝ → Res (Matrix (Fin n) (Fin 2) ℝ)) (M : Arr) : Res Out :=
  match M with
  | .bad _ => .error (.valueError "Invalid `M` argument.")
  | .vec [x, y] => do
    let out ← core 1 (rowMat x y)
    return .pt ⟨out 0 0, out 0 1⟩
  | .vec _ => .error (.valueError "cannot reshape array into shape (1,2)")
  | .mat n 2 f => do return .mat n (← core n f)
  | _ => .error (.valueError "`M` cannot be converted to a nx2 matrix.")

/-- numpy broadcasting of a vector over the rows: `M + O`. -/
def addRows {n : ℕ} (M : Matrix (Fin n) (Fin 2) ℝ) (O : Pt) : Matrix (Fin n) (Fin 2) ℝ :=
  M + Matrix.of fun _ => ![O.x, O.y]

/-- `np.column_stack((c0, c1))`. -/
def columnStack {n : ℕ} (c0 c1 : Fin n → ℝ) : Matrix (Fin n) (Fin 2) ℝ := Matrix.of fun i => ![c0 i, c1 i]

/-- A point as argument: what `np.asarray` makes of a valid point. -/
def Pt.arr (P : Pt) : Arr := .vec [P.x, P.y]

/-- The point returned for a point argument. -/
def Out.toPt : Out → Res Pt
  | .pt P => .ok P
  | _ => .error .typeError

/-- `M[:, 2] = M[2, :]; M[2, :] = (0, 0, 1)` (e.g. geometry.py 2699-2701). -/
def moveRow (M : Matrix (Fin 3) (Fin 3) ℝ) : Matrix (Fin 3) (Fin 3) ℝ :=
  !![M 0 0, M 0 1, M 2 0; M 1 0, M 1 1, M 2 1; 0, 0, 1]

/-- The matrix with rows `(u, 0)`, `(v, 0)`, `(Q, 1)`, e.g. geometry.py 2686-2691. -/
def rows3 (u v Q : Pt) : Matrix (Fin 3) (Fin 3) ℝ := !![u.x, u.y, 0; v.x, v.y, 0; Q.x, Q.y, 1]

/-- `np.matmul(np.linalg.inv(M1), M2)`; `np.linalg.inv` raises `LinAlgError` for a singular matrix. -/
def invMul (M1 M2 : Matrix (Fin 3) (Fin 3) ℝ) : Res (Matrix (Fin 3) (Fin 3) ℝ) :=
  if Matrix.det M1 = 0 then .error .linAlgError else .ok (M1⁻¹ * M2)

/-- geometry.py 2172-2183 `Affine.transform` on an array.  A matrix product of incompatible shapes raises `ValueError`, as
well as a product with a scalar.  For an array of dimension at least 3, `np.matmul` multiplies the stacked matrices of
shape `(d1, d0)`, and `b` is broadcast along `d0`. -/
def Affine.transformArr (f : Affine) (m : Arr) : Res Out :=
  match m with
  | .bad e => .error e
  | .scalar _ => .error (.valueError "matmul")
  | .vec [x, y] =>
    let v := f.A.mulVec ![x, y] + ![f.b.x, f.b.y]
    .ok (.pt ⟨v 0, v 1⟩)
  | .vec _ => .error (.valueError "matmul")
  | .mat n 2 M =>
    let b : Matrix (Fin 2) (Fin n) ℝ := Matrix.of fun i _ => ![f.b.x, f.b.y] i
    .ok (.mat n (Matrix.transpose (f.A * Matrix.transpose M + b)))
  | .mat _ _ _ => .error (.valueError "matmul")
  | .nd d0 d1 _ _ => if d1 = 2 ∧ (d0 = 1 ∨ d0 = 2) then .ok .nd else .error (.valueError "shapes")

/-! ## Reflection -/

/-- geometry.py 2677-2702 `Reflection.get3x3matrix`. -/
def Reflection.get3x3matrix (R : Reflection) : Res (Matrix (Fin 3) (Fin 3) ℝ) := do
  let Q := R.line.A
  let w := R.line.B - R.line.A
  let wt : Pt := ⟨-w.y, w.x⟩
  let M1 := rows3 w wt Q
  let M2 := rows3 w (-wt) Q
  let M ← invMul M1 M2
  return moveRow M

/-- geometry.py 2760-2765 `Reflection.as_affine`. -/
def Reflection.as_affine (R : Reflection) : Res Affine := do return Affine.ofMatrix3 (← R.get3x3matrix)

/-! ## Projection -/

/-- geometry.py 2776-2787: attributes of a `Projection` object. -/
structure Projection where
  D : Line
  Delta : Line
  orthogonal : Bool

/-- geometry.py 2776-2787 `Projection.__init__`; `none` is Python's `None`. -/
def mkProjection (D : Line) (Delta : Option Line) : Res Projection := do
  let D' ← mkLine D.A D.B true true
  match Delta with
  | none =>
    let v := D.B - D.A
    let Delta' ← mkLine ⟨0, 0⟩ ⟨-v.y, v.x⟩ true true
    return ⟨D', Delta', true⟩
  | some Delta =>
    let Delta' ← mkLine Delta.A Delta.B true true
    return ⟨D', Delta', false⟩

namespace Projection

/-- geometry.py 2801-2818 `Projection.project` on a valid point; alias `transform` 2820-2824. -/
def project (p : Projection) (M : Pt) : Res Pt :=
  if p.D.includes M = true then .ok M
  else
    let u := p.Delta.B - p.Delta.A
    let d := p.D.direction_offset
    let ab := unit_vector_ d.1
    do
      let k ← npDiv (-(dot_ ab M - d.2)) (dot_ ab u)
      return k • u + M

/-- geometry.py 2826-2840 `Projection.get3x3matrix`. -/
def get3x3matrix (p : Projection) : Res (Matrix (Fin 3) (Fin 3) ℝ) := do
  let b ← p.project ⟨0, 0⟩
  let p1 ← p.project ⟨1, 0⟩
  let p2 ← p.project ⟨0, 1⟩
  let col1 := p1 - b
  let col2 := p2 - b
  return !![col1.x, col2.x, b.x; col1.y, col2.y, b.y; 0, 0, 1]

/-- geometry.py 2842-2847 `Projection.as_affine`. -/
def as_affine (p : Projection) : Res Affine := do return Affine.ofMatrix3 (← p.get3x3matrix)

end Projection

/-! ## Rotation -/

/-- geometry.py 2858-2864: attributes of a `Rotation` object; `__init__` accepts every angle. -/
structure Rotation where
  center : Pt
  theta : ℝ
  degrees : Bool

namespace Rotation

/-- geometry.py 2895-2907: the computation of `Rotation.rotate` on an n x 2 matrix. -/
def rotateMat (R : Rotation) (n : ℕ) (M : Matrix (Fin n) (Fin 2) ℝ) : Res (Matrix (Fin n) (Fin 2) ℝ) :=
  let O := R.center
  let theta := if R.degrees = true then R.theta * (Real.pi / 180) else R.theta
  let costheta := Real.cos theta
  let sintheta := Real.sin theta
  let Mc := addRows M (-O)
  let x := fun i => Mc i 0
  let y := fun i => Mc i 1
  .ok (addRows (columnStack (fun i => costheta * x i - sintheta * y i) (fun i => sintheta * x i + costheta * y i)) O)

/-- geometry.py 2876-2911 `Rotation.rotate`, alias `transform` 2913-2917. -/
def rotate (R : Rotation) (M : Arr) : Res Out := onPoints R.rotateMat M

/-- `Rotation.rotate` on a point. -/
def rotatePt (R : Rotation) (P : Pt) : Res Pt := R.rotate P.arr >>= Out.toPt

/-- geometry.py 2919-2928 `Rotation.rotate_circle`, alias `transform_circle`. -/
def rotate_circle (R : Rotation) (c : Circle) : Res Circle := do mkCircle (← R.rotatePt c.center) c.radius

/-- geometry.py 2936-2954 `Rotation.rotate_ellipse`, alias `transform_ellipse`. -/
def rotate_ellipse (R : Rotation) (e : Ellipse) : Res Ellipse :=
  let degrees := e.degrees
  let theta := if degrees = true ∧ R.degrees = false then R.theta * (180 / Real.pi)
    else if degrees = false ∧ R.degrees = true then R.theta * (Real.pi / 180)
    else R.theta
  do mkEllipse (← R.rotatePt e.center) e.rmajor e.rminor (e.alpha + theta) degrees

/-- geometry.py 2962-2973 `Rotation.rotate_line`, alias `transform_line`. -/
def rotate_line (R : Rotation) (l : Line) : Res Line := do
  mkLine (← R.rotatePt l.A) (← R.rotatePt l.B) l.extendA l.extendB

/-- geometry.py 2981-3002 `Rotation.get3x3matrix`. -/
def get3x3matrix (R : Rotation) : Matrix (Fin 3) (Fin 3) ℝ :=
  let theta := if R.degrees = true then R.theta * (Real.pi / 180) else R.theta
  let x := R.center.x
  let y := R.center.y
  let costheta := Real.cos theta
  let sintheta := Real.sin theta
  !![costheta, -sintheta, (1 - costheta) * x + sintheta * y;
     sintheta, costheta, -sintheta * x + (1 - costheta) * y;
     0, 0, 1]

/-- geometry.py 3004-3009 `Rotation.as_affine`. -/
def as_affine (R : Rotation) : Affine := Affine.ofMatrix3 R.get3x3matrix

end Rotation

/-! ## Shear -/

/-- geometry.py 3036-3063: attributes of a `Shear` object. -/
structure Shear where
  vertex : Pt
  vector : Pt
  ratio : ℝ
  angle : ℝ
  degrees : Bool

/-- geometry.py 3036-3063 `Shear.__init__` on valid points and numbers. -/
def mkShear (vertex vector : Pt) (ratio angle : ℝ) (degrees : Bool := true) : Res Shear :=
  if ratio ≤ 0 then .error (.valueError "`ratio` is not positive.")
  else if degrees = true then
    if angle ≤ -90 ∨ angle ≥ 90 then
      .error (.valueError "`angle` must be strictly between -90 degrees and 90 degrees.")
    else .ok ⟨vertex, vector, ratio, angle, degrees⟩
  else
    if angle ≤ -Real.pi / 2 ∨ angle ≥ Real.pi / 2 then
      .error (.valueError "`angle` must be strictly between -90 degrees and 90 degrees.")
    else .ok ⟨vertex, vector, ratio, angle, degrees⟩

namespace Shear

/-- geometry.py 3080-3097 `Shear.get3x3matrix`. -/
def get3x3matrix (s : Shear) : Res (Matrix (Fin 3) (Fin 3) ℝ) := do
  let Q := s.vertex
  let w := s.vector
  let ratio := s.ratio
  let angle := if s.degrees = true then s.angle * (Real.pi / 180) else s.angle
  let wt := ratio • (⟨-w.y, w.x⟩ : Pt)
  let M1 := rows3 w wt Q
  let M2 := rows3 w (Real.tan angle • w + wt) Q
  let M ← invMul M1 M2
  return moveRow M

/-- geometry.py 3117-3119: the computation of `Shear.transform` on an n x 2 matrix. -/
def transformMat (s : Shear) (n : ℕ) (M : Matrix (Fin n) (Fin 2) ℝ) : Res (Matrix (Fin n) (Fin 2) ℝ) := do
  let Mat ← s.get3x3matrix
  let A : Matrix (Fin 3) (Fin n) ℝ := Matrix.of ![fun j => M j 0, fun j => M j 1, fun _ => 1]
  let P := Mat * A
  return Matrix.of fun i => ![P 0 i, P 1 i]

/-- geometry.py 3099-3122 `Shear.transform`. -/
def transform (s : Shear) (M : Arr) : Res Out := onPoints s.transformMat M

/-- `Shear.transform` on a point. -/
def transformPt (s : Shear) (P : Pt) : Res Pt := s.transform P.arr >>= Out.toPt

/-- geometry.py 3124-3129 `Shear.as_affine`. -/
def as_affine (s : Shear) : Res Affine := do return Affine.ofMatrix3 (← s.get3x3matrix)

end Shear

/-! ## ScalingXY -/

/-- geometry.py 3137-3149: attributes of a `ScalingXY` object. -/
structure ScalingXY where
  center : Pt
  sx : ℝ
  sy : ℝ

namespace ScalingXY

/-- geometry.py 3178-3180: the computation of `ScalingXY.transform` on an n x 2 matrix. -/
def transformMat (s : ScalingXY) (n : ℕ) (M : Matrix (Fin n) (Fin 2) ℝ) : Res (Matrix (Fin n) (Fin 2) ℝ) :=
  let O := s.center
  let f : Fin 2 → ℝ := ![s.sx, s.sy]
  .ok (addRows (Matrix.of fun i j => f j * addRows M (-O) i j) O)

/-- geometry.py 3160-3183 `ScalingXY.transform`. -/
def transform (s : ScalingXY) (M : Arr) : Res Out := onPoints s.transformMat M

/-- `ScalingXY.transform` on a point. -/
def transformPt (s : ScalingXY) (P : Pt) : Res Pt := s.transform P.arr >>= Out.toPt

/-- geometry.py 3185-3192 `ScalingXY.get3x3matrix`. -/
def get3x3matrix (s : ScalingXY) : Res (Matrix (Fin 3) (Fin 3) ℝ) := do
  let P ← s.transformPt ⟨0, 0⟩
  return !![s.sx, 0, P.x; 0, s.sy, P.y; 0, 0, 1]

/-- geometry.py 3194-3199 `ScalingXY.as_affine`. -/
def as_affine (s : ScalingXY) : Res Affine := do return Affine.ofMatrix3 (← s.get3x3matrix)

end ScalingXY

/-! ## Homothety -/

/-- geometry.py 3206-3215: attributes of a `Homothety` object. -/
structure Homothety where
  center : Pt
  scale : ℝ

namespace Homothety

/-- geometry.py 3243-3244: the computation of `Homothety.transform` on an n x 2 matrix. -/
def transformMat (h : Homothety) (n : ℕ) (M : Matrix (Fin n) (Fin 2) ℝ) : Res (Matrix (Fin n) (Fin 2) ℝ) :=
  let s := h.scale
  .ok (addRows (s • M) ((1 - s) • h.center))

/-- geometry.py 3225-3247 `Homothety.transform`. -/
def transform (h : Homothety) (M : Arr) : Res Out := onPoints h.transformMat M

/-- `Homothety.transform` on a point. -/
def transformPt (h : Homothety) (P : Pt) : Res Pt := h.transform P.arr >>= Out.toPt

/-- geometry.py 3249-3258 `Homothety.transform_circle`. -/
def transform_circle (h : Homothety) (c : Circle) : Res Circle := do
  mkCircle (← h.transformPt c.center) (|h.scale| * c.radius)

/-- geometry.py 3260-3268 `Homothety.get3x3matrix`. -/
def get3x3matrix (h : Homothety) : Matrix (Fin 3) (Fin 3) ℝ :=
  let s := h.scale
  let P := (1 - s) • h.center
  !![s, 0, P.x; 0, s, P.y; 0, 0, 1]

/-- geometry.py 3270-3275 `Homothety.as_affine`. -/
def as_affine (h : Homothety) : Affine := Affine.ofMatrix3 h.get3x3matrix

end Homothety

/-! ## Scaling -/

/-- geometry.py 3295-3307: attributes of a `Scaling` object. -/
structure Scaling where
  center : Pt
  direction : Pt
  scale : ℝ

namespace Scaling

/-- geometry.py 3318-3333 `Scaling.get3x3matrix`. -/
def get3x3matrix (S : Scaling) : Res (Matrix (Fin 3) (Fin 3) ℝ) := do
  let Q := S.center
  let w := S.direction
  let s := S.scale
  let v : Pt := ⟨-w.y, w.x⟩
  let M1 := rows3 w v Q
  let M2 := rows3 (s • w) v Q
  let M ← invMul M1 M2
  return moveRow M

/-- geometry.py 3354-3376: the computation of `Scaling.transform` on an n x 2 matrix. -/
def transformMat (S : Scaling) (n : ℕ) (M : Matrix (Fin n) (Fin 2) ℝ) : Res (Matrix (Fin n) (Fin 2) ℝ) :=
  let Q := S.center
  let w := S.direction
  let s := S.scale
  let wQ := -Q
  let theta := -atan2 w.y w.x
  let M := addRows M wQ
  let costheta := Real.cos theta
  let sintheta := Real.sin theta
  let M := columnStack (fun i => costheta * M i 0 - sintheta * M i 1) (fun i => sintheta * M i 0 + costheta * M i 1)
  let M := columnStack (fun i => s * M i 0) (fun i => M i 1)
  let sintheta := -sintheta
  let M := columnStack (fun i => costheta * M i 0 - sintheta * M i 1) (fun i => sintheta * M i 0 + costheta * M i 1)
  .ok (addRows M (-wQ))

/-- geometry.py 3336-3379 `Scaling.transform`. -/
def transform (S : Scaling) (M : Arr) : Res Out := onPoints S.transformMat M

/-- `Scaling.transform` on a point. -/
def transformPt (S : Scaling) (P : Pt) : Res Pt := S.transform P.arr >>= Out.toPt

/-- geometry.py 3381-3386 `Scaling.as_affine`. -/
def as_affine (S : Scaling) : Res Affine := do return Affine.ofMatrix3 (← S.get3x3matrix)

/-- geometry.py 3388-3413 `Scaling.scale_circle`; `R*w/lw` is a numpy division. -/
def scale_circle (S : Scaling) (circ : Circle) : Res Ellipse := do
  let w := S.direction
  let C := circ.center
  let R := circ.radius
  let O ← S.transformPt C
  let lw := vlength_ w
  if lw = 0 then .error .nonFinite
  else
    let A1 ← S.transformPt (C + (R • w) / lw)
    let wt : Pt := ⟨-w.y, w.x⟩
    let A2 ← S.transformPt (C + (R • wt) / lw)
    if S.scale ≥ 1 then
      let r1 := distance_ A1 O
      let r2 := distance_ A2 O
      let alpha := atan2 (A1.y - O.y) (A1.x - O.x) * 180 / Real.pi
      mkEllipse O r1 r2 alpha true
    else
      let r1 := distance_ A2 O
      let r2 := distance_ A1 O
      let alpha := atan2 (A2.y - O.y) (A2.x - O.x) * 180 / Real.pi
      mkEllipse O r1 r2 alpha true

end Scaling

end
