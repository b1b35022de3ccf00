import Verif.Model.Ellipse

/-!
# Model of class `Affine`, geometry.py 2120-2311, of `intersection_ellipse_line`, geometry.py 823-854, and of the Steiner
ellipses, geometry.py 2066-2100

`np.linalg.inv` and `np.linalg.det` are exact (Mathlib's matrix inverse and determinant).
-/

open Classical
noncomputable section

/-- geometry.py 2120-2132: attributes of an `Affine` object (a 2x2 matrix and the intercept). -/
@[ext] structure Affine where
  A : Matrix (Fin 2) (Fin 2) ℝ
  b : Pt

namespace Affine

/-- geometry.py 2142-2147 `Affine.get3x3matrix`. -/
def get3x3matrix (f : Affine) : Matrix (Fin 3) (Fin 3) ℝ :=
  !![f.A 0 0, f.A 0 1, f.b.x; f.A 1 0, f.A 1 1, f.b.y; 0, 0, 1]

/-- `Affine(M[0:2, 0:2], M[0:2, -1])`, e.g. geometry.py 2157. -/
def ofMatrix3 (M : Matrix (Fin 3) (Fin 3) ℝ) : Affine :=
  ⟨!![M 0 0, M 0 1; M 1 0, M 1 1], ⟨M 0 2, M 1 2⟩⟩

/-- geometry.py 2149-2157 `Affine.inverse`; `none` is Python's `None`.  The 3x3 matrix given to `np.linalg.inv` has the
determinant of `A`, which is nonzero there. -/
def inverse (f : Affine) : Option Affine :=
  if Matrix.det f.A = 0 then none else some (ofMatrix3 f.get3x3matrix⁻¹)

/-- geometry.py 2159-2170 `Affine.compose`. -/
def compose (f transfo : Affine) (left : Bool := true) : Affine :=
  let M0 := f.get3x3matrix
  let M1 := transfo.get3x3matrix
  let M := if left = true then M1 * M0 else M0 * M1
  ofMatrix3 M

/-- geometry.py 2172-2183 `Affine.transform` on a point. -/
def transform (f : Affine) (m : Pt) : Pt :=
  ⟨f.A 0 0 * m.x + f.A 0 1 * m.y + f.b.x, f.A 1 0 * m.x + f.A 1 1 * m.y + f.b.y⟩

/-- geometry.py 2185-2196 `Affine.transform_line`; `none` is Python's `None`. -/
def transform_line (f : Affine) (line : Line) : Res (Option Line) :=
  if Matrix.det f.A = 0 then .ok none
  else do
    return some (← mkLine (f.transform line.A) (f.transform line.B) line.extendA line.extendB)

/-- geometry.py 2211-2235: the part of `Affine.transform_ellipse` after the equation of the image, given the
coefficients.  `Delta` is nonzero for the image of an ellipse; `np.sqrt` of a negative number is `nan`. -/
def ellipseOfCoeffs (q : Coeffs) (degrees : Bool) : Res Ellipse :=
  let A := q.A
  let B := q.B
  let C := q.C
  let D := q.D
  let E := q.E
  let F := q.F
  let Delta := B * B - 4 * A * C
  do
    let s ← pySqrt ((A - C) ^ 2 + B * B)
    let k := A * E * E + C * D * D - B * D * E + Delta * F
    let ra := 2 * k * ((A + C) + s)
    let rb := 2 * k * ((A + C) + -s)
    if ra < 0 ∨ rb < 0 ∨ Delta = 0 then .error .nonFinite
    else
      let a := -Real.sqrt ra / Delta
      let b := -Real.sqrt rb / Delta
      let x0 := (2 * C * D - B * E) / Delta
      let y0 := (2 * A * E - B * D) / Delta
      let theta := atan2 (C - A - s) B
      let theta := if degrees = true then pyMod (theta * 180 / Real.pi) 180 else pyMod theta Real.pi
      mkEllipse ⟨x0, y0⟩ a b theta degrees

/-- geometry.py 2206-2217: the coefficients of the equation of the image, in `Affine.transform_ellipse`. -/
def imageCoeffs (f : Affine) (q : Coeffs) : Coeffs :=
  let X := !![q.A, q.B / 2, q.D / 2; q.B / 2, q.C, q.E / 2; q.D / 2, q.E / 2, q.F]
  let Mat := f.get3x3matrix⁻¹
  let Y := Mat.transpose * X * Mat
  ⟨Y 0 0, 2 * Y 0 1, Y 1 1, 2 * Y 0 2, 2 * Y 1 2, Y 2 2⟩

/-- geometry.py 2198-2235 `Affine.transform_ellipse`; `none` is Python's `None`. -/
def transform_ellipse (f : Affine) (ell : EllArg) : Res (Option Ellipse) :=
  if Matrix.det f.A = 0 then .ok none
  else do
    let ell ← match ell with
      | .circ c => c.as_ellipse
      | .ell e => .ok e
    return some (← ellipseOfCoeffs (f.imageCoeffs ell.equation) ell.degrees)

/-- geometry.py 2237-2270 `Affine.from_mapping_three_points`; `none` is Python's `None`.  `f1.inverse()` cannot be `None`
for non collinear points (it would raise `AttributeError`). -/
def from_mapping_three_points (P1 P2 P3 Q1 Q2 Q3 : Pt) : Res (Option Affine) :=
  if collinear_ P1 P2 P3 then .ok none
  else if collinear_ Q1 Q2 Q3 then .ok none
  else
    let f1 : Affine := ⟨!![(P2 - P1).x, (P3 - P1).x; (P2 - P1).y, (P3 - P1).y], P1⟩
    let f2 : Affine := ⟨!![(Q2 - Q1).x, (Q3 - Q1).x; (Q2 - Q1).y, (Q3 - Q1).y], Q1⟩
    match f1.inverse with
    | none => .error .attributeError
    | some g => .ok (some (g.compose f2))

/-- geometry.py 2284-2297 (and 2298-2310): the map from the unit circle to an ellipse or circle. -/
def ofEllipse (ell1 : EllArg) : Affine :=
  match ell1 with
  | .circ c =>
    let col1 := c.radius • (⟨1, 0⟩ : Pt)
    let col2 := c.radius • (⟨-0, 1⟩ : Pt)
    ⟨!![col1.x, col2.x; col1.y, col2.y], c.center⟩
  | .ell e =>
    let theta := if e.degrees = true then e.alpha * (Real.pi / 180) else e.alpha
    let costheta := Real.cos theta
    let sintheta := Real.sin theta
    let col1 := e.rmajor • (⟨costheta, sintheta⟩ : Pt)
    let col2 := e.rminor • (⟨-sintheta, costheta⟩ : Pt)
    ⟨!![col1.x, col2.x; col1.y, col2.y], e.center⟩

/-- geometry.py 2272-2311 `Affine.from_ellipse_to_ellipse`; `f1.inverse()` being `None` would raise `AttributeError`. -/
def from_ellipse_to_ellipse (ell1 ell2 : EllArg) : Res Affine :=
  let f1 := ofEllipse ell1
  let f2 := ofEllipse ell2
  match f1.inverse with
  | none => .error .attributeError
  | some g => .ok (g.compose f2)

end Affine

/-- geometry.py 823-854 `intersection_ellipse_line` (also `Ellipse.intersection_with_line`).  `invf` and `line2` are never
`None` for a valid ellipse (it would raise `AttributeError`). -/
def intersection_ellipse_line (ell : EllArg) (line : Line) : Res PtRes :=
  match ell with
  | .circ c => .ok (intersection_circle_line c line)
  | .ell e =>
    let theta := if e.degrees = true then e.alpha * (Real.pi / 180) else e.alpha
    let v := unit_vector_ theta
    let w : Pt := ⟨-v.y, v.x⟩
    let f : Affine := ⟨!![(e.rmajor • v).x, (e.rminor • w).x; (e.rmajor • v).y, (e.rminor • w).y], e.center⟩
    match f.inverse with
    | none => .error .attributeError
    | some invf => do
      match ← invf.transform_line line with
      | none => .error .attributeError
      | some line2 =>
        let c ← mkCircle ⟨0, 0⟩ 1
        match intersection_circle_line c line2 with
        | .none => return .none
        | .one I => return .one (f.transform I)
        | .two I1 I2 => return .two (f.transform I1) (f.transform I2)

namespace Triangle

/-- geometry.py 2066-2082 `Triangle.steiner_ellipse`; `none` is Python's `None`.  `f.transform_ellipse` on `None` raises
`AttributeError`, `transform_ellipse(None)` as well. -/
def steiner_ellipse (T : Triangle) : Res (Option Ellipse) := do
  let fl ← T.flatness
  if fl = 1 then return none
  else
    let P : Pt := ⟨0, 0⟩
    let Q : Pt := ⟨10, 0⟩
    let R : Pt := ⟨5, 5 * Real.sqrt 3⟩
    let circ ← (Triangle.mk P Q R).circumcircle
    let f ← Affine.from_mapping_three_points P Q R T.A T.B T.C
    match f, circ with
    | some f, some circ => f.transform_ellipse (.circ circ)
    | _, _ => .error .attributeError

/-- geometry.py 2084-2100 `Triangle.steiner_inellipse`; `none` is Python's `None`. -/
def steiner_inellipse (T : Triangle) : Res (Option Ellipse) := do
  let fl ← T.flatness
  if fl = 1 then return none
  else
    let P : Pt := ⟨0, 0⟩
    let Q : Pt := ⟨10, 0⟩
    let R : Pt := ⟨5, 5 * Real.sqrt 3⟩
    let circ ← (Triangle.mk P Q R).incircle
    let f ← Affine.from_mapping_three_points P Q R T.A T.B T.C
    match f with
    | some f => f.transform_ellipse (.circ circ)
    | none => .error .attributeError

end Triangle

end
