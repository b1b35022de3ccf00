import Verif.Model.Objects
import Mathlib.LinearAlgebra.Matrix.Notation
import Mathlib.LinearAlgebra.Matrix.Determinant.Basic

/-!
# Model of class `Triangle`, geometry.py 1735-2118 (Steiner ellipses and random points are in other files)
-/

open Classical
noncomputable section

namespace Triangle

/-- geometry.py 1764-1775 `Triangle.flatness`.  `complex(*AB)` makes Python complex numbers, so a zero
denominator raises `ZeroDivisionError`. -/
def flatness (T : Triangle) : Res ℝ :=
  let AB := T.B - T.A
  let AC := T.C - T.A
  let re := AB.x * AC.x + AB.y * AC.y
  let im := AB.x * AC.y - AB.y * AC.x
  let re2 := re * re
  pyDiv re2 (re2 + im * im)

/-- geometry.py 1777-1782. -/
def a (T : Triangle) : ℝ := distance_ T.B T.C
/-- geometry.py 1784-1789. -/
def b (T : Triangle) : ℝ := distance_ T.A T.C
/-- geometry.py 1791-1796. -/
def c (T : Triangle) : ℝ := distance_ T.A T.B

/-- geometry.py 1805-1814 `Triangle.orientation`. -/
def orientation (T : Triangle) : ℤ :=
  let val := (T.B.y - T.A.y) * (T.C.x - T.B.x) - (T.B.x - T.A.x) * (T.C.y - T.B.y)
  if val = 0 then 0 else if val > 0 then 1 else -1

/-- geometry.py 1816-1828 `Triangle.contains`.  For `dsArea = 0` (numpy division) each of `s` and `t` is
`nan`, `inf` or `-inf`; if both are positive they are `inf` and `1-s-t` is `-inf`.  So the answer is then `False`. -/
def contains (T : Triangle) (M : Pt) : Prop :=
  let A0 := T.A.x
  let A1 := T.A.y
  let B0 := T.B.x
  let B1 := T.B.y
  let C0 := T.C.x
  let C1 := T.C.y
  let M0 := M.x
  let M1 := M.y
  let dsArea := -B1 * C0 + A1 * (-B0 + C0) + A0 * (B1 - C1) + B0 * C1
  if dsArea = 0 then False
  else
    let s := (A1 * C0 - A0 * C1 + (C1 - A1) * M0 + (A0 - C0) * M1) / dsArea
    let t := (A0 * B1 - A1 * B0 + (A1 - B1) * M0 + (B0 - A0) * M1) / dsArea
    s > 0 ∧ t > 0 ∧ 1 - s - t > 0

/-- geometry.py 1830-1838 `Triangle.is_acute`; `edges.sort()` is `List.mergeSort` by `≤`, and the three sorted
entries are unpacked. -/
def is_acute (T : Triangle) : Prop :=
  match [T.a, T.b, T.c].mergeSort (fun x y => decide (x ≤ y)) with
  | [edge0, edge1, edge2] => edge0 * edge0 + edge1 * edge1 ≥ edge2 * edge2
  | _ => False

/-- geometry.py 1840-1852 `Triangle.angleA`: `acos(dot_(AC, AB) / b / c)`. -/
def angleA (T : Triangle) : Res ℝ := do
  let AC := T.C - T.A
  let AB := T.B - T.A
  let q ← npDiv (dot_ AC AB) (vlength_ AC)
  let q ← npDiv q (vlength_ AB)
  pyAcos q

/-- geometry.py 1854-1866 `Triangle.angleB`. -/
def angleB (T : Triangle) : Res ℝ := do
  let BC := T.C - T.B
  let BA := T.A - T.B
  let q ← npDiv (dot_ BC BA) (vlength_ BC)
  let q ← npDiv q (vlength_ BA)
  pyAcos q

/-- geometry.py 1868-1880 `Triangle.angleC`. -/
def angleC (T : Triangle) : Res ℝ := do
  let CA := T.A - T.C
  let CB := T.B - T.C
  let q ← npDiv (dot_ CA CB) (vlength_ CB)
  let q ← npDiv q (vlength_ CA)
  pyAcos q

/-- geometry.py 1882-1897 `Triangle.incircle`. -/
def incircle (T : Triangle) : Res Circle := do
  let a := distance_ T.B T.C
  let b := distance_ T.A T.C
  let c := distance_ T.B T.A
  let p := a + b + c
  let s := p / 2
  let areaABC ← pySqrt (s * (s - a) * (s - b) * (s - c))
  if p = 0 then .error .nonFinite
  else
    let center := (a • T.A + b • T.B + c • T.C) / p
    let radius := areaABC / s
    mkCircle center radius

/-- geometry.py 1899-1920 `Triangle.circumcircle`.  The last division is by the determinant of `[ABC | 1]`. -/
def circumcircle (T : Triangle) : Res (Option Circle) := do
  let f ← T.flatness
  if f = 1 then return none
  else
    let A := T.A
    let B := T.B
    let C := T.C
    let qA := dot1_ A
    let qB := dot1_ B
    let qC := dot1_ C
    let Dx := Matrix.det !![qA, A.y, 1; qB, B.y, 1; qC, C.y, 1]
    let Dy := -Matrix.det !![qA, A.x, 1; qB, B.x, 1; qC, C.x, 1]
    let Dz := Matrix.det !![A.x, A.y, 1; B.x, B.y, 1; C.x, C.y, 1]
    if Dz = 0 then .error .nonFinite
    else
      let center : Pt := (⟨Dx, Dy⟩ : Pt) / Dz / (2 : ℝ)
      let circ ← mkCircle center (distance_ center A)
      return some circ

/-- geometry.py 1922-1945 `Triangle.excircles`: the three circles "A", "B", "C". -/
def excircles (T : Triangle) : Res (Circle × Circle × Circle) := do
  let A := T.A
  let B := T.B
  let C := T.C
  let a := distance_ B C
  let b := distance_ A C
  let c := distance_ B A
  let s := (a + b + c) / 2
  if -a + b + c = 0 ∨ a - b + c = 0 ∨ a + b - c = 0 then .error .nonFinite
  else
    let JA := ((-a) • A + b • B + c • C) / (-a + b + c)
    let JB := (a • A - b • B + c • C) / (a - b + c)
    let JC := (a • A + b • B - c • C) / (a + b - c)
    let rA ← pySqrt (s * (s - b) * (s - c) / (s - a))
    let rB ← pySqrt (s * (s - a) * (s - c) / (s - b))
    let rC ← pySqrt (s * (s - a) * (s - b) / (s - c))
    let cA ← mkCircle JA rA
    let cB ← mkCircle JB rB
    let cC ← mkCircle JC rC
    return (cA, cB, cC)

/-- geometry.py 1947-1972 `Triangle.orthic_triangle`.  The code computes `x = 1/q` and then `c/x`; numpy's `1/0 = inf`
and `c/inf = 0` give `c/(1/q) = c*q` for every `q`, including `q = 0`, so the model uses `c*q`. -/
def orthic_triangle (T : Triangle) : Res Triangle :=
  let A := T.A
  let B := T.B
  let C := T.C
  let a := distance_ B C
  let b := distance_ A C
  let c := distance_ B A
  if a = 0 ∨ b = 0 ∨ c = 0 then .error .nonFinite
  else
    let qx := dot_ (C - A) (B - A) / b / c
    let qy := dot_ (C - B) (A - B) / a / c
    let qz := dot_ (A - C) (B - C) / a / b
    if b * qz + c * qy = 0 ∨ a * qz + c * qx = 0 ∨ a * qy + b * qx = 0 then .error .nonFinite
    else
      let HA := ((b * qz) • B + (c * qy) • C) / (b * qz + c * qy)
      let HB := ((a * qz) • A + (c * qx) • C) / (a * qz + c * qx)
      let HC := ((a * qy) • A + (b * qx) • B) / (a * qy + b * qx)
      .ok ⟨HA, HB, HC⟩

/-- The dictionary returned by `Triangle.malfatti_circles`. -/
structure Malfatti where
  cA : Circle
  cB : Circle
  cC : Circle
  TA : Pt
  TB : Pt
  TC : Pt

/-- geometry.py 1975-2043 `Triangle.malfatti_circles`.  Divisions are numpy divisions; the guards collect the
denominators in the order of the code. -/
def malfatti_circles (T : Triangle) : Res (Option Malfatti) := do
  let f ← T.flatness
  if f = 1 then return none
  else
    let A := T.A
    let B := T.B
    let C := T.C
    let a := distance_ B C
    let b := distance_ A C
    let c := distance_ B A
    let p := a + b + c
    let s := p / 2
    let smina := s - a
    let sminb := s - b
    let sminc := s - c
    let areaABC ← pySqrt (s * smina * sminb * sminc)
    if p = 0 ∨ smina = 0 ∨ sminb = 0 ∨ sminc = 0 ∨ a = 0 ∨ b = 0 ∨ c = 0 then .error .nonFinite
    else
      let I := (a • A + b • B + c • C) / p
      let r := areaABC / s
      let IA := vlength_ (I - A)
      let IB := vlength_ (I - B)
      let IC := vlength_ (I - C)
      let halfr := r / 2
      let sminr := s - r
      let r1 := halfr * (sminr - (IB + IC - IA)) / smina
      let r2 := halfr * (sminr - (IC + IA - IB)) / sminb
      let r3 := halfr * (sminr - (IA + IB - IC)) / sminc
      let alA ← pyAcos (dot_ (C - A) (B - A) / b / c)
      let alB ← pyAcos (dot_ (C - B) (A - B) / a / c)
      let alC ← pyAcos (dot_ (A - C) (B - C) / b / a)
      if Real.tan (alA / 2) = 0 ∨ Real.tan (alB / 2) = 0 ∨ Real.tan (alC / 2) = 0 then .error .nonFinite
      else
        let d1 := r1 / Real.tan (alA / 2)
        let d2 := r2 / Real.tan (alB / 2)
        let d3 := r3 / Real.tan (alC / 2)
        let q12 ← pySqrt (r1 * r2)
        let q23 ← pySqrt (r2 * r3)
        let q31 ← pySqrt (r3 * r1)
        let w := d1 + d2 + 2 * q12
        let u := d2 + d3 + 2 * q23
        let v := d3 + d1 + 2 * q31
        let dd ← pySqrt ((-u + v + w) * (u + v - w) * (u - v + w) * (u + v + w))
        let d := dd / 2
        if r1 = 0 ∨ r2 = 0 ∨ r3 = 0 then .error .nonFinite
        else
          let x1 := d / r1 - (v + w)
          let y2 := d / r2 - (u + w)
          let z3 := d / r3 - (u + v)
          let den1 := u * x1 + v * u + w * u
          let den2 := u * v + v * y2 + w * v
          let den3 := u * w + v * w + w * z3
          if den1 = 0 ∨ den2 = 0 ∨ den3 = 0 then .error .nonFinite
          else
            let O1 := ((u * x1) • A + (v * u) • B + (w * u) • C) / den1
            let O2 := ((u * v) • A + (v * y2) • B + (w * v) • C) / den2
            let O3 := ((u * w) • A + (v * w) • B + (w * z3) • C) / den3
            let cA ← mkCircle O1 r1
            let cB ← mkCircle O2 r2
            let cC ← mkCircle O3 r3
            let O2_O3 := O3 - O2
            let O1_O3 := O3 - O1
            let O1_O2 := O2 - O1
            if vlength_ O2_O3 = 0 ∨ vlength_ O1_O3 = 0 ∨ vlength_ O1_O2 = 0 then .error .nonFinite
            else
              return some ⟨cA, cB, cC, O2 + (r2 / vlength_ O2_O3) • O2_O3, O1 + (r1 / vlength_ O1_O3) • O1_O3,
                O1 + (r1 / vlength_ O1_O2) • O1_O2⟩

/-- geometry.py 2045-2064 `Triangle.equal_detour_point`. -/
def equal_detour_point (T : Triangle) : Res (Pt × ℝ) := do
  let A := T.A
  let B := T.B
  let C := T.C
  let a := distance_ B C
  let b := distance_ A C
  let c := distance_ B A
  let s := (a + b + c) / 2
  let areaABC ← pySqrt (s * (s - a) * (s - b) * (s - c))
  if b + c - a = 0 ∨ c + a - b = 0 ∨ a + b - c = 0 then .error .nonFinite
  else
    let v1 := 2 * areaABC / (b + c - a)
    let v2 := 2 * areaABC / (c + a - b)
    let v3 := 2 * areaABC / (a + b - c)
    let tc1 := a + v1
    let tc2 := b + v2
    let tc3 := c + v3
    if tc1 + tc2 + tc3 = 0 then .error .nonFinite
    else
      let point := (tc1 • A + tc2 • B + tc3 • C) / (tc1 + tc2 + tc3)
      let detour := distance_ A point + distance_ B point - c
      return (point, detour)

end Triangle

end
