import Verif.Model.FloatAngles

/-!
# The orthic triangle in double precision
-/

open Classical
noncomputable section

/-- geometry.py 1966-1971: `b/z` where `z = 1/q`.  When the quotient `q` is zero (a right angle), numpy gives `1/q = ±inf` and `b/z = ±0`. -/
def orthicWeightF (b q : ℝ) : ℝ := if q = 0 then 0 else fl (b / fl (1 / q))

/-- A coordinate of `(p*P + q*Q) / (p + q)`, geometry.py 1969-1971. -/
def orthicCoordF (p q x y : ℝ) : ℝ := fl (fl (fl (p * x) + fl (q * y)) / fl (p + q))

/-- geometry.py 1947-1972 `Triangle.orthic_triangle` in double precision. -/
def Triangle.orthicF (k : Fma) (T : Triangle) : Res Triangle := do
  let A := T.A
  let B := T.B
  let C := T.C
  let a := distanceF k B C
  let b := distanceF k A C
  let c := distanceF k B A
  let qx ← npDivF (vdotF k (subF C A) (subF B A)) b
  let qx ← npDivF qx c
  let qy ← npDivF (vdotF k (subF C B) (subF A B)) a
  let qy ← npDivF qy c
  let qz ← npDivF (vdotF k (subF A C) (subF B C)) a
  let qz ← npDivF qz b
  let bz := orthicWeightF b qz
  let cy := orthicWeightF c qy
  let az := orthicWeightF a qz
  let cx := orthicWeightF c qx
  let ay := orthicWeightF a qy
  let bx := orthicWeightF b qx
  if fl (bz + cy) = 0 ∨ fl (az + cx) = 0 ∨ fl (ay + bx) = 0 then .error .nonFinite
  else
    .ok ⟨⟨orthicCoordF bz cy B.x C.x, orthicCoordF bz cy B.y C.y⟩, ⟨orthicCoordF az cx A.x C.x, orthicCoordF az cx A.y C.y⟩,
      ⟨orthicCoordF ay bx A.x B.x, orthicCoordF ay bx A.y B.y⟩⟩

end
