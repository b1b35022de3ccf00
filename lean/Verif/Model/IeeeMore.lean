import Verif.Model.Ieee
import Verif.Model.FloatConstruct
import Verif.Model.FloatTransforms

/-!
# Constructors, transformations and `Triangle.contains` with infinities and nan

Same conventions as in `Verif.Model.Ieee`.  Dividing by zero gives an infinity whose sign depends on the sign of zero, which the
model does not keep: the sign is a parameter, and the theorems hold for both.
-/

open Classical F64
noncomputable section

/-- The quotient of two numpy floats; `z` tells whether a zero divisor is `-0.0`. -/
def F64.divZ (z : Bool) : F64 → F64 → F64
  | nan, _ => nan
  | _, nan => nan
  | inf _, inf _ => nan
  | inf s, fin y => if y = 0 then inf (s ^^ z) else inf (s ^^ decide (y < 0))
  | fin _, inf _ => fin 0
  | fin x, fin y => if y = 0 then (if x = 0 then nan else inf (decide (x < 0) ^^ z)) else flo (x / y)

/-- geometry.py 661-674 `circleOA`. -/
def circleOAI (k : Fma) (O A : PtI) : Res CircleI :=
  if allcloseI O A then .error (.valueError "`O` and `A` are not distinct.") else mkCircleI O (distanceI k O A)

/-- geometry.py 646-659 `circleAB`. -/
def circleABI (k : Fma) (A B : PtI) : Res CircleI :=
  if allcloseI A B then .error (.valueError "`A` and `B` are not distinct.")
  else mkCircleI ⟨div (add A.x B.x) (.fin 2), div (add A.y B.y) (.fin 2)⟩ (div (distanceI k A B) (.fin 2))

/-- geometry.py 1816-1828 `Triangle.contains`. -/
def TriangleI.contains (z : Bool) (T : TriangleI) (M : PtI) : Prop :=
  let A0 := T.A.x
  let A1 := T.A.y
  let B0 := T.B.x
  let B1 := T.B.y
  let C0 := T.C.x
  let C1 := T.C.y
  let dsArea := add (add (add (mul (neg B1) C0) (mul A1 (add (neg B0) C0))) (mul A0 (sub B1 C1))) (mul B0 C1)
  let s := divZ z (add (add (sub (mul A1 C0) (mul A0 C1)) (mul (sub C1 A1) M.x)) (mul (sub A0 C0) M.y)) dsArea
  let t := divZ z (add (add (sub (mul A0 B1) (mul A1 B0)) (mul (sub A1 B1) M.x)) (mul (sub B0 A0) M.y)) dsArea
  lt (.fin 0) s ∧ lt (.fin 0) t ∧ lt (.fin 0) (sub (sub (.fin 1) s) t)

/-- geometry.py 2172-2183 `Affine.transform` on one point, for the matrix with rows `r1` and `r2` and the vector `b`. -/
def affineI (kx ky : Fma) (r1 r2 b : PtI) (M : PtI) : PtI := ⟨add (vdotI kx r1 M) b.x, add (vdotI ky r2 M) b.y⟩

/-- geometry.py 2876-2911 `Rotation.rotate` on one point, with the values `c` and `s` of lines 2898-2899. -/
def rotateI (O : PtI) (c s : F64) (M : PtI) : PtI :=
  let Mc := subI M O
  ⟨add (sub (mul c Mc.x) (mul s Mc.y)) O.x, add (add (mul s Mc.x) (mul c Mc.y)) O.y⟩

/-- geometry.py 3160-3183 `ScalingXY.transform` on one point. -/
def scalingXYI (O : PtI) (sx sy : F64) (M : PtI) : PtI :=
  let Mc := subI M O
  ⟨add (mul sx Mc.x) O.x, add (mul sy Mc.y) O.y⟩

/-- geometry.py 3225-3247 `Homothety.transform` on one point. -/
def homothetyI (O : PtI) (scale : F64) (M : PtI) : PtI :=
  let t := sub (.fin 1) scale
  ⟨add (mul t O.x) (mul scale M.x), add (mul t O.y) (mul scale M.y)⟩

end
