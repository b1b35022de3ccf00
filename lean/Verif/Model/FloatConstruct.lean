import Verif.Model.FloatGeom

/-!
# Circles built from points, in double precision

Same conventions as in `Verif.Model.FloatGeom`.
-/

open Classical
noncomputable section

/-- geometry.py 361-366 `Circle.__init__` in double precision: the radius must be positive. -/
def mkCircleF (center : Pt) (radius : ℝ) : Res Circle :=
  if radius ≤ 0 then .error (.valueError "`radius` is not positive.") else .ok ⟨center, radius⟩

/-- geometry.py 646-659 `circleAB` in double precision: the sum is rounded before it is halved. -/
def circleABF (k : Fma) (A B : Pt) : Res Circle :=
  if allclose64 A B then .error (.valueError "`A` and `B` are not distinct.")
  else mkCircleF ⟨fl (fl (A.x + B.x) / 2), fl (fl (A.y + B.y) / 2)⟩ (fl (distanceF k A B / 2))

/-- geometry.py 661-674 `circleOA` in double precision. -/
def circleOAF (k : Fma) (O A : Pt) : Res Circle :=
  if allclose64 O A then .error (.valueError "`O` and `A` are not distinct.") else mkCircleF O (distanceF k O A)

end
