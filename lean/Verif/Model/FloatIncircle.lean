import Verif.Model.Triangle
import Verif.Model.FloatConstruct

/-!
# `Triangle.incircle` in double precision

Same conventions as in `Verif.Model.FloatGeom`: every elementary operation is rounded, `math.sqrt` is correctly rounded, `dot_` may fuse one
product with the addition (`k`).  The coordinates of the center are computed by numpy, one operation at a time.
-/

open Classical
noncomputable section

/-- A coordinate of `(a*A + b*B + c*C) / p`. -/
def weightedF (a b c p x y z : ℝ) : ℝ := fl (fl (fl (fl (a * x) + fl (b * y)) + fl (c * z)) / p)

/-- geometry.py 1894: the number under the square root. -/
def heronF (s a b c : ℝ) : ℝ := fl (fl (fl (s * fl (s - a)) * fl (s - b)) * fl (s - c))

/-- geometry.py 1882-1897 `Triangle.incircle` in double precision. -/
def Triangle.incircleF (k : Fma) (T : Triangle) : Res Circle := do
  let a := distanceF k T.B T.C
  let b := distanceF k T.A T.C
  let c := distanceF k T.B T.A
  let p := fl (fl (a + b) + c)
  let s := fl (p / 2)
  let area ← pySqrt (heronF s a b c)
  if p = 0 then .error .nonFinite
  else mkCircleF ⟨weightedF a b c p T.A.x T.B.x T.C.x, weightedF a b c p T.A.y T.B.y T.C.y⟩ (fl (fl area / s))

end
