import Verif.Model.FloatIncircle

/-!
# The excircles in double precision
-/

open Classical
noncomputable section

/-- Two additions, from the left to the right. -/
def sum3F (u v w : ℝ) : ℝ := fl (fl (u + v) + w)

/-- geometry.py 1935-1937: a coordinate of `(-a*A + b*B + c*C) / (-a + b + c)`, with the signed lengths.  The difference `p - q` is the sum of
`p` and `-q`, and `(-a)*x` is `-(a*x)`, in double precision too. -/
def exCenterF (a b c x y z : ℝ) : ℝ := fl (sum3F (fl (a * x)) (fl (b * y)) (fl (c * z)) / sum3F a b c)

/-- geometry.py 1938-1940: the number under the square root, `s*(s-b)*(s-c)/(s-a)`. -/
def exRadiusF (s a b c : ℝ) : ℝ := fl (fl (fl (s * fl (s - b)) * fl (s - c)) / fl (s - a))

/-- geometry.py 1922-1945 `Triangle.excircles` in double precision. -/
def Triangle.excirclesF (k : Fma) (T : Triangle) : Res (Circle × Circle × Circle) := do
  let A := T.A
  let B := T.B
  let C := T.C
  let a := distanceF k B C
  let b := distanceF k A C
  let c := distanceF k B A
  let s := fl (sum3F a b c / 2)
  if sum3F (-a) b c = 0 ∨ sum3F a (-b) c = 0 ∨ sum3F a b (-c) = 0 then .error .nonFinite
  else if fl (s - a) = 0 ∨ fl (s - b) = 0 ∨ fl (s - c) = 0 then .error .nonFinite
  else
    let rA ← pySqrt (exRadiusF s a b c)
    let rB ← pySqrt (exRadiusF s b a c)
    let rC ← pySqrt (exRadiusF s c a b)
    let cA ← mkCircleF ⟨exCenterF (-a) b c A.x B.x C.x, exCenterF (-a) b c A.y B.y C.y⟩ (fl rA)
    let cB ← mkCircleF ⟨exCenterF a (-b) c A.x B.x C.x, exCenterF a (-b) c A.y B.y C.y⟩ (fl rB)
    let cC ← mkCircleF ⟨exCenterF a b (-c) A.x B.x C.x, exCenterF a b (-c) A.y B.y C.y⟩ (fl rC)
    return (cA, cB, cC)

end
