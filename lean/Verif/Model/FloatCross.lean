import Verif.Model.FloatMobius

/-!
# The cross ratio in double precision
-/

open Classical
noncomputable section

/-- The quotient of two Python complex numbers, by the method of R. L. Smith as in CPython: unlike numpy, both parts are divided by the same number. A sum `x + a*b`
may be fused. -/
def divPyF (k1 k2 k3 : Bool) (x y : ℂ) : Res ℂ :=
  if y = 0 then .error .zeroDivision
  else if |y.im| ≤ |y.re| then
    let ratio := fl (y.im / y.re)
    let denom := maF k1 y.re y.im ratio
    .ok ⟨fl (maF k2 x.re x.im ratio / denom), fl (maF k3 x.im (-x.re) ratio / denom)⟩
  else
    let ratio := fl (y.re / y.im)
    let denom := maF k1 y.im y.re ratio
    .ok ⟨fl (maF k2 x.im x.re ratio / denom), fl (maF k3 (-x.re) x.im ratio / denom)⟩

/-- The difference of two complex numbers. -/
def subCF (x y : ℂ) : ℂ := ⟨fl (x.re - y.re), fl (x.im - y.im)⟩

/-- How the sums of one call of `cross_ratio` are evaluated. -/
structure CrossRounding where
  p : Bool × Bool × Bool
  m1 : Fma
  m2 : Fma
  q : Bool × Bool × Bool

/-- geometry.py 2616-2637 `cross_ratio` in double precision; the numbers are Python complex numbers, and the operations are evaluated from left to right. -/
def cross_ratioF (k : CrossRounding) (A B C D : Pt) : Res ℂ :=
  let z1 := toC A
  let z2 := toC B
  let z3 := toC C
  let z4 := toC D
  if z1 = z2 ∨ z1 = z3 ∨ z1 = z4 ∨ z2 = z3 ∨ z2 = z4 ∨ z3 = z4 then
    .error (.valueError "The four points must be distinct.")
  else do
    let w ← divPyF k.p.1 k.p.2.1 k.p.2.2 (subCF z1 z4) (subCF z1 z2)
    divPyF k.q.1 k.q.2.1 k.q.2.2 (mulCF k.m1 k.m2 w (subCF z3 z2)) (subCF z3 z4)

end
