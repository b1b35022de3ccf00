import Verif.Model.FloatConstruct
import Mathlib.Analysis.SpecialFunctions.Log.Basic

/-!
# `Triangle.circumcircle` in double precision

Same conventions as in `Verif.Model.FloatGeom`.  `np.linalg.det` of a 3 × 3 array is the factorisation `dgetrf` of LAPACK (Gaussian elimination, the pivot
is the first of the largest entries of the column), followed by `sign * exp(log|u11| + log|u22| + log|u33|)`; when a pivot is zero `dgetrf` says so and the
result is zero.  What depends on the build of LAPACK is a parameter: division by the pivot or multiplication by its inverse, fused operations, the
order of the last subtractions.  `log` and `exp` of the C library are parameters with a contract on their errors (`IsLogExp`).
-/

open Classical
noncomputable section

/-- The choices of the build of LAPACK. -/
structure Lu where
  /-- the column is multiplied by the inverse of the pivot -/
  recip : Bool
  /-- `x - l*u` is one fused operation -/
  fused : Bool
  /-- the last entry is `c - (l*u + l'*u')` and not `(c - l*u) - l'*u'` -/
  left : Bool
  /-- how `l*u + l'*u'` is evaluated -/
  dot : Fma

/-- The logarithm and the exponential of the C library: relative errors of at most one unit in the last place; the exponential may underflow. -/
structure IsLogExp (lg ex : ℝ → ℝ) : Prop where
  log : ∀ x, IsDouble x → 0 < x → |lg x - Real.log x| ≤ |Real.log x| / 2 ^ 52
  exp : ∀ x, x ≤ 700 → |ex x - Real.exp x| ≤ Real.exp x / 2 ^ 52 + 1 / 2 ^ 1000

/-- A row of a 3 × 3 array. -/
structure Row where
  a : ℝ
  b : ℝ
  c : ℝ

/-- An entry of the factor `L`. -/
def quoF (k : Lu) (x p : ℝ) : ℝ := if k.recip = true then fl (x * fl (1 / p)) else fl (x / p)

/-- One step of the elimination. -/
def msubF (k : Lu) (x l u : ℝ) : ℝ := if k.fused = true then fl (x - l * u) else fl (x - fl (l * u))

/-- The last entry of the factor `U`. -/
def lastF (k : Lu) (x l u l' u' : ℝ) : ℝ :=
  if k.left = true then fl (x - vdotF k.dot ⟨l, l'⟩ ⟨u, u'⟩) else msubF k (msubF k x l u) l' u'

/-- `sign * exp(logdet)` for the diagonal of `U`; `sg` is the sign of the permutation. -/
def expDet (lg ex : ℝ → ℝ) (sg x y z : ℝ) : ℝ :=
  (if z < 0 then -1 else 1) * ((if y < 0 then -1 else 1) * ((if x < 0 then -1 else 1) * sg)) * ex (fl (fl (fl (0 + lg |x|) + lg |y|) + lg |z|))

/-- The second and third steps of the factorisation: `l2`, `l3` are the first column of `L`, the second pivot is `b2`. -/
def luDet2 (k : Lu) (lg ex : ℝ → ℝ) (sg : ℝ) (p : Row) (l2 l3 b2 b3 c2 c3 : ℝ) : ℝ :=
  if b2 = 0 then 0
  else
    let u := lastF k c3 l3 p.c (quoF k b3 b2) (msubF k c2 l2 p.c)
    if u = 0 then 0 else expDet lg ex sg p.a b2 u

/-- The factorisation, when the first pivot is in the row `p`. -/
def luDet (k : Lu) (lg ex : ℝ → ℝ) (sg : ℝ) (p r s : Row) : ℝ :=
  if p.a = 0 then 0
  else
    let l2 := quoF k r.a p.a
    let l3 := quoF k s.a p.a
    let b2 := msubF k r.b l2 p.b
    let b3 := msubF k s.b l3 p.b
    if |b3| ≤ |b2| then luDet2 k lg ex sg p l2 l3 b2 b3 r.c s.c else luDet2 k lg ex (-sg) p l3 l2 b3 b2 s.c r.c

/-- `np.linalg.det` of a 3 × 3 array. -/
def detF (k : Lu) (lg ex : ℝ → ℝ) (r1 r2 r3 : Row) : ℝ :=
  if |r2.a| ≤ |r1.a| ∧ |r3.a| ≤ |r1.a| then luDet k lg ex 1 r1 r2 r3
  else if |r3.a| ≤ |r2.a| then luDet k lg ex (-1) r2 r1 r3
  else luDet k lg ex (-1) r3 r2 r1

/-- geometry.py 1899-1920 `Triangle.circumcircle` in double precision.  The division of the array by a zero determinant gives inf or nan. -/
def Triangle.circumcircleF (v : Fma) (k : Lu) (lg ex : ℝ → ℝ) (T : Triangle) : Res (Option Circle) :=
  match flatF T.A T.B T.C with
  | none => .error .zeroDivision
  | some f =>
    if f = 1 then .ok none
    else
      let qA := vdotF v T.A T.A
      let qB := vdotF v T.B T.B
      let qC := vdotF v T.C T.C
      let Dx := detF k lg ex ⟨qA, T.A.y, 1⟩ ⟨qB, T.B.y, 1⟩ ⟨qC, T.C.y, 1⟩
      let Dy := -detF k lg ex ⟨qA, T.A.x, 1⟩ ⟨qB, T.B.x, 1⟩ ⟨qC, T.C.x, 1⟩
      let Dz := detF k lg ex ⟨T.A.x, T.A.y, 1⟩ ⟨T.B.x, T.B.y, 1⟩ ⟨T.C.x, T.C.y, 1⟩
      if Dz = 0 then .error .nonFinite
      else do
        let center : Pt := ⟨fl (fl (Dx / Dz) / 2), fl (fl (Dy / Dz) / 2)⟩
        let c ← mkCircleF center (distanceF v center T.A)
        return some c

end
