import Verif.Model.Mobius
import Verif.Model.FloatGeom

/-!
# Möbius transformations in double precision

Same conventions as in `Verif.Model.FloatGeom`.  A product of complex numbers is the usual one, a quotient is computed by the method of
R. L. Smith as in numpy (with one reciprocal); a sum `x + a*b` may be fused.  `np.matmul` may add the real products of an entry in any
order, fused or not: the matrix product is any function meeting the contract `IsMatmul`.
-/

open Classical
noncomputable section

/-- The sum `x + a*b`, fused or not. -/
def maF (k : Bool) (x a b : ℝ) : ℝ := if k = true then fl (x + a * b) else fl (x + fl (a * b))

/-- The product of two complex numbers. -/
def mulCF (k1 k2 : Fma) (x y : ℂ) : ℂ := ⟨vdotF k1 ⟨x.re, -x.im⟩ ⟨y.re, y.im⟩, vdotF k2 ⟨x.re, x.im⟩ ⟨y.im, y.re⟩⟩

/-- The sum of two complex numbers. -/
def addCF (x y : ℂ) : ℂ := ⟨fl (x.re + y.re), fl (x.im + y.im)⟩

/-- The quotient of two complex numbers, one of them a numpy scalar; a zero divisor gives `inf` or `nan` and a warning. -/
def divCF (k1 k2 k3 : Bool) (x y : ℂ) : Res ℂ :=
  if y = 0 then .error .nonFinite
  else if |y.im| ≤ |y.re| then
    let rat := fl (y.im / y.re)
    let scl := fl (1 / maF k1 y.re y.im rat)
    .ok ⟨fl (maF k2 x.re x.im rat * scl), fl (maF k3 x.im (-x.re) rat * scl)⟩
  else
    let rat := fl (y.re / y.im)
    let scl := fl (1 / maF k1 y.im y.re rat)
    .ok ⟨fl (maF k2 x.im x.re rat * scl), fl (maF k3 (-x.re) x.im rat * scl)⟩

/-- The values that a sum of products may take: the products are added in any order, and a product may be fused with an addition. -/
inductive DotEval : List (ℝ × ℝ) → ℝ → Prop
  | zero : DotEval [] 0
  | one (p : ℝ × ℝ) : DotEval [p] (fl (p.1 * p.2))
  | add {l m : List (ℝ × ℝ)} {v w : ℝ} : DotEval l v → DotEval m w → DotEval (l ++ m) (fl (v + w))
  | fma (p : ℝ × ℝ) {l : List (ℝ × ℝ)} {v : ℝ} : DotEval l v → DotEval (p :: l) (fl (v + p.1 * p.2))
  | perm {l m : List (ℝ × ℝ)} {v : ℝ} : l.Perm m → DotEval l v → DotEval m v

/-- Contract of `np.matmul` on complex 2x2 matrices. -/
def IsMatmul (mm : Matrix (Fin 2) (Fin 2) ℂ → Matrix (Fin 2) (Fin 2) ℂ → Matrix (Fin 2) (Fin 2) ℂ) : Prop :=
  ∀ A B i j,
    DotEval [((A i 0).re, (B 0 j).re), (-(A i 0).im, (B 0 j).im), ((A i 1).re, (B 1 j).re), (-(A i 1).im, (B 1 j).im)] (mm A B i j).re ∧
    DotEval [((A i 0).re, (B 0 j).im), ((A i 0).im, (B 0 j).re), ((A i 1).re, (B 1 j).im), ((A i 1).im, (B 1 j).re)] (mm A B i j).im

/-- One step of `np.linalg.matrix_power`: the result is multiplied by `z` when the bit is set. -/
def powStep (mm : Matrix (Fin 2) (Fin 2) ℂ → Matrix (Fin 2) (Fin 2) ℂ → Matrix (Fin 2) (Fin 2) ℂ) (z : Matrix (Fin 2) (Fin 2) ℂ)
    (bit : Prop) : Option (Matrix (Fin 2) (Fin 2) ℂ) → Option (Matrix (Fin 2) (Fin 2) ℂ)
  | none => if bit then some z else none
  | some r => if bit then some (mm r z) else some r

/-- The loop of `np.linalg.matrix_power`: `z` is squared as long as bits of the exponent remain. -/
def powLoop (mm : Matrix (Fin 2) (Fin 2) ℂ → Matrix (Fin 2) (Fin 2) ℂ → Matrix (Fin 2) (Fin 2) ℂ) (z : Matrix (Fin 2) (Fin 2) ℂ)
    (result : Option (Matrix (Fin 2) (Fin 2) ℂ)) (n : ℕ) : Option (Matrix (Fin 2) (Fin 2) ℂ) :=
  let result' := powStep mm z (n % 2 = 1) result
  if h : n / 2 = 0 then result' else powLoop mm (mm z z) result' (n / 2)
termination_by n
decreasing_by omega

/-- `np.linalg.matrix_power` for an exponent that is not negative. -/
def matrix_powerF (mm : Matrix (Fin 2) (Fin 2) ℂ → Matrix (Fin 2) (Fin 2) ℂ → Matrix (Fin 2) (Fin 2) ℂ) (M : Matrix (Fin 2) (Fin 2) ℂ)
    (n : ℕ) : Matrix (Fin 2) (Fin 2) ℂ :=
  if n = 0 then 1
  else if n = 1 then M
  else if n = 2 then mm M M
  else if n = 3 then mm (mm M M) M
  else (powLoop mm M none n).getD 1

namespace Mobius

/-- geometry.py 2347-2357 `Mobius.compose` in double precision. -/
def composeF (mm : Matrix (Fin 2) (Fin 2) ℂ → Matrix (Fin 2) (Fin 2) ℂ → Matrix (Fin 2) (Fin 2) ℂ) (f M1 : Mobius) (left : Bool := true) :
    Mobius := if left = true then ⟨mm M1.M f.M⟩ else ⟨mm f.M M1.M⟩

/-- geometry.py 2370-2384 `Mobius.power` in double precision, for an integer; the inverse (geometry.py 2359-2368) only changes signs. -/
def powerF (mm : Matrix (Fin 2) (Fin 2) ℂ → Matrix (Fin 2) (Fin 2) ℂ → Matrix (Fin 2) (Fin 2) ℂ) (f : Mobius) (t : ℤ) : Mobius :=
  if t < 0 then ⟨matrix_powerF mm f.inverse.M (-t).toNat⟩ else ⟨matrix_powerF mm f.M t.toNat⟩

/-- How the sums of one call of `transform` are evaluated. -/
structure Rounding where
  a1 : Fma
  a2 : Fma
  c1 : Fma
  c2 : Fma
  p : Bool × Bool × Bool
  q : Bool × Bool × Bool

/-- geometry.py 2441: the number `-d/c`, when `c` is not zero. -/
def poleF (k : Rounding) (f : Mobius) : Res (Option ℂ) :=
  if f.c ≠ 0 then do
    let q ← divCF k.p.1 k.p.2.1 k.p.2.2 (-f.d) f.c
    return some q
  else .ok none

/-- geometry.py 2425-2442 `Mobius.transform` in double precision. -/
def transformF (k : Rounding) (f : Mobius) (P : XPt) : Res XPt :=
  match P with
  | .inf => if f.c = 0 then .ok .inf else do
      let w ← divCF k.p.1 k.p.2.1 k.p.2.2 f.a f.c
      return .fin (from_complex_ w)
  | .fin P => do
    let z := toC P
    let pole ← f.poleF k
    if pole = some z then return .inf
    else
      let w ← divCF k.q.1 k.q.2.1 k.q.2.2 (addCF (mulCF k.a1 k.a2 f.a z) f.b) (addCF (mulCF k.c1 k.c2 f.c z) f.d)
      return .fin (from_complex_ w)

end Mobius

end
