import Verif.Model.Circle
import Verif.Model.Inversion
import Mathlib.LinearAlgebra.Matrix.NonsingularInverse
import Mathlib.Analysis.SpecialFunctions.Pow.Complex

/-!
# Model of class `Mobius`, geometry.py 2314-2614, of `Inversion.compose`, geometry.py 1561-1578, and of `cross_ratio`,
geometry.py 2616-2637

A finite `np.complex128` or Python `complex` is a complex number, arithmetic is exact.  `np.linalg.eig` is modelled by
contract (`IsEig`).
-/

open Classical
noncomputable section

/-- Complex division of numpy scalars: a zero denominator gives `nan` and a warning. -/
def npDivC (x y : ℂ) : Res ℂ := if y = 0 then .error .nonFinite else .ok (x / y)

/-- geometry.py 2314-2322: attributes of a `Mobius` object; `__init__` does not check the determinant. -/
@[ext] structure Mobius where
  M : Matrix (Fin 2) (Fin 2) ℂ

/-- One entry of `np.isclose(x, y)` on complex numbers. -/
def npCloseC (x y : ℂ) : Prop := ‖x - y‖ ≤ 1 / 10 ^ 8 + 1 / 10 ^ 5 * ‖y‖

/-- `alpha**t` for an `np.complex128` and a float. -/
def npPow (alpha : ℂ) (t : ℝ) : Res ℂ := if alpha = 0 ∧ t < 0 then .error .nonFinite else .ok (alpha ^ (t : ℂ))

/-- `while True: ...; if p(n): break; n += 1`: the first index where `p` holds. -/
def firstIndex (p : ℕ → Prop) : Res ℕ := if h : ∃ n, p n then .ok (Nat.find h) else .error .diverges

/-- internal.py 249-252 `inversion_to_conjugate_mobius_`. -/
def inversion_to_conjugate_mobius_ (iota : Inversion) : Matrix (Fin 2) (Fin 2) ℂ :=
  let C := toC iota.pole
  let k := iota.power
  !![C, (k : ℂ) - mod2_ C; 1, -(starRingEnd ℂ) C]

namespace Mobius

/-- geometry.py 2331-2333. -/
def a (f : Mobius) : ℂ := f.M 0 0
/-- geometry.py 2335-2337. -/
def b (f : Mobius) : ℂ := f.M 0 1
/-- geometry.py 2339-2341. -/
def c (f : Mobius) : ℂ := f.M 1 0
/-- geometry.py 2343-2345. -/
def d (f : Mobius) : ℂ := f.M 1 1

/-- geometry.py 2347-2357 `Mobius.compose`. -/
def compose (f M1 : Mobius) (left : Bool := true) : Mobius :=
  let A := f.M
  let B := M1.M
  if left = true then ⟨B * A⟩ else ⟨A * B⟩

/-- geometry.py 2359-2368 `Mobius.inverse`. -/
def inverse (f : Mobius) : Mobius := ⟨!![f.d, -f.b; -f.c, f.a]⟩

/-- geometry.py 2370-2384 `Mobius.power`.  `int(k)` truncates towards zero. -/
def power (f : Mobius) (k : ℝ) : Res Mobius :=
  let t : ℤ := if 0 ≤ k then ⌊k⌋ else ⌈k⌉
  if (t : ℝ) ≠ k then .error (.valueError "The power `k` must be an integer.")
  else
    let M := if t < 0 then f.inverse.M else f.M
    let t := if t < 0 then -t else t
    .ok ⟨M ^ t.toNat⟩

/-- Result of `np.linalg.eig` on a 2x2 matrix: the eigenvalues and the matrix whose columns are eigenvectors. -/
structure Eig where
  val0 : ℂ
  val1 : ℂ
  vec : Matrix (Fin 2) (Fin 2) ℂ

/-- Contract of `np.linalg.eig` on a 2x2 matrix: the eigenvalues are the roots of the characteristic polynomial, the
columns of `vec` are eigenvectors of norm one. -/
structure IsEig (M : Matrix (Fin 2) (Fin 2) ℂ) (e : Eig) : Prop where
  tr : e.val0 + e.val1 = M 0 0 + M 1 1
  det : e.val0 * e.val1 = M 0 0 * M 1 1 - M 0 1 * M 1 0
  eig : M * e.vec = e.vec * !![e.val0, 0; 0, e.val1]
  unit0 : ‖e.vec 0 0‖ ^ 2 + ‖e.vec 1 0‖ ^ 2 = 1
  unit1 : ‖e.vec 0 1‖ ^ 2 + ‖e.vec 1 1‖ ^ 2 = 1

/-- geometry.py 2386-2423 `Mobius.gpower`; `eig` is the function `np.linalg.eig`.  `np.linalg.inv` raises for a singular
matrix. -/
def gpower (eig : Matrix (Fin 2) (Fin 2) ℂ → Eig) (f : Mobius) (t : ℝ) : Res Mobius :=
  let M := f.M
  let detM := M 0 0 * M 1 1 - M 1 0 * M 0 1
  let trM := M 0 0 + M 1 1
  if ‖trM * trM - 4 * detM‖ < sepsilon_ then
    let alpha := trM / 2
    if npCloseC (M 0 0) alpha ∧ npCloseC (M 0 1) 0 ∧ npCloseC (M 1 0) 0 ∧ npCloseC (M 1 1) alpha then do
      let alpha_t ← npPow alpha t
      return ⟨!![alpha_t, 0; 0, alpha_t]⟩
    else
      let N : Matrix (Fin 2) (Fin 2) ℂ := !![M 0 0 - alpha, M 0 1; M 1 0, M 1 1 - alpha]
      let P : Matrix (Fin 2) (Fin 2) ℂ :=
        if npCloseC (N 0 1) 0 ∧ npCloseC (N 1 1) 0 then !![N 0 0, 1; N 1 0, 0] else !![N 0 1, 0; N 1 1, 1]
      do
        let alpha_t ← npPow alpha t
        let alpha_t1 ← npPow alpha (t - 1)
        let Jt : Matrix (Fin 2) (Fin 2) ℂ := !![alpha_t, (t : ℂ) * alpha_t1; 0, alpha_t]
        if Matrix.det P = 0 then .error .linAlgError else return ⟨P * Jt * P⁻¹⟩
  else
    let e := eig M
    do
      let v0 ← npPow e.val0 t
      let v1 ← npPow e.val1 t
      let Dt : Matrix (Fin 2) (Fin 2) ℂ := !![v0, 0; 0, v1]
      if Matrix.det e.vec = 0 then .error .linAlgError else return ⟨e.vec * Dt * e.vec⁻¹⟩

/-- geometry.py 2425-2442 `Mobius.transform`.  The last division is by zero only for a singular matrix. -/
def transform (f : Mobius) (P : XPt) : Res XPt :=
  match P with
  | .inf => if f.c = 0 then .ok .inf else .ok (.fin (from_complex_ (f.a / f.c)))
  | .fin P =>
    let z := toC P
    if f.c ≠ 0 ∧ z = -f.d / f.c then .ok .inf
    else do
      let w ← npDivC (f.a * z + f.b) (f.c * z + f.d)
      return .fin (from_complex_ w)

/-- Result of `Mobius.fixed_points`: the message (and `None`), one point (maybe `inf`), or two points. -/
inductive Fixed where
  | identity
  | one (P : XPt)
  | two (P Q : Pt)

/-- geometry.py 2445-2469 `Mobius.fixed_points`.  `sqrt` is `math.sqrt`, which converts its `np.complex128` argument to
a float by dropping the imaginary part (with a `ComplexWarning`). -/
def fixed_points (f : Mobius) : Res Fixed :=
  if f.a = f.d ∧ f.b = 0 ∧ f.c = 0 then .ok .identity
  else if f.c = 0 then
    if f.a = f.d then .ok (.one .inf) else .ok (.one (.fin (from_complex_ (-f.b / (f.a - f.d)))))
  else
    let Delta := (f.a - f.d) ^ 2 + 4 * f.b * f.c
    if Delta = 0 then .ok (.one (.fin (from_complex_ ((f.a - f.d) / 2 / f.c))))
    else do
      let s ← pySqrt Delta.re
      return .two (from_complex_ ((f.a - f.d + s) / 2 / f.c)) (from_complex_ ((f.a - f.d - s) / 2 / f.c))

/-- The points tried by the first loop of `transform_circle`, geometry.py 2495-2505. -/
def loopPoint (circ : Circle) (start : ℝ) (n : ℕ) : Pt := circ.point_from_angle (start + n * (1 / 10)) false

/-- geometry.py 2472-2513 `Mobius.transform_circle`.  `w0` cannot be `inf` for a nonzero determinant; if it is the code
subtracts an array from `inf` and goes on with `inf` values. -/
def transform_circle (f : Mobius) (circ : Circle) : Res GCircle :=
  let c := f.c
  let d := f.d
  let R := circ.radius
  let z0 := toC circ.center
  let x1 := mod2_ (d + c * z0)
  let x2 := R * R * mod2_ c
  if x1 ≠ x2 then do
    let w0 ← if x1 > 0 then do
        let z := if c = 0 then z0 else z0 - ((R * R : ℝ) : ℂ) / (starRingEnd ℂ) (d / c + z0)
        f.transform (.fin (from_complex_ z))
      else f.transform .inf
    let w1 ← f.transform (.fin (from_complex_ (z0 + (R : ℂ))))
    match w0, w1 with
    | .fin w0, .fin w1 =>
      let v := w0 - w1
      return .circle (← mkCircle w0 (vlength_ v))
    | _, _ => .error .nonFinite
  else if c = 0 then .error .nonFinite
  else
    let M := from_complex_ (-d / c)
    if circ.includes M then do
      let n ← firstIndex fun n => ¬ allclose (loopPoint circ 0 n) M
      let P := loopPoint circ 0 n
      let alpha : ℝ := n * (1 / 10)
      let m ← firstIndex fun m => ¬ allclose (loopPoint circ (alpha + 3) m) M
      let Q := loopPoint circ (alpha + 3) m
      let A ← f.transform (.fin P)
      let B ← f.transform (.fin Q)
      return .line (← mkLineX A B)
    else do
      let A ← f.transform (.fin (circ.point_from_angle 0))
      let B ← f.transform (.fin (circ.point_from_angle 180))
      return .line (← mkLineX A B)

/-- geometry.py 2515-2537 `Mobius.transform_line`. -/
def transform_line (f : Mobius) (line : Line) : Res GCircle :=
  let a := f.a
  let b := f.b
  let c := f.c
  let d := f.d
  let dof := line.direction_offset
  let theta := dof.1
  let gamma0 := toC (unit_vector_ theta)
  let D0 : ℝ := 2 * dof.2
  let A : ℝ := -2 * (gamma0 * c * (starRingEnd ℂ) d).re - D0 * mod2_ c
  let gamma : ℂ := (starRingEnd ℂ) gamma0 * b * (starRingEnd ℂ) c + gamma0 * (starRingEnd ℂ) d * a +
    D0 * (starRingEnd ℂ) c * a
  let D : ℝ := D0 * mod2_ a + 2 * (gamma0 * (starRingEnd ℂ) b * a).re
  if |A| > sepsilon_ then do
    let r ← pySqrt (mod2_ gamma / A / A + D / A)
    return .circle (← mkCircle (from_complex_ (-gamma / (A : ℂ))) r)
  else do
    let P ← f.transform (.fin line.A)
    let Q ← f.transform (.fin line.B)
    return .line (← mkLineX P Q)

/-- internal.py 254-264 `mobius_from_three_points_to_zero_one_inf_`, last case.  The first three cases are never reached:
`is_inf_` (internal.py 9-10) tests `isinstance(x, float)`, and the arguments are complex numbers. -/
def toZeroOneInf (z1 z2 z3 : ℂ) : Matrix (Fin 2) (Fin 2) ℂ :=
  let K := (z2 - z3) / (z2 - z1)
  !![K, -K * z1; 1, -z3]

/-- geometry.py 2539-2592 `Mobius.from_mapping_three_points`; `none` is Python's `None`.  A point `inf` becomes the
complex number `inf+0j`: it is equal to itself, and gives `nan` or `inf` entries in the matrix. -/
def from_mapping_three_points (P1 P2 P3 Q1 Q2 Q3 : XPt) : Res (Option Mobius) :=
  if P1 = P2 ∨ P1 = P3 ∨ P2 = P3 then .ok none
  else if Q1 = Q2 ∨ Q1 = Q3 ∨ Q2 = Q3 then .ok none
  else
    match P1, P2, P3, Q1, Q2, Q3 with
    | .fin P1, .fin P2, .fin P3, .fin Q1, .fin Q2, .fin Q3 =>
      let Mob1 : Mobius := ⟨toZeroOneInf (toC P1) (toC P2) (toC P3)⟩
      let Mob2 : Mobius := ⟨toZeroOneInf (toC Q1) (toC Q2) (toC Q3)⟩
      .ok (some (Mob1.compose Mob2.inverse))
    | _, _, _, _, _, _ => .error .nonFinite

/-- geometry.py 2605-2613: the matrices of `MT1` and `MT2`. -/
def oneCircleMatrix (z1 z2 z3 : ℂ) : Matrix (Fin 2) (Fin 2) ℂ :=
  !![z2 - z3, -z1 * (z2 - z3); z2 - z1, -z3 * (z2 - z1)]

/-- geometry.py 2594-2614 `Mobius.from_mapping_one_circle`. -/
def from_mapping_one_circle (circ1 circ2 : Circle) : Mobius :=
  let MT1 : Mobius := ⟨oneCircleMatrix (toC (circ1.point_from_angle 0)) (toC (circ1.point_from_angle 90))
    (toC (circ1.point_from_angle 270))⟩
  let MT2 : Mobius := ⟨oneCircleMatrix (toC (circ2.point_from_angle 180)) (toC (circ2.point_from_angle 90))
    (toC (circ2.point_from_angle 270))⟩
  MT1.compose MT2.inverse

end Mobius

/-- geometry.py 1561-1577 `Inversion.compose`. -/
def Inversion.compose (iota iota2 : Inversion) (left : Bool := true) : Mobius :=
  let comp := fun (i j : Inversion) =>
    let Mob3 : Mobius := ⟨(inversion_to_conjugate_mobius_ i).map (starRingEnd ℂ)⟩
    let Mob2 : Mobius := ⟨inversion_to_conjugate_mobius_ j⟩
    Mob3.compose Mob2
  if left = true then comp iota iota2 else comp iota2 iota

/-- geometry.py 2616-2636 `cross_ratio`. -/
def cross_ratio (A B C D : Pt) : Res ℂ :=
  let z1 := toC A
  let z2 := toC B
  let z3 := toC C
  let z4 := toC D
  if z1 = z2 ∨ z1 = z3 ∨ z1 = z4 ∨ z2 = z3 ∨ z2 = z4 ∨ z3 = z4 then
    .error (.valueError "The four points must be distinct.")
  else .ok ((z1 - z4) / (z1 - z2) * (z3 - z2) / (z3 - z4))

end
