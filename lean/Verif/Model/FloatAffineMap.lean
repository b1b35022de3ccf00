import Verif.Model.FloatAffine
import Verif.Model.FloatMobius

/-!
# `Affine.compose` and `Affine.from_mapping_three_points` in double precision

Same conventions as in `Verif.Model.FloatAffine`.  The three products of an entry of `np.matmul` may be added in any order, fused or not
(`DotEval`): the matrix product is any function meeting the contract `IsMatmul3`.
-/

open Classical
noncomputable section

/-- Contract of `np.matmul` on real 3x3 matrices. -/
def IsMatmul3 (mm : Matrix (Fin 3) (Fin 3) ℝ → Matrix (Fin 3) (Fin 3) ℝ → Matrix (Fin 3) (Fin 3) ℝ) : Prop :=
  ∀ A B i j, DotEval [(A i 0, B 0 j), (A i 1, B 1 j), (A i 2, B 2 j)] (mm A B i j)

/-- geometry.py 2159-2170 `Affine.compose` in double precision. -/
def Affine.composeF (mm : Matrix (Fin 3) (Fin 3) ℝ → Matrix (Fin 3) (Fin 3) ℝ → Matrix (Fin 3) (Fin 3) ℝ) (f transfo : Affine) (left : Bool := true) : Affine :=
  let M0 := f.get3x3matrix
  let M1 := transfo.get3x3matrix
  let M := if left = true then mm M1 M0 else mm M0 M1
  Affine.ofMatrix3 M

/-- geometry.py 2238-2271 `Affine.from_mapping_three_points` in double precision; `none` is Python's `None`.  When `f1.inverse()` is `None`, the attribute
`compose` is missing. -/
def Affine.from_mappingF (k k' : Lu) (lg ex : ℝ → ℝ) (mm : Matrix (Fin 3) (Fin 3) ℝ → Matrix (Fin 3) (Fin 3) ℝ → Matrix (Fin 3) (Fin 3) ℝ)
    (P1 P2 P3 Q1 Q2 Q3 : Pt) : Res (Option Affine) := do
  let cP ← collinear64 P1 P2 P3
  if cP then return none
  else
    let cQ ← collinear64 Q1 Q2 Q3
    if cQ then return none
    else
      let f1 : Affine := ⟨!![(subF P2 P1).x, (subF P3 P1).x; (subF P2 P1).y, (subF P3 P1).y], P1⟩
      let f2 : Affine := ⟨!![(subF Q2 Q1).x, (subF Q3 Q1).x; (subF Q2 Q1).y, (subF Q3 Q1).y], Q1⟩
      match ← f1.inverseF k k' lg ex with
      | none => .error .attributeError
      | some g => return some (g.composeF mm f2)

end
