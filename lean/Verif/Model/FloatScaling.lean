import Verif.Model.FloatLineEq
import Verif.Model.Transforms

/-!
# Scalings in double precision
-/

open Classical
noncomputable section

/-- geometry.py 3336-3379 `Scaling.transform` in double precision, for one point. The operations on columns are separate operations of numpy, each of
them rounded; `atan2`, `cos` and `sin` are those of the library. -/
def Scaling.transformF (M : MathLib) (S : Scaling) (P : Pt) : Pt :=
  let Q := S.center
  let w := S.direction
  let s := S.scale
  let wQ : Pt := ⟨-Q.x, -Q.y⟩
  let theta := -M.atan2 w.y w.x
  let P0 : Pt := ⟨fl (P.x + wQ.x), fl (P.y + wQ.y)⟩
  let costheta := M.cos theta
  let sintheta := M.sin theta
  let P1 : Pt := ⟨fl (fl (costheta * P0.x) - fl (sintheta * P0.y)), fl (fl (sintheta * P0.x) + fl (costheta * P0.y))⟩
  let P2 : Pt := ⟨fl (s * P1.x), P1.y⟩
  let sintheta' := -sintheta
  let P3 : Pt := ⟨fl (fl (costheta * P2.x) - fl (sintheta' * P2.y)), fl (fl (sintheta' * P2.x) + fl (costheta * P2.y))⟩
  ⟨fl (P3.x - wQ.x), fl (P3.y - wQ.y)⟩

end
