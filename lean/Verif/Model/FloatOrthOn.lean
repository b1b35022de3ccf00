import Verif.Model.FloatLineEq
import Verif.Model.FloatLines
import Verif.Model.FloatConstruct
import Verif.Model.Circle

/-!
# The orthogonal circle through two points of a circle in double precision
-/

open Classical
noncomputable section

/-- geometry.py 494-527 `Circle.orthogonal_through_two_points_on_circle` in double precision, for `arc=False`; an arc has the same center and
radius. The functions `cos`, `sin` (`unit_vector_`, internal.py 136-137) and `tan` are those of the library. -/
def Circle.orthogonalOnF (M : MathLib) (tanF : ℝ → ℝ) (c : Circle) (alpha1 alpha2 : ℝ) : Res OrthRes :=
  let I := c.center
  let r := c.radius
  let dalpha := fl (alpha1 - alpha2)
  if pyModF dalpha piF = 0 then
    let A : Pt := ⟨fl (I.x + fl (r * M.cos alpha1)), fl (I.y + fl (r * M.sin alpha1))⟩
    let B : Pt := ⟨fl (I.x - fl (r * M.cos alpha1)), fl (I.y - fl (r * M.sin alpha1))⟩
    do return .line (← mkLineF A B true true)
  else
    let r0 := fl (r * |tanF (fl (dalpha / 2))|)
    if M.cos (fl (dalpha / 2)) = 0 then .error .zeroDivision
    else
      let IO := fl (r / M.cos (fl (dalpha / 2)))
      let beta := fl (fl (alpha1 + alpha2) / 2)
      let center : Pt := ⟨fl (I.x + fl (IO * M.cos beta)), fl (I.y + fl (IO * M.sin beta))⟩
      do return .circle (← mkCircleF center r0)

end
