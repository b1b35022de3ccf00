import Verif.Model.FloatSwap
import Verif.Model.FloatConstruct
import Verif.Model.FloatLines

/-!
# Mid-circles in double precision
-/

open Classical
noncomputable section

/-- geometry.py 697-763 `mid_circles` in double precision. The constant `sepsilon_` is a double; the square roots are correctly rounded. -/
def mid_circlesF (k : Fma) (circ1 circ2 : Circle) : Res MidRes :=
  let r1 := circ1.radius
  let r2 := circ2.radius
  let O1 := circ1.center
  let O2 := circ2.center
  let d2 := vdotF k (subF O1 O2) (subF O1 O2)
  let sumRadii2 := fl (fl (r1 + r2) * fl (r1 + r2))
  if r1 = r2 then
    if allclose64 O1 O2 then .ok (.single (.circle circ1))
    else
      let I : Pt := ⟨fl (fl (O1.x + O2.x) / 2), fl (fl (O1.y + O2.y) / 2)⟩
      let d := subF O2 O1
      let v : Pt := ⟨d.y, -d.x⟩
      do
        let line ← mkLineF ⟨fl (I.x + v.x), fl (I.y + v.y)⟩ (subF I v) true true
        if d2 < sumRadii2 then
          let c ← mkCircleF I (fl (Real.sqrt (Inversion.swapPowerF k I O2 r2)))
          return .pair (.circle c) (.line line)
        else return .single (.line line)
  else
    let difRadii2 := fl (fl (r1 - r2) * fl (r1 - r2))
    let rho := fl (r1 / r2)
    let Iext := Inversion.swapOuterF O1 O2 rho
    let kext := fl (rho * Inversion.swapPowerF k Iext O2 r2)
    let Iint := Inversion.swapInnerF O1 O2 rho
    let kint := fl (rho * Inversion.swapPowerF k Iint O2 r2)
    if d2 > fl (sumRadii2 + sepsilon_) then do
      return .single (.circle (← mkCircleF Iext (fl (Real.sqrt kext))))
    else if d2 < fl (difRadii2 - sepsilon_) then do
      return .single (.circle (← mkCircleF Iint (fl (Real.sqrt kint))))
    else if fl (sumRadii2 - d2) < sepsilon_ then do
      return .single (.circle (← mkCircleF Iext (fl (Real.sqrt kext))))
    else if fl (d2 - difRadii2) < sepsilon_ then do
      return .single (.circle (← mkCircleF Iint (fl (Real.sqrt kint))))
    else do
      let c1 ← mkCircleF Iext (fl (Real.sqrt kext))
      let c2 ← mkCircleF Iint (fl (Real.sqrt kint))
      return .pair (.circle c1) (.circle c2)

end
