import Verif.Model.FloatAngles
import Verif.Model.Circle

/-!
# The angle of two circles in double precision
-/

open Classical
noncomputable section

/-- geometry.py 641-642: `r * (dot_(a) - 1)`. -/
def bprimeF (k : Fma) (r : ℝ) (a : Pt) : ℝ := fl (r * fl (vdotF k a a - 1))

/-- geometry.py 637-643: the cosine of the angle. -/
def cosThetaF (k : Fma) (c circ2 : Circle) : ℝ :=
  let b1 := fl (1 / c.radius)
  let b2 := fl (1 / circ2.radius)
  let a1 : Pt := ⟨fl (b1 * c.center.x), fl (b1 * c.center.y)⟩
  let a2 : Pt := ⟨fl (b2 * circ2.center.x), fl (b2 * circ2.center.y)⟩
  let bprime1 := bprimeF k c.radius a1
  let bprime2 := bprimeF k circ2.radius a2
  fl (fl (fl (fl (b1 * bprime2) / 2) + fl (fl (b2 * bprime1) / 2)) - vdotF k a1 a2)

/-- geometry.py 622-644 `Circle.angle` in double precision; `none` is Python's `None`. -/
def Circle.angleF (k : Fma) (acosF : ℝ → ℝ) (c circ2 : Circle) : Res (Option ℝ) :=
  let d := subF c.center circ2.center
  let d2 := vdotF k d d
  if d2 > fl (fl (fl (c.radius + circ2.radius) ^ 2) + sepsilon_) ∨ d2 < fl (fl (fl (c.radius - circ2.radius) ^ 2) - sepsilon_) then .ok none
  else do return some (← pyAcosF acosF (cosThetaF k c circ2))

end
