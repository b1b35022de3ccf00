import Verif.Model.FloatGeom
import Verif.Model.Transforms
import Verif.Model.Affine

/-!
# The transformations of points in double precision

Every operation is rounded by `fl`.  The operations of numpy on arrays are rounded one by one; `np.vdot` and `np.matmul` may fuse a multiplication
with the addition (`Fma`).  Overflow is not modelled: `fl` has no largest number.  The cosine and sine of a rotation are parameters, because `math.cos`
and `math.sin` are not correctly rounded.
-/

open Classical
noncomputable section

/-- geometry.py 1508-1518 `Inversion.invert` in double precision, on a finite point.  The division by `dot_(pole_M)` is numpy's. -/
def Inversion.invertF (k : Fma) (iota : Inversion) (M : Pt) : Res XPt :=
  if allclose64 iota.pole M then .ok .inf
  else
    let pole_M := subF M iota.pole
    let d := vdotF k pole_M pole_M
    if d = 0 then .error .nonFinite
    else
      let s := fl (iota.power / d)
      .ok (.fin ⟨fl (iota.pole.x + fl (s * pole_M.x)), fl (iota.pole.y + fl (s * pole_M.y))⟩)

/-- geometry.py 2172-2183 `Affine.transform` in double precision, on one point; `kx` and `ky` are how `np.matmul` evaluates the two rows. -/
def Affine.transformF (kx ky : Fma) (f : Affine) (M : Pt) : Pt :=
  ⟨fl (vdotF kx ⟨f.A 0 0, f.A 0 1⟩ M + f.b.x), fl (vdotF ky ⟨f.A 1 0, f.A 1 1⟩ M + f.b.y)⟩

/-- geometry.py 2876-2911 `Rotation.rotate` in double precision, on one point, with the values `costheta` and `sintheta` of lines 2898-2899. -/
def rotateF (O : Pt) (costheta sintheta : ℝ) (M : Pt) : Pt :=
  let Mc := subF M O
  ⟨fl (fl (fl (costheta * Mc.x) - fl (sintheta * Mc.y)) + O.x), fl (fl (fl (sintheta * Mc.x) + fl (costheta * Mc.y)) + O.y)⟩

/-- geometry.py 3160-3183 `ScalingXY.transform` in double precision, on one point. -/
def ScalingXY.transformF (s : ScalingXY) (M : Pt) : Pt :=
  let Mc := subF M s.center
  ⟨fl (fl (s.sx * Mc.x) + s.center.x), fl (fl (s.sy * Mc.y) + s.center.y)⟩

/-- geometry.py 3225-3247 `Homothety.transform` in double precision, on one point. -/
def Homothety.transformF (h : Homothety) (M : Pt) : Pt :=
  let t := fl (1 - h.scale)
  ⟨fl (fl (t * h.center.x) + fl (h.scale * M.x)), fl (fl (t * h.center.y) + fl (h.scale * M.y))⟩

end
