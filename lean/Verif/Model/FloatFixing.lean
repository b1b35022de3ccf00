import Verif.Model.FloatRadical

/-!
# Inversions fixing circles in double precision
-/

noncomputable section

namespace Inversion

/-- geometry.py 1651-1665 `Inversion.from_fixing_two_circles` in double precision; `k1` and `k2` are the ways in which `np.vdot` fuses its operations in
`radical_center` and in `power`. -/
def from_fixing_two_circlesF (k1 k2 : Fma) (circ1 circ2 : Circle) : Res Inversion := do
  let O ← circ1.radical_centerF k1 circ2
  return ⟨O, circ1.powerF k2 O⟩

end Inversion

end
