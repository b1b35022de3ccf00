import Verif.Model.FloatMobius

/-!
# The composition of two inversions in double precision
-/

noncomputable section

/-- internal.py 176-179 `mod2_` and 249-252 `inversion_to_conjugate_mobius_` in double precision; the operations are those of Python floats, never fused. -/
def inversion_to_conjugate_mobiusF (iota : Inversion) : Matrix (Fin 2) (Fin 2) ℂ :=
  let C := toC iota.pole
  !![C, ((fl (iota.power - fl (fl (C.re * C.re) + fl (C.im * C.im))) : ℝ) : ℂ); 1, -(starRingEnd ℂ) C]

/-- geometry.py 1561-1577 `Inversion.compose` in double precision; `mm` is `np.matmul`. -/
def Inversion.composeF (mm : Matrix (Fin 2) (Fin 2) ℂ → Matrix (Fin 2) (Fin 2) ℂ → Matrix (Fin 2) (Fin 2) ℂ) (iota iota2 : Inversion) (left : Bool := true) : Mobius :=
  let comp := fun (i j : Inversion) =>
    let Mob3 : Mobius := ⟨(inversion_to_conjugate_mobiusF i).map (starRingEnd ℂ)⟩
    let Mob2 : Mobius := ⟨inversion_to_conjugate_mobiusF j⟩
    Mob3.composeF mm Mob2
  if left = true then comp iota iota2 else comp iota2 iota

end
