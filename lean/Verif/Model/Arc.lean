import Verif.Model.Objects

/-!
# Model of class `Arc`, geometry.py 854-934
-/

open Classical
noncomputable section

/-- `np.linspace(a, b, n)`, entry `i`: `a + i*(b-a)/(n-1)`, and `a` for `n = 1`. -/
def linspace (a b : ℝ) (n i : ℕ) : ℝ := if n = 1 then a else a + i * ((b - a) / ((n : ℝ) - 1))

namespace Arc

/-- geometry.py 890-917 `Arc.path`: the list of rows.  `n_points` is a Python int; non-positive values are rejected. -/
def path (a : Arc) (n_points : ℤ) : Res (List Pt) :=
  if n_points ≤ 0 then .error (.valueError "`n_points` is not positive.")
  else
    let alpha1 := if a.degrees = true then a.alpha1 * Real.pi / 180 else a.alpha1
    let alpha2 := if a.degrees = true then a.alpha2 * Real.pi / 180 else a.alpha2
    let alpha1 := pyMod alpha1 (2 * Real.pi)
    let alpha2 := pyMod alpha2 (2 * Real.pi)
    let dalpha := alpha2 - alpha1
    let dalpha := if dalpha < 0 then dalpha + 2 * Real.pi else dalpha
    .ok ((List.range n_points.toNat).map fun i =>
      circle_point_ (alpha1 + linspace 0 dalpha n_points.toNat i) a.center a.radius)

/-- geometry.py 919-926 `Arc.starting_point`. -/
def starting_point (a : Arc) : Pt :=
  let alpha := if a.degrees = true then a.alpha1 * (Real.pi / 180) else a.alpha1
  a.center + a.radius • unit_vector_ alpha

/-- geometry.py 928-935 `Arc.ending_point`. -/
def ending_point (a : Arc) : Pt :=
  let alpha := if a.degrees = true then a.alpha2 * (Real.pi / 180) else a.alpha2
  a.center + a.radius • unit_vector_ alpha

end Arc

end
