import Verif.Model.Boundary4

/-!
# Model of `Ellipse.LownerJohnEllipse`, geometry.py 1429-1480, with `np.float` being `float`

`Model/Ellipse` has the method as it runs with the numpy of `poetry.lock`, where `from_boundary4` always raises.  Here
`from_boundary4` is the one of `Model/Boundary4`.  Every other line is the one of the code.
-/

open Classical
noncomputable section

namespace LJ4

/-- What the method uses from numpy: the functions used by `from_boundary4`, `np.linalg.eigvals`, and the random index drawn
at each node of the tree of recursive calls (`false`: first recursive call, `true`: second one). -/
structure Env extends Boundary4.Env where
  eigvals : Matrix (Fin 2) (Fin 2) ℝ → ℝ × ℝ
  randint : List Bool → ℕ

/-- Contracts of the numpy functions; nothing is assumed about the random indices. -/
structure Env.Ok (env : Env) : Prop extends env.toEnv.Ok where
  eigvals : ∀ A B C : ℝ, Ellipse.IsEigvals (Ellipse.eqMatrix A B C) (env.eigvals (Ellipse.eqMatrix A B C))

/-- geometry.py 1447-1460: the stopping case of `LownerJohnEllipse`; `none` is Python's `None`.  `from_five_points`
receives the rows as arguments: more than five of them is a `TypeError`. -/
def base (env : Env) (bpoints : List Pt) : Res (Option Ellipse) :=
  match bpoints with
  | [] => .ok none
  | [_] => .ok none
  | [_, _] => .ok none
  | [P, Q, R] => do
    let e ← Ellipse.from_boundary3 env.eigh P Q R
    return some e
  | [P, Q, R, S] => do
    let e ← Boundary4.from_boundary4 env.toEnv ![P, Q, R, S]
    return some e
  | [P, Q, R, S, T] => do
    let q ← Ellipse.equation_from_five_points ![P, Q, R, S, T]
    let e ← Ellipse.from_equation q.A q.B q.C q.D q.E q.F (env.eigvals (Ellipse.eqMatrix q.A q.B q.C))
    return some e
  | _ => .error .typeError

/-- geometry.py 1429-1480 `Ellipse.LownerJohnEllipse`; `path` is the position in the tree of recursive calls.  The
recursion is on the number of interior points, so that termination is checked by Lean. -/
def lownerJohn (env : Env) (path : List Bool) (ipoints bpoints : List Pt) : Res (Option Ellipse) :=
  if h : ipoints.length = 0 ∨ bpoints.length ≥ 5 then base env bpoints
  else
    have hlt : env.randint path % ipoints.length < ipoints.length := Nat.mod_lt _ (by omega)
    let i := env.randint path % ipoints.length
    let p := ipoints[i]'hlt
    let ipoints_wo_p := ipoints.eraseIdx i
    do
      let ellipse ← lownerJohn env (path ++ [false]) ipoints_wo_p bpoints
      match ellipse with
      | some e =>
        if e.contains p then return some e
        else lownerJohn env (path ++ [true]) ipoints_wo_p (bpoints ++ [p])
      | none => lownerJohn env (path ++ [true]) ipoints_wo_p (bpoints ++ [p])
termination_by ipoints.length
decreasing_by all_goals (rw [List.length_eraseIdx_of_lt hlt]; omega)

end LJ4

end
