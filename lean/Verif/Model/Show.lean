import Verif.Model.Line
import Verif.Model.Triangle
import Verif.Model.Transforms

/-!
# Model of the `show` methods and of the messages printed on the console

`print(x, y, ...)` is the list of its arguments.  A number in such a list stands for its text: `str` of a float is its shortest
exact representation, so that the text determines the number.  The entries of a numpy array are printed with eight digits only;
they are kept apart (`arr`), and nothing is concluded from them.
-/

open Classical
noncomputable section

/-- An argument of `print`. -/
inductive Txt where
  | str (s : String)
  | num (x : ℝ)
  | bool (b : Bool)
  | tup (P : Pt)
  | arr (P : Pt)


/-- What a call has printed, one list per call of `print`, and how the call ended. -/
structure Printed (α : Type) where
  out : List (List Txt)
  res : Res α

/-- geometry.py 73-86 `Line.show`. -/
def Line.show (l : Line) : Printed Unit :=
  ⟨[[.str "Line:\n"], [.str "       A: ", .tup l.A, .str "\n"], [.str "       B: ", .tup l.B, .str "\n"],
    [.str " extendA: ", .bool l.extendA, .str "\n"], [.str " extendB: ", .bool l.extendB, .str "\n"],
    [.str (if l.extendA = true ∧ l.extendB = true then "Infinite line passing through A and B.\n"
      else if l.extendA = true then "Half-line with origin B and passing through A.\n"
      else if l.extendB = true then "Half-line with origin A and passing through B.\n"
      else "Segment joining A and B.\n")]], .ok ()⟩

/-- geometry.py 371-374 `Circle.show`. -/
def Circle.show (c : Circle) : Printed Unit :=
  ⟨[[.str "Circle:\n"], [.str " center: ", .tup c.center, .str "\n"], [.str " radius: ", .num c.radius, .str "\n"]], .ok ()⟩

/-- geometry.py 965-966, 2870-2871: the name of the unit. -/
def unitName (degrees : Bool) (angle : ℝ) : String :=
  (if degrees = true then "degree" else "radian") ++ (if angle = 1 then "" else "s")

/-- geometry.py 964-971 `Ellipse.show`. -/
def Ellipse.show (e : Ellipse) : Printed Unit :=
  ⟨[[.str "Ellipse:\n"], [.str "       center: ", .tup e.center, .str "\n"], [.str " major radius: ", .num e.rmajor, .str "\n"],
    [.str " minor radius: ", .num e.rminor, .str "\n"],
    [.str "        angle: ", .num e.alpha, .str (unitName e.degrees e.alpha), .str "\n"]], .ok ()⟩

/-- geometry.py 1503-1506 `Inversion.show`. -/
def Inversion.show (i : Inversion) : Printed Unit :=
  ⟨[[.str "Inversion:\n"], [.str "      pole: ", .tup i.pole, .str "\n"], [.str "     power: ", .num i.power, .str "\n"]], .ok ()⟩

/-- geometry.py 1753-1762 `Triangle.show`.  An exception in `flatness` leaves the first lines printed. -/
def Triangle.show (T : Triangle) : Printed Unit :=
  let head := [[.str "Triangle:\n"], [.str "       A: ", .tup T.A, .str "\n"], [.str "       B: ", .tup T.B, .str "\n"],
    [.str "       C: ", .tup T.C, .str "\n"]]
  match T.flatness with
  | .error e => ⟨head, .error e⟩
  | .ok f =>
    if f = 1 then ⟨head ++ [[.str "The triangle is flat.\n"]], .ok ()⟩
    else if f > 99 / 100 then ⟨head ++ [[.str "The triangle is almost flat (flatness: ", .num f, .str ").\n"]], .ok ()⟩
    else ⟨head, .ok ()⟩

/-- geometry.py 2672-2675 `Reflection.show`. -/
def Reflection.show (r : Reflection) : Printed Unit :=
  ⟨[[.str "Reflection with respect to the line passing through A and B.\n"],
    [.str "                 A: ", .arr r.line.A, .str "\n"], [.str "                 B: ", .arr r.line.B, .str "\n"]], .ok ()⟩

/-- An attribute of a `Line` object by its name (geometry.py 60-68): there are four of them. -/
def Line.getattr (l : Line) (name : String) : Res Txt :=
  if name = "A" then .ok (.arr l.A)
  else if name = "B" then .ok (.arr l.B)
  else if name = "extendA" then .ok (.bool l.extendA)
  else if name = "extendB" then .ok (.bool l.extendB)
  else .error .attributeError

/-- geometry.py 2792-2799 `Projection.show`: `self.Delta.P` and `self.Delta.Q` are looked up in a `Line` object. -/
def Projection.show (p : Projection) : Printed Unit :=
  let head := [[.str ("Projection onto the line `D` passing through `A` and `B` parallel to the line `Delta` passing through " ++
      "`P` and `Q`.\n")],
    [.str "                 A: ", .arr p.D.A, .str "\n"], [.str "                 B: ", .arr p.D.B, .str "\n"]]
  match p.Delta.getattr "P" with
  | .error e => ⟨head, .error e⟩
  | .ok P =>
    match p.Delta.getattr "Q" with
    | .error e => ⟨head ++ [[.str "                 P: ", P, .str "\n"]], .error e⟩
    | .ok Q => ⟨head ++ [[.str "                 P: ", P, .str "\n"], [.str "                 Q: ", Q, .str "\n"]] ++
        (if p.orthogonal = true then [[.str "This is an orthogonal projection.\n"]] else []), .ok ()⟩

/-- geometry.py 2869-2874 `Rotation.show`. -/
def Rotation.show (r : Rotation) : Printed Unit :=
  ⟨[[.str "Rotation:\n"], [.str "    center: ", .tup r.center, .str "\n"],
    [.str "     angle: ", .num r.theta, .str (unitName r.degrees r.theta), .str "\n"]], .ok ()⟩

/-- geometry.py 3068-3078 `Shear.show`. -/
def Shear.show (s : Shear) : Printed Unit :=
  let plural := if s.angle = 1 ∨ s.angle = 0 then "" else "s"
  let v2 : Pt := ⟨-s.ratio * s.vector.y, s.ratio * s.vector.x⟩
  ⟨[[.str "Shear:\n"], [.str "        vertex: ", .tup s.vertex, .str "\n"], [.str "  first vector: ", .tup s.vector, .str "\n"],
    [.str " second vector: ", .tup v2, .str "\n"],
    [.str "         angle: ", .num s.angle, .str ((if s.degrees = true then "degree" else "radian") ++ plural), .str "\n"]], .ok ()⟩

/-- geometry.py 3154-3158 `ScalingXY.show`. -/
def ScalingXY.show (s : ScalingXY) : Printed Unit :=
  ⟨[[.str "Axis scaling:\n"], [.str "              center: ", .tup s.center, .str "\n"],
    [.str " scale factor x-axis: ", .num s.sx, .str "\n"], [.str " scale factor y-axis: ", .num s.sy, .str "\n"]], .ok ()⟩

/-- geometry.py 3220-3223 `Homothety.show`. -/
def Homothety.show (h : Homothety) : Printed Unit :=
  ⟨[[.str "Homothety:\n"], [.str "     center: ", .tup h.center, .str "\n"], [.str "      scale: ", .num h.scale, .str "\n"]], .ok ()⟩

/-- geometry.py 3312-3316 `Scaling.show`. -/
def Scaling.show (s : Scaling) : Printed Unit :=
  ⟨[[.str "Scaling:\n"], [.str "     center: ", .tup s.center, .str "\n"], [.str "  direction: ", .tup s.direction, .str "\n"],
    [.str "      scale: ", .num s.scale, .str "\n"]], .ok ()⟩

/-- geometry.py 169-205 `Line.includes` with the messages. -/
def Line.includesP (l : Line) (M : Pt) (strict : Bool := false) (checkCollinear : Bool := true) : Printed Bool :=
  if checkCollinear = true ∧ ¬ collinear_ l.A l.B M then ⟨[], .ok false⟩
  else if strict = false ∨ (l.extendA = true ∧ l.extendB = true) then ⟨[], .ok (decide (collinear_ l.A l.B M))⟩
  else if l.extendA = false ∧ l.extendB = false then
    if dot_ (l.A - M) (l.B - M) ≤ 0 then ⟨[], .ok true⟩
    else ⟨[[.str "The point is on the line (AB), but not on the segment [AB]."]], .ok false⟩
  else if l.extendA = true then
    if (M.x - l.B.x) * (l.A.x - l.B.x) > 0 ∨ (M.y - l.B.y) * (l.A.y - l.B.y) > 0 then ⟨[], .ok true⟩
    else ⟨[[.str "The point is on the line (AB), but not on the half-line (AB]."]], .ok false⟩
  else
    if (M.x - l.A.x) * (l.B.x - l.A.x) > 0 ∨ (M.y - l.A.y) * (l.B.y - l.A.y) > 0 then ⟨[], .ok true⟩
    else ⟨[[.str "The point is on the line (AB), but not on the half-line [AB)."]], .ok false⟩

end
