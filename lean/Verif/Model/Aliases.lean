import Verif.Model.Circle
import Verif.Model.Affine
import Verif.Model.Inversion
import Verif.Model.Triangle
import Verif.Model.Transforms

/-!
# Methods that only call another function
-/

noncomputable section

/-- geometry.py 302-311 `Line.invert` on an `Inversion`. -/
def Line.invert (l : Line) (iota : Inversion) : Res (Option GCircle) := iota.invert_line l

/-- geometry.py 313-320 `Line.intersection_with_circle`. -/
def Line.intersection_with_circle (l : Line) (circ : Circle) : PtRes := intersection_circle_line circ l

/-- geometry.py 322-329 `Line.intersection_with_ellipse`. -/
def Line.intersection_with_ellipse (l : Line) (ell : EllArg) : Res PtRes := intersection_ellipse_line ell l

/-- geometry.py 331-338 `Line.intersection_with_line`. -/
def Line.intersection_with_line (l line2 : Line) (strict : Bool := false) : Option Pt :=
  intersection_line_line l line2 strict

/-- geometry.py 589-596 `Circle.intersection_with_line`. -/
def Circle.intersection_with_line (c : Circle) (line : Line) : PtRes := intersection_circle_line c line

/-- geometry.py 598-605 `Circle.intersection_with_circle`. -/
def Circle.intersection_with_circle (c circ2 : Circle) : Res CCRes := intersection_circle_circle c circ2

/-- geometry.py 1205-1212 `Ellipse.intersection_with_line`. -/
def Ellipse.intersection_with_line (e : Ellipse) (line : Line) : Res PtRes := intersection_ellipse_line (.ell e) line

/-- geometry.py 2736-2740 `Reflection.transform_circle`. -/
def Reflection.transform_circle (R : Reflection) (circ : Circle) : Res Circle := R.reflect_circle circ

/-- geometry.py 2754-2758 `Reflection.transform_line`. -/
def Reflection.transform_line (R : Reflection) (line : Line) : Res Line := R.reflect_line line

/-- geometry.py 2930-2934 `Rotation.transform_circle`. -/
def Rotation.transform_circle (R : Rotation) (circ : Circle) : Res Circle := R.rotate_circle circ

/-- geometry.py 2956-2960 `Rotation.transform_ellipse`. -/
def Rotation.transform_ellipse (R : Rotation) (ell : Ellipse) : Res Ellipse := R.rotate_ellipse ell

/-- geometry.py 2975-2979 `Rotation.transform_line`. -/
def Rotation.transform_line (R : Rotation) (line : Line) : Res Line := R.rotate_line line

/-- geometry.py 1798-1803 `Triangle.edges`. -/
def Triangle.edges (T : Triangle) : ℝ × ℝ × ℝ := (T.a, T.b, T.c)

end
