import Verif.Model.FloatEllipse

/-!
# The points of `Ellipse.path` in double precision
-/

open Classical
noncomputable section

/-- Entry `i` of `np.linspace(0, 2*pi, n_points+1)` in double precision, for `i < n_points`: the step is `2*pi / n_points`, and the entry is
`i * step` (the addition of the start `0.0` is exact). -/
def linspaceF (n i : ℕ) : ℝ := fl (i * fl (fl (2 * piF) / n))

/-- internal.py 139-149 `ellipse_points_` in double precision, for one point; `np.cos` and `np.sin` are those of `N`, `cos` and `sin` those of `M`. -/
def ellipse_pointF (M N : MathLib) (t : ℝ) (O : Pt) (a b alpha : ℝ) : Pt :=
  let x := fl (a * N.cos t)
  let y := fl (b * N.sin t)
  let cosalpha := M.cos alpha
  let sinalpha := M.sin alpha
  ⟨fl (fl (O.x + fl (cosalpha * x)) - fl (sinalpha * y)), fl (fl (O.y + fl (sinalpha * x)) + fl (cosalpha * y))⟩

/-- geometry.py 996-1016 `Ellipse.path` in double precision: row `i` of the result, for `n_points = n`. The angle is `alpha * pi/180` here, which is
`(alpha*pi)/180` and not the product of `alpha` with `pi/180` of the other methods. -/
def Ellipse.pathPointF (M N : MathLib) (e : Ellipse) (n i : ℕ) : Pt :=
  ellipse_pointF M N (linspaceF n i) e.center e.rmajor e.rminor (if e.degrees = true then fl (fl (e.alpha * piF) / 180) else e.alpha)

end
