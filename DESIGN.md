# Formal model of PyPlaneGeometry in Lean 4

## What is modelled and how

* `lean/Verif/Spec/` - small geometric specification (points, circles, lines, ellipses as sets given by
  coordinates). It does not mention the code.
* `lean/Verif/Model/` - the code, function by function. Each definition cites the file and lines it models.
* `lean/Verif/Lemmas/` - helper lemmas.
* `lean/Verif/Props/` - the property theorems, one file per area, with non-vacuity examples beside them.

### Idealisations (part of the trusted base)

* Python `float` / numpy `float64` finite values are real numbers; there is no rounding, no overflow, no signed
  zero. Tolerances are kept exactly as in the code: `np.allclose` (rtol 1e-5, atol 1e-8, asymmetric), `math.isclose`
  (rel 1e-9), `sepsilon_ = 2^-26`. All comparisons, including exact `==` on floats, are kept as written.
* The point at infinity (`math.inf` as a point) is a separate constructor.
* Exceptions are values (`Except Err`). `ValueError`, `TypeError`, `ZeroDivisionError`, `AttributeError`,
  `LinAlgError` are distinguished. Where numpy returns `inf`/`nan` with a warning instead of raising, the model
  returns the pseudo error `nonFinite`. A loop that never ends is the pseudo error `diverges`.
* `math.atan2(y, x)` is `Complex.arg (x + i y)`; `math.acos`, `math.sqrt` raise outside their domain; Python `%` on
  floats is `x - m * floor (x / m)`.
* `np.linalg.det/inv/solve/matrix_power` are the exact matrix functions; `np.linalg.eig/eigh/cholesky` are given by
  their contracts (stated where used). The random generator is a universally quantified parameter; in C121 it is a random variable, and the laws documented by numpy are hypotheses.
* `print` output is modelled only for the show methods and `Line.includes` (`Model/Show`).

### Double precision model

`Model/Float64` defines the rounding of a real number to the nearest IEEE binary64 number (ties to even, gradual underflow), without an
upper bound on the exponent: overflow is not modelled there. `Model/FloatGeom`, `Model/FloatTransforms` and `Model/FloatDecide` are a second
model of a part of the library in which every operation is rounded (C88 to C91, C114 to C117, C120). `Model/Ieee` adds nan, the infinities and
overflow for some of these functions; C118 gives bounds on the data below which the two agree. `np.vdot` may fuse one product with the addition (all cases are covered); the other operations are not fused, as in
CPython and in numpy's elementwise loops. Square roots are correctly rounded. The library cosine and sine are assumed accurate to 2^-52.

### Trusted base

Lean's kernel; the axioms `propext`, `Classical.choice`, `Quot.sound` (used by Mathlib); the reading of the Python
code that the comments in `Model/` cite; the idealisations above. No other axiom, no `sorry`, no `native_decide`.

### Scripts in examples/

The scripts are modelled when they compute something beyond calls of the library; a drawn circle is an element of the list a function returns, matplotlib is not modelled.

| script | module | property |
|---|---|---|
| EllipticalBilliard.py | Model/Billiard | C94 |
| Inversions.py, Schottky.py (`unique_with`) | Model/UniqueWith | C96 |
| gasket scripts (repeated inversions), ApollonianGasket.py | Model/Gasket | C97, C99 |
| ApollonianGasketMobius.py | Model/GasketMobius | C100 |
| triangularApollonianGasket.py | Model/TriangularGasket | C101 |
| ModularTessellation.py, ModularTessellation_animation.py | Model/ModularTessellation | C102 |
| Circles_simultaneously_tangent.py | Model/ThreeTangent | C103 |
| HyperbolicTesselation.py, HyperbolicTesselation2.py | Model/HyperbolicTesselation | C104 |
| Schottky.py | Model/Schottky | C105 |
| MalfattiApollonian.py, MalfattiApollonian_animation.py | Model/MalfattiApollonian | C106 |
| triangularCircularGasket.py (circular part) | Model/CircularGasket | C107 |
| EllipticalSteinerChain.py, NestedSteinerChains.py, EllipticalNestedSteinerChains.py, their animations and 3D versions | Model/EllipticalChains | C108 |
| ApollonianIcosahedralGasket.py | Model/IcosahedralGasket | C109 |
| Inversions.py | Model/Inversions | C110 |

## Plan per property

* **C01** Point arguments are validated exactly - Python values as an inductive type; is_point_ / error_if_not_point_ as functions on it; iff theorem.
* **C02** Class invariants over every call history - constructors with exceptions as values; inductive closure of all modelled operations; invariant by induction.
* **C03** Line.direction_offset is the normal form of the line - atan2 = Complex.arg, Python % = x - m*floor(x/m); case split as in the code, trigonometric identities.
* **C04** Line.is_equal recognises equal lines and only those - forward direction from C03; converse is false (x=1 vs x=-1): counterexample + partial.
* **C05** Line.includes decides membership in the infinite line - collinear_ with tol=0; cross product algebra.
* **C06** Line.includes(strict=True) honours the extension flags - branch by branch; the end point of a half-line is excluded by the code: see notes.
* **C07** Line.projection and Line.distance - algebra on line_line_intersection_.
* **C08** Line.perpendicular - algebra; totality conditions.
* **C09** Reflection is the mirror symmetry - algebra; the code raises ValueError for points that are close to but not on the line (recorded).
* **C10** Reflection.as_affine agrees with Reflection.transform - 3x3 matrix inverse made explicit.
* **C11** Rotations form a group of isometries and all entry points agree - trigonometric addition.
* **C12** intersection_line_line returns the unique common point - algebra.
* **C13** is_parallel and is_perpendicular - algebra, tolerance.
* **C14** Circle.contains, includes, power and point_from_angle are consistent - algebra, tolerance.
* **C15** Radical center and axis of two circles - algebra.
* **C16** Radical center of three circles - algebra.
* **C17** orthogonal_through_two_points_on_circle - half-angle identities.
* **C18** orthogonal_through_two_points_in_circle - guard compares a distance with r^2 (bug): counterexample + partial.
* **C19** circleAB and circleOA - algebra.
* **C20** Circle.angle - arccos.
* **C21** intersection_circle_line is sound and complete - algebra, completeness by cross-product decomposition.
* **C22** intersection_circle_circle is sound and complete - arg/arccos.
* **C23** mid_circles swap the two circles - homothety centers; sepsilon bands.
* **C24** Inversion.invert - algebra; involution can fail through np.allclose.
* **C25** Inversion.invert_circle gives the image of the circle - algebra.
* **C26** Inversion.invert_line gives the image of the line - circumcircle of the model.
* **C27** Inversion.invert_gcircle dispatches on the type - isinstance(x, "Circle") raises TypeError for every input: negation proved.
* **C28** Inversion.compose is the composition - complex algebra.
* **C29** from_swapping_two_circles swaps in every configuration - case analysis of relative positions.
* **C30** from_fixing_two_circles and from_fixing_three_circles - from C15/C16.
* **C31** SteinerChain is a closed chain of tangent circles - trigonometry for phi=0, tangency preserved by inversion for phi != 0.
* **C32** SteinerChain ellipse of centers - focal characterization.
* **C33** Triangle.flatness - Cauchy-Schwarz; ZeroDivisionError branch.
* **C34** Triangle.orientation - the sign is opposite to the documentation: proved.
* **C35** Triangle.contains - barycentric coordinates.
* **C36** Triangle.is_acute - right triangles are reported acute: proved iff non-obtuse.
* **C37** Triangle angles - Mathlib angle sum transported to coordinates.
* **C38** Triangle.incircle - Heron.
* **C39** Triangle.excircles - Heron.
* **C40** Triangle.circumcircle - determinants.
* **C41** Triangle.orthic_triangle - algebra.
* **C42** Triangle.equal_detour_point - Heron, Soddy circle distances.
* **C43** Triangle.malfatti_circles - half-angle parametrisation.
* **C44** Steiner ellipse and inellipse - C46+C47.
* **C45** Affine maps: composition and inverse - 3x3 matrices.
* **C46** Affine.from_mapping_three_points - C45.
* **C47** Affine.transform_line and transform_ellipse give the images - conic coefficients.
* **C48** Affine.from_ellipse_to_ellipse - C45.
* **C49** Moebius transformations: composition and inverse on the sphere - complex algebra on the sphere.
* **C50** Mobius.power - induction on k.
* **C51** Mobius.gpower - Jordan form and eigen decomposition; np.linalg.eig is a parameter with its contract.
* **C52** Mobius.fixed_points - math.sqrt of a complex number drops the imaginary part: counterexample + partial.
* **C53** Mobius.transform_circle gives the image of the circle - complex algebra; the search loop may diverge: proved.
* **C54** Mobius.transform_line gives the image of the line - C03 + complex algebra.
* **C55** Mobius.from_mapping_three_points - inf is never recognised after conversion to complex: counterexample + partial for finite points.
* **C56** Mobius.from_mapping_one_circle - C49 + cross ratio.
* **C57** cross_ratio - complex algebra.
* **C58** unimodular_matrices - Farey neighbour theorem.
* **C59** Projection - C03.
* **C60** Shear fixes its vertex and preserves areas - matrix algebra; vertex not fixed (linear part not transposed): counterexample + partial.
* **C61** ScalingXY and Homothety - algebra.
* **C62** Scaling along a direction - trigonometry.
* **C63** Matrix arguments are transformed row by row - array shapes as an inductive type; lists of any length.
* **C64** Ellipse equation, includes, contains, path and point_from_angle agree - conic algebra.
* **C65** Ellipse.shape_matrix and from_center_and_matrix are inverse - eigh is a parameter with its contract.
* **C66** Ellipse.from_equation inverts Ellipse.equation - guard and A==C branch wrong: counterexamples + partial.
* **C67** Ellipse.equation_from_five_points - Laplace expansion.
* **C68** Ellipse.normal and Ellipse.diameter - trigonometry.
* **C69** Ellipse.theta2t - ZeroDivisionError at 0: proved; partial elsewhere.
* **C70** intersection_ellipse_line is sound and complete - C21 + C45.
* **C71** Arc.path - trigonometry.
* **C72** Random points are where they should be for every random draw - the random draws are universally quantified parameters.
* **C73** Ellipse.from_boundary3 and from_boundary4 - matrix algebra; from_boundary4 uses np.float, absent from the pinned numpy 1.24.3.
* **C74** Ellipse.LownerJohnEllipse - well-founded recursion with the random choices as a parameter.
* **C75** is_equal is an equivalence-like test - tolerance algebra; symmetry fails.
* **C76** Objects do not share state with the caller's arrays - heap model of arrays with aliasing.
* **C77** Ellipse.is_equal decides equality of point sets - counterexamples.
* **C78** Ellipse.point_from_angle direction - C69; the band above pi is wrong: counterexample + partial.
* **C79** Ellipse.from_five_points - C66 + C67.
* **C80** smallest enclosing ellipse - normalise the competing ellipse to the unit disk by an affine map, where the area of an inscribed triangle is at most 3 sqrt 3 / 4 with equality only for the centered equilateral triangle; from_boundary3 attains it.
* **C81** Steiner ellipses are extremal - same normalisation; the triangle around the unit disk has area at least 3 sqrt 3 (tangent lines, Heron and the arithmetic-geometric mean inequality).
* **C82** inner arc - closed form of the angles of the arc; a point of the orthogonal circle is inside exactly when the cosine of its angle from the axis exceeds that of the end points.
* **C83** arc in the circle - same criterion; the code sorts the two angles modulo 2 pi and so takes the wrong arc when the angle 0 is inside the right one.
* **C84** number and Boolean arguments - case analysis on the modelled Python values, check by check; nan passes every check and Decimal angles in degrees raise TypeError (counterexamples).
* **C85** identities of the triangle circles - edges written as y+z, z+x, x+y; every center is a barycentric combination, so each identity is polynomial.
* **C86** nine-point circle - its center is (A+B+C-O)/2 by the barycentric form; Feuerbach from the distances between barycentric combinations.
* **C87** show methods - printed text as a list of pieces; injectivity by cases; Projection.show raises on every object and Triangle.show on triangles with B or C equal to A (counterexamples).
* **C88** contains, power, distance in doubles - error bounds of the rounding function of `Model/Float64`.
* **C89** orientation in doubles - error of each product, sign of a difference of doubles is exact; exactness and monotonicity of rounding on integers.
* **C90** flatness and collinear_ in doubles - absorption of small addends, error bounds on real and imaginary part.
* **C91** point_from_angle and includes in doubles - error bounds; cosine and sine by contract.
* **C92** forwarding methods - each method is defined as a call and the specification of the result is stated for the method itself.
* **C93** Right angles are stated by the tangent directions at a common point (Spec.MeetAtRightAngles), shown equivalent to d^2 = r1^2 + r2^2; the tolerance comparison is unfolded exactly.
* **C94** Model reflect and trajectory of the example; prove one bounce with the exact root structure of intersection_ellipse_line, then induct. Caustic: the confocal tangency condition of a line is a polynomial condition preserved by a bounce (Joachimsthal).
* **C95** d^2 - r1^2 - r2^2 over 2 r1 r2 is multiplied by the sign of D1 D2 (D_i the power of the pole); derive contact, right angles and the computed angle from it.
* **C96** Model the loop with its variables L, size, i, j and an option for IndexError; loop invariants for the while and the for loop.
* **C97** Ping-pong: a circle made by mirror k lies in the disc of mirror k, so inverting it in another mirror gives a circle in that mirror's disc. Disjointness pulls back along the common mirror.
* **C98** Line.translate and Reflection.__init__: equality of point sets for the four combinations of flags (`lineSet_translate`); exact condition for the exception; counterexample with a unit segment moved by 10^6.
* **C99** Model/Apollonian: the script with its constants as arguments. Products of circles (zero for orthogonal, 2rs for tangent) are multiplied by the same factors under an inversion, so the configuration for phi is checked on the symmetric one and transported. The transport is done on circle vectors (Lemmas/RingGasket, Lemmas/RingApollonian), where the image of a mirror may be a disc, the outside of a disc or a half plane, so that every phi between -1 and 1 is covered. The radical centre is unique, hence the inversions are the expected mirrors; then the general theorem on seeds applies.
* **C100** The matrix is h^t (cos(tau) I + sin(tau) J) with J^2 = -I, so the product rule is the addition theorem. A matrix (a, b; conj b, conj a) with |a| > |b| multiplies |z|^2 - 1 by a positive factor. The image of a disc that does not contain the pole is a disc (Lemmas/MobiusDisc). The packing comes from C99.
* **C101** Model/TriangularGasket. Circles and lines are vectors with the Lorentzian product -1 for tangency (Lemmas/Descartes). Each hole is a region bounded by three curves; filling it gives a disc inside the region and three disjoint sub-regions (Lemmas/TriGasketSteps, TriGasketCorner, TriGasketHole). The seven first holes of the Malfatti configuration are disjoint (TriGasketStart, TriGasketMalfatti), and the passes keep the invariant (TriGasketPack).
* **C102** Write the script function by function with the in-place changes of the arrays. Show R.gpower(u) is the rotation by its spectral form, every circle drawn is the disc image of the seed by Phi R^u g, and the g reached from the list of unimodular_matrices (C58) are all those up to n. Overlaps: a common point of two closed discs bounds the quadratic form 2a^2+b^2+4c^2+2d^2 of g^-1 h by 5, and there are finitely many integer matrices with this bound.
* **C103** Circles through a point and its two images have at the poles the powers of the inversions; so the radical center H of any two of them and C3 is the same. Tangents from H to C3 give the contact points, the ratio of each inversion carries the contact with C3 to C1 and C2. Conversely a circle touching all three alike has these powers, so its contact point is one of the two points and it is the circumcircle computed.
* **C104** inversion on a circle orthogonal to circ keeps circ; the cross product of the images of rho*e and R*e is q(q^2-R^2)R(R-rho)^2 sin(s-t) up to a positive factor, so equal angles force rho = R or alignment
* **C105** the reduced words of the free group and their count by recursion on the first letter; the equations of the four curves as Hermitian forms which the transformations exchange; ping-pong for the discs; words of two letters and more have bounded circles, so transform_line and transform_circle give circles
* **C106** Malfatti gasket scripts: outer Soddy circle and Apollonian packing - Descartes curvature of three tangent circles in closed form; its sign for Malfatti circles from the formulas of C43; circles and inversions as vectors of the (3,1) form, mirrors as half sums, so that regions are sent to regions by reflections; general gasket lemma (Lemmas/GasketFrame) shared with C97; scaling of the Malfatti circles by uniqueness of the numbers they are made of.
* **C107** Model the script functions with None for flat circumcircles and errors as values. Show that the contact points lie on the mirrors of the symmetric configuration moved by the inversion, so that the circumcircles are these mirrors, and reuse the packing theorem of the ring. For success: three distinct points of a circle are not collinear, three circles outside each other have no common point.
* **C108** Metric relations of the circles of the chain from the invariance of the product of two circles by inversion, strict for the pairs that do not touch. Tangent balls have exactly one common point (Stewart identity), discs as sections of balls. A bijection of the plane or of space carries closed chains to closed chains; regions from C47 and from C48_regions. Loops by the periodicity of the unit vectors.
* **C109** The columns of the matrix are an orthonormal frame (Lagrange identity); uniqueness by distances to three points and a volume. Flattened balls in the coordinates of the frame, tangencies from those of the circles (C101) and from tangent balls (Stewart identity). Finishing: bounds of the Malfatti circles of an almost equilateral triangle, and the exact condition C101_exact. Convexity: signs of the volumes, for all faces and vertices.
* **C110** integer coefficients of the curves with quadratic form 1; the five inversions are integral reflections; the product of two vectors is an integer, so it is 0, 1 in absolute value or at least 2; invert_circle and invert_line compute the reflection; the comparison of the script on the vectors is decided, then the list of 425 vectors is computed in the kernel
* **C111** Second model of the method with np.float as float. The sorted points go clockwise round a convex quadrilateral; rotation, shear and stretch give a frame in which the diagonals are the axes; ellipses through the points are a pencil x^2+2sxy+y^2-..., -1<s<1, whose squared area has a single critical point, the root of the cubic in (-1,1).
* **C112** Pencil of two conics: between two ellipses through the same boundary points with the same area there is one of smaller area (`Lemmas/EllipsePencil`). Induction over the recursion gives feasibility of every call and minimality of its result; the stopping cases are C73 (three points), C111 (four) and C79 (five).
* **C113** One theorem per test, giving the assertion for all inputs under explicit conditions, from the theorems of the other properties; after it an example with the numbers of the test, so that the model is also compared with the behaviour that the authors check. Found on the way: scale_circle and the affine map disagree (order of the semi-axes) exactly for scales below -1; from_equation and from_five_points need the centre nearer to the origin than sqrt(a^2+b^2) and the axes not along the bisectors (C66_geometric, C79_geometric).
* **C114** Model/FloatTransforms rounds every operation with fl. Props/FloatTransforms: each rounding is a factor (1 + d) with |d| <= 2^-53 plus an underflow term; the last addition is between doubles, where there is no underflow; points that are not np.allclose are at distance at least 1e-9, so the computed squared distance has relative error 6/2^53.
* **C115** integers of absolute value at most 2^53 are doubles, so sums, differences and products that stay below are exact; the only rounding is that of the final division; approx_equal compared with 1/2^26 decides equality of integers
* **C116** the discriminants are integers below 2^53, hence computed exactly, and an integer is 0 or at least 1 in absolute value; the two points need one square root, two products, a sum, a division and a translation, whose errors are bounded one after the other
* **C117** numerators and denominator of the barycentric coordinates are exact integers; the quotients keep their signs, and 1 - s - t is at least 1/D when not zero, more than the roundings; for is_acute the squares of rounded roots are within N/2^51 of the integers N, which differ by at least two in the comparison when there is no right angle
* **C118** a type of floats with nan and infinities and the IEEE 754 operations; bounds by powers of two propagated through each operation show agreement; nan propagates by case analysis; a square of a number at least 2^512 overflows
* **C119** each check is stated on the functions the script calls and derived from the property of those functions (C09, C12, C29, C36, C61, C63, C75); the example after each theorem is the script's own computation
* **C120** Model/FloatLines rounds every operation. Differences and products of the integers are exact, so includes and line_line_intersection_ decide as without rounding (C90, C115); the dot product of AB with the vector to the foot is a non-zero integer, so the rounding of the foot is small relative to the tolerance of collinear_; the distance of a point off the line times |AB| is at least 1, so the point is not np.allclose to its projection; the counterexamples evaluate the rounding at one exponent
* **C121** Spec/Uniform defines the laws with the Lebesgue measure of Mathlib. The triangle is an affine image of the unit triangle, and the map (u, v) -> (1 - sqrt v, u sqrt v) is handled by Fubini and a substitution; the disc by polar coordinates; ellipses by the affine change of variables given by the Cholesky factor; the edges by cutting [0, perimeter) into three intervals. The length question on ellipses compares the speed near the two axes.
* **C122** model Verif/Model/FloatConstruct; relative error of the distance (C88) and of the squared distance (C114) against the tolerance of math.isclose; exact midpoint on integers; concrete evaluation of the two counterexamples
* **C123** model Verif/Model/IeeeMore over the IEEE values of Verif/Model/Ieee; agreement from the exponent bounds of C118, the rest by computing with inf and nan
* **C124** model Verif/Model/TriangularCircular; C101 for the triangular part, C107 for the circular parts, discs inside the Malfatti circles; bounds on the Malfatti radii of triangles with sides between m and 1.2 m for the values of the scripts
* **C125** model Verif/Model/FloatRadical; the integer operations are exact (Lemmas/FloatInt), the remaining ones are bounded by fl_factor; counterexamples evaluated by fl_eval
* **C126** Integer sums and products up to 2^53 are exact (induction on the evaluation of a sum of products for np.matmul, strong induction on the exponent for np.linalg.matrix_power); relative error of Smith's quotient from the relative error of one rounding; the pole from the exact evaluation of the quotient by a power of two, and of 49 * (1/49).
* **C127** Relative errors through the lengths, the half perimeter, the three differences (bounded below because twice the area is a nonzero integer), the product, the root and the quotient; the center as a quotient of weighted sums; flat triangles evaluated bit by bit.
* **C128** Polar form of the chords of the unit circle, carried to ellipses by affinity; the cross product of three points of an ellipse as a product of three sines; the area by telescoping.
* **C129** Verif/Props/SteinerFoci.lean: C129_foci (explicit inner circle from the inversion, converse of the focal description of the ellipse), C129_shift, C129_drawing (with C128); concrete cases: six circles with a rational inner circle, the period 3 of the animations, the script SteinerChainWithEllipse with its window.
* **C130** Exact squares (Lemmas/FloatInt); error of the LU factorisation with partial pivoting, multipliers bounded by 1; the sum of the logarithms loses at most a relative 2^-38 in the exponential; quotient of two perturbed determinants, the denominator being a nonzero integer; radius by C88.
* **C131** Error of the elimination with a multiplier of absolute value at most 1; the second pivot is D/p up to 7B/2^53 and at least 1/B, so its relative error is small; the two substitutions by one lemma for the three right-hand sides; the counterexample evaluated bit by bit.
* **C132** A bound for sums of products evaluated in any order (induction over DotEval); the inverse by C131; each entry of the product by one lemma; collinear_ is exact on these integers (C90).
* **C133** Relative errors of the two lengths and of the two divisions (lemmas of C127); a gap between |cos| and 1 from the integer cross product; a Lipschitz bound for arccos with factor pi/sin; the sum from C37.
* **C134** Relative error of each weight (lemmas of C127 and C133), the sum of the two weights is the length of the side, so the cancellation of an obtuse angle is bounded by the lengths of the other sides.
* **C135** Ravi substitution; the smallest of the three factors is bounded from below by the integer area; one lemma for the sum of three signed terms serves numerators and denominators; the radius through the relative errors of C127.
* **C136** Error terms relative to a magnitude bound, composed operation by operation; the exact cosine of crossing integer circles stays 1/(2 B^2) away from -1 and 1, more than the rounding error; then the bound for acos of C133.
* **C137** Normal form modulo pi with integer coefficients; directions of different lines differ by 1/3200, distances of parallel lines by 1/2280; the rounding errors are far below and the tolerances of isclose and allclose far above the errors and below the gaps.
* **C138** Error terms relative to a magnitude (C136); orthogonality and incidence follow from cos^2 + sin^2 = 1 for the exact half angle; the counterexample by exact evaluation with twenty digits of pi.
* **C139** Error terms relative to a magnitude (C136), one per operation of the method; the exact value of the equation is (a b)^2 times the normalised one (C64); exact integer arithmetic below 2^53 for angle zero; the counterexample by exact evaluation.
* **C140** Error terms relative to a magnitude, one per operation (C136, C139); the exact point is that of C62.
* **C141** Error terms relative to a magnitude, one per operation (C136, C139); membership from the equation near a point of the ellipse.
* **C142** Absolute errors of the angles, then C136 error terms for the points; the counterexample by evaluation of the roundings.
* **C143** Gap of square roots of integers for the branches, half and quarter integers for equal radii, error terms (C127, C136) for the pole and the power.
* **C144** Integers and multiples of 2^-26 are exact, so the branches are the same; pole and power as in C143; a lower bound of the power for the square root.
* **C145** Error of the radical center (C125), error terms for the power, and 4 d^2 times the power is an integer.
* **C146** Gaussian integers are exact; an error bound of Smith's division as CPython does it, then the product and the second division.
* **C147** Integers are exact (C126_compose); the double inverse through C28 and the error of transform through C126.

## Where each property stands

Files are in `lean/Verif/Props/`. A partial property has its full statement in `properties.jsonl`, what is missing in the note, and counterexample theorems where the code does not satisfy it.

* **C01** partial (PyVal.lean). Proved for the checks, 11 constructors and the methods and functions that take points: exactly the tuples, lists and 1-d arrays of two real numbers are accepted, everything else is a ValueError. The claim fails for numpy complex scalars other than complex128, and for the methods that take a point or a matrix (numeric strings and None are converted): counterexamples proved. inf is accepted by three methods, as documented.
* **C02** partial (Reach.lean). Proved by induction over every finite sequence of 50 API operations, when the computations are finite. The claim fails for nan: Circle((0,0), nan) is accepted (counterexample proved).
* **C03** proved (Line.lean). normal form of every valid line
* **C04** partial (Line.lean, LineExact.lean). Completeness proved. The full claim is false: a line off the origin and its mirror image through the origin are reported equal (C04_symmetric_lines_counterexample, C04_is_equal_unsound). C04_exact shows that this is the only failure: when the answer is True, the first line or its mirror image through the origin is the second line up to the tolerances.
* **C05** proved (Line.lean). exact characterisation of includes with default flags
* **C06** proved (Line.lean). all four flag combinations, away from the end points as stated; the origin of a half-line is excluded by the code (C06_halfline_origin_excluded)
* **C07** proved (Line.lean). foot of the perpendicular, minimal distance attained
* **C08** proved (Line.lean). result characterised and failures characterised in both branches
* **C09** partial (Exact.lean, Line.lean). Every returned point is the mirror image; isometry. The exact set of points where the call returns the mirror image, and the exact set where reflecting twice gives the point back, are proved (C09_exact, C09_involution_exact). The full claim is false: the image can be np.allclose to a defining point and is then not reflected back (C09_involution_counterexample), and points very near the line raise ValueError (C09_reflection_raises_counterexample).
* **C10** partial (Exact.lean, Transforms.lean). as_affine is the exact mirror map; reflect_circle and reflect_line give the image for points that are not allclose to a defining point of the axis while being off it. C10_exact: transform agrees with as_affine exactly at the points of the axis and at the points that are allclose neither to a defining point nor to their foot on the axis. C10_near_counterexample refutes the full claim.
* **C11** partial (Exact5.lean, Transforms.lean). rotate, isometry, group laws, as_affine, rotate_circle, rotate_ellipse in full, Line.rotate = rotate_line; rotate_line gives the image of the line iff the images of the defining points are not np.allclose, and raises ValueError otherwise (C11_exact); it can raise because allclose is not rotation invariant (C11_rotate_line_raises_counterexample)
* **C12** proved (Line.lean). soundness, uniqueness and exact None condition; strict=True always gives None (unfinished code); note that crossing lines given by close points are reported parallel (C12_short_lines_counterexample)
* **C13** proved (Line.lean). completeness and the bound by tolerance over lengths; the bound is weak for short defining vectors (C13_short_lines_counterexample)
* **C14** proved (Circle.lean). contains/power as exact statements; includes within the code tolerance; point_from_angle on the circle
* **C15** proved (Circle.lean). 
* **C16** partial (Circle.lean, Exact5.lean). Soundness, and the exact condition for a result (C16_exact): not collinear centers do not suffice when a radical axis object is rejected as np.allclose (C16_close_centers_counterexample)
* **C17** proved (Circle.lean). 
* **C18** partial (Circle2.lean, Exact2.lean). Every returned circle (arc) passes through the points and is orthogonal. Rejection of non-interior points is false because the code compares the distance with r*r: counterexamples in both directions, proved for radius at most 1, and C18_exact gives the exact set of rejected points.
* **C19** proved (Circle.lean). 
* **C20** proved (Circle.lean). with an extra theorem: in the tolerance band the call raises ValueError
* **C21** proved (Circle.lean, Exact6.lean). With a counterexample showing that the single point may be off the circle for near tangent lines, and C21_one_exact: the single point is on the circle exactly when it is the only common point.
* **C22** proved (Circle2.lean). plus totality; concentric circles with close radii are reported as touching (C22_concentric_counterexample)
* **C23** partial (Circle2.lean, Exact3.lean). Proved for circles with 4*r1*r2 at least 2^-26 and, when congruent, with centers equal or not np.allclose; C23_exact gives the exact pairs for which every returned object exchanges the circles; false for tiny nested circles (counterexample).
* **C24** partial (Exact.lean, Inversion.lean). All clauses proved except that inverting twice needs the image not to be np.allclose to the pole; C24_exact gives the exact set of points where inverting twice is the identity; C24_involution_counterexample refutes the full claim.
* **C25** partial (Exact.lean, Inversion.lean). Image of every circle beyond the tolerance or exactly through the pole; C25_exact: a returned generalised circle is the image exactly in these two cases. Inverting twice proved when the image is again beyond the tolerance. A pole nearly on the circle gives a wrong line (C25_near_pole_counterexample).
* **C26** partial (Exact.lean, InvLine.lean). Proved for lines through the pole and for lines none of whose defining points is np.allclose to the pole; C26_exact: the image is returned exactly in these cases. Otherwise the line is wrongly returned unchanged (C26_near_pole_counterexample) or rejected because np.allclose is not symmetric (C26_raises_counterexample).
* **C27** partial (Inversion.lean). the claim is false: isinstance is called with a string, so invert_gcircle always raises TypeError (C27_invert_gcircle_counterexample)
* **C28** partial (Exact.lean, InvCompose.lean). Proved for the exact inverses of every point including inf, in both orders, with nonzero determinant (C28_compose). Against the code's invert, which sends every point np.allclose to the pole to inf, C28_exact gives the exact set of points where the composition agrees; refuted elsewhere (C28_near_pole_counterexample).
* **C29** proved (Inversion.lean). the sign statement concerns two distinct circles; for the same circle twice see C29_equal_circles_counterexample; congruent tangent circles give None
* **C30** proved (Inversion.lean). 
* **C31** partial (EllipticalChains.lean, Exact4.lean, Steiner.lean). Proved for all n >= 3, |phi| < 1 and every shift; C31_exact gives the exact condition: the chain is returned and correct iff phi = 0 or the pole of the inversion has power larger than the code's tolerance with respect to the circles of the regular chain. Without it the claim is false (C31_small_circle_counterexample: radius 1e-5, phi = 1/2 raises). n <= 2 gives ValueError.
* **C32** partial (Exact4.lean, Steiner.lean). Proved under the exact condition of C31 for the chain to be returned (C32_exact).
* **C33** proved (Triangle.lean). plus C33_flatness_raises: ZeroDivisionError when B or C equals A
* **C34** partial (Triangle.lean). the signs are opposite to the documentation: counterclockwise gives -1 (C34_orientation_counterexample); the reversed statement is proved
* **C35** proved (Triangle.lean). 
* **C36** partial (Exact2.lean, Triangle.lean). is_acute is proved to mean that no angle is obtuse; C36_exact: the claim fails exactly for triangles with a right angle and no obtuse one (C36_right_triangle_counterexample).
* **C37** proved (Triangle.lean). 
* **C38** partial (Exact5.lean, Triangle.lean). C38_exact: the inscribed circle is returned iff the triangle is not flat; ValueError iff it is flat and its vertices are not all equal; for three equal vertices the code builds a circle with nan radius (C38_point_triangle_counterexample)
* **C39** proved (Triangle.lean). 
* **C40** proved (Triangle.lean). 
* **C41** proved (Triangle.lean). for all triples of distinct vertices
* **C42** proved (Triangle.lean). 
* **C43** proved (Malfatti.lean). the Malfatti configuration for every non-flat triangle, with the three discs inside the triangle; None for flat triangles
* **C44** partial (Exact5.lean, SteinerEllipse.lean). C44_exact: for triangles whose vertices are not collinear both ellipses are returned and correct iff no two vertices are np.allclose; otherwise both methods raise AttributeError (C44_tiny_triangle_counterexample). Flat triangles give None.
* **C45** proved (Affine.lean). Composition in both orders, associativity, inverse exactly for bijective maps (det != 0), on both sides.
* **C46** proved (Affine.lean). None exactly for a collinear or np.allclose triple; otherwise an invertible map sending each point to its image, unique among affine maps.
* **C47** partial (Affine.lean, Exact5.lean). transform_ellipse is proved in full (never fails, image of the curve, the region and the center, None for singular maps). transform_line is the image iff the images of the two defining points are not np.allclose (C47_exact); otherwise it raises (C47_transform_line_counterexample).
* **C48** proved (Affine.lean, EllipticalChains.lean). The map is a bijection of the plane mapping the first curve onto the second one; the call never fails.
* **C49** proved (Mobius.lean). Proved against the projective definition of a homography on the plane with inf.
* **C50** proved (Mobius.lean). The iterate is the power of the permutation of the plane with inf. Non-integer exponents raise ValueError.
* **C51** partial (Exact4.lean, MobiusPower.lean). C51_exact: gpower is a one-parameter group agreeing with power at the integers iff |tr^2-4det| >= sepsilon_ (np.linalg.eig by contract), or tr^2 = 4 det with a matrix that is scalar or not np.allclose to a scalar one. Refuted otherwise: z/1.0001 raises LinAlgError, the translation by 1e-9 is taken for the identity.
* **C52** partial (Exact2.lean, MobiusFixed.lean). C52_exact: the fixed points are returned exactly when c = 0 and a = d, or c != 0 and the discriminant is a nonnegative real. Refuted otherwise: inf is missing when c = 0 and a != d; wrong square root for a non-real discriminant; math domain error for a negative real part.
* **C53** partial (MobiusCircle.lean, MobiusCircleExact.lean). Pole not on the circle: proved in full (C53_circle). Pole on the circle: every returned line is the image (C53_line_partial). C53_exact: the loop runs forever exactly when every point of the circle is allclose to the pole, and ValueError is raised exactly when the two image points are allclose; both happen (counterexamples).
* **C54** partial (Exact3.lean, MobiusLine.lean). C54_exact: a returned value is the image exactly when every pole is on the line or beyond the tolerance from it; refuted for a pole in between (C54_scale_counterexample) and for image points that are allclose, which raise (C54_raises_counterexample).
* **C55** partial (Exact5.lean, Mobius.lean). None iff points coincide; a correct transformation is returned iff the points are finite and distinct (C55_exact). With inf among the points the code's arithmetic on inf does not give a usable transformation (C55_inf_counterexample).
* **C56** proved (Mobius.lean). Also an exact image: a point is on the first circle iff its image is on the second.
* **C57** proved (Mobius.lean). 
* **C58** proved (Farey.lean). 
* **C59** partial (Exact.lean, Projection.lean). project, as_affine and agreement with Line.projection proved for points that are not allclose to a defining point of D while being off it; C59_exact: project returns the projection exactly at these points and at the points of D. Idempotence and the constructor unconditional; counterexamples for the excluded points (C59_near_counterexample, C59_as_affine_counterexample) and for very short lines with Delta=None.
* **C60** partial (Exact2.lean, Transforms2.lean). Determinant 1 and agreement of transform and as_affine proved; C60_exact: the vertex is fixed exactly when it is the origin or the angle is zero (the linear part of the code is the transpose of the right one, C60_vertex_counterexample).
* **C61** proved (Transforms2.lean). every center, factor, point, circle; inverses for nonzero factors
* **C62** proved (Transforms2.lean). nonzero direction: transform, center, as_affine, scale_circle as image set; scale 0 and zero direction characterised
* **C63** partial (Transforms2.lean). row by row and rejection proved for Rotation, Shear, ScalingXY, Homothety, Scaling; for Affine row by row and rejection of wrong shapes in dimension at most 2; three dimensional arrays are accepted by Affine.transform (C63_affine_counterexample)
* **C64** proved (Ellipse.lean). Sign of the equation, contains, path, point_from_angle and includes; includes also accepts other points (tolerance bound and counterexample given).
* **C65** partial (Ellipse.lean, EllipseMatrixExact.lean). Shape matrix, reconstruction for every symmetric positive definite matrix, rejection of the other symmetric matrices, for every result of eigh meeting its contract. Matrices that are not symmetric are not rejected (C65_not_symmetric_counterexample); C65_exact gives the result for every matrix: the ellipse of the lower triangle, right exactly when the matrix is symmetric.
* **C66** partial (Ellipse2.lean, Exact2.lean, TestSuite3.lean). C66_exact: a returned ellipse is the zero set of the equation exactly when A != C or B = 0. C66_accepts_exact: an ellipse is returned exactly for the equations of ellipses passing the third guard. The claim fails for A = C, B != 0 and for ellipses such as the circle of center (3,0) and radius 1, which the guard D*D+E*E <= 4(A+C)F rejects: both counterexamples are proved. In terms of the ellipse (C66_geometric): accepted iff the squared distance of the center to the origin is less than the sum of the squared semi-axes, and recovered iff it is a circle or its axes are not at 45 degrees.
* **C67** proved (FivePoints.lean). Coefficients are returned exactly for five distinct points of an ellipse, vanish at them and are a non-zero multiple of its equation; otherwise ValueError.
* **C68** partial (Ellipse.lean, Exact5.lean). normal is proved in full; a diameter is returned and correct iff its endpoints are not np.allclose (C68_exact), the conjugate diameters whenever they are returned; they raise for tiny ellipses (C68_tiny_ellipse_counterexample).
* **C69** partial (EllipseAngle.lean, Exact2.lean). C69_exact: for angles other than pi the eccentric angle is right exactly when the representative in [0, 2pi) is not 0 and not in (pi, pi+sepsilon_). The claim fails at 0 (ZeroDivisionError) and just above pi (opposite point): both counterexamples are proved. At pi itself the exact model differs from floats, whose tangent of pi is not 0.
* **C70** proved (Affine.lean, Exact6.lean). None and two points are exact, for every ellipse and line. Beyond the statement: a single point is on the line, and it is on the curve exactly when it is the only common point (C70_exact); a near tangent line may give a point off the curve (counterexample); the call raises exactly when the preimages of the points defining the line are np.allclose (counterexample).
* **C71** proved (EllipseAngle.lean). 
* **C72** partial (Exact5.lean, Random.lean, UniformLength.lean). For every draw of the generator: points of circles and ellipses are correct iff no normal vector drawn is zero (C72_circle_exact, C72_ellipse_exact), points of the boundary of a triangle iff A and B differ or no number drawn is zero (C72_triangle_exact), points of the closed triangle always. Both kinds of failure are shown by counterexamples. When the normal vectors have their law, all the points of circles and ellipses are correct with probability one (C72_almost_surely).
* **C73** partial (Boundary.lean). from_boundary3 is proved (eigh by contract); minimality of its area is C80. from_boundary4 raises on every input (np.float does not exist in the locked numpy): proved.
* **C74** partial (Boundary.lean, LownerJohn.lean). Every returned ellipse contains all the points and passes through three of them, for every random schedule; three non-collinear points always give an ellipse; minimality of the area is C80. Four points in general position: an ellipse is returned exactly when one point is in the circumscribed Steiner ellipse of the three others, whatever the schedule (C74_four_points). The full claim is false: the function raises on the vertices of every parallelogram, and with a point on an edge or a repeated point it depends on the random choices whether it raises (C74_schedule_counterexample).
* **C75** partial (Equality.lean). Reflexivity is proved for all three classes. Symmetry is proved where the comparison is symmetric (equal or comparable coordinates) and is false in general because numpy.allclose is asymmetric: counterexamples proved for all three classes. Soundness bounds are proved for circles and ellipses.
* **C76** partial (Heap.lean). The claim is false: objects alias float arrays given by the caller, point_from_angle modifies its argument, invert(inf) returns the pole itself (counterexamples proved). Proved for every history when the arguments are tuples, lists or integer arrays.
* **C77** partial (EllipseAngle.lean, Equality.lean, Exact6.lean). Proved for non-circular ellipses with rminor < rmajor; C77_exact gives the exact condition under which two ellipses with the same points are reported equal: same rmajor for a non-circle, close angles for a circle. The claim as stated fails for circles given as ellipses and swapped semi-axes: both counterexamples are proved. C77_sound bounds the difference of the ellipses reported equal.
* **C78** partial (EllipseAngle.lean, Exact2.lean). C78_exact: for angles other than pi the point is in the right direction exactly when the representative in [0, 2pi) is not in (pi, pi+sepsilon_); counterexample proved. At pi itself the exact model differs from floats, whose tangent of pi is not 0.
* **C79** partial (Exact3.lean, FivePoints.lean, TestSuite3.lean). C79_exact: an ellipse is returned exactly when the third guard of from_equation passes, and it is the right one exactly when A != C or B = 0 in its equation; the remaining cases fail as in C66. In terms of the ellipse (C79_geometric): accepted iff the squared distance of the center to the origin is less than the sum of the squared semi-axes, and recovered iff it is a circle or its axes are not at 45 degrees.
* **C80** proved (Minimal.lean). Minimal area, uniqueness and independence of the random schedule, for all inputs; eigh by contract.
* **C81** proved (SteinerExtremal.lean). Containment, extremal area and uniqueness for both ellipses, for all triangles that pass the guards of AffineMappingThreePoints.
* **C82** proved (ArcInside.lean). The arc is exactly the inside part of the orthogonal circle, for all circles and angles; the sampled path stays in the closed disk.
* **C83** partial (ArcInside.lean). The arc stays inside exactly when its angle is less than pi; the code does not ensure it (unit circle, (-1/2, 1/2) and (-1/2, -1/2): the arc leaves the disk, proved).
* **C84** partial (PyVal2.lean). The full statement is false: nan is accepted as a radius and as an angle (C84_nan_counterexample), and a Decimal angle given in degrees raises TypeError in point_from_angle and Line.rotate (C84_decimal_counterexample). Proved: with nan allowed, every constructor and method returns exactly for the numbers, positive numbers, angles in range, Booleans and counts it should accept. complex64 scalars are outside the statement.
* **C85** proved (TriangleIdent.lean). Edges, Euler's relations, relations between radii, edges and area, law of sines, for every non-degenerate triangle.
* **C86** proved (TriangleIdent.lean). Stated for non-degenerate triangles without a right angle: with a right angle the orthic triangle degenerates.
* **C87** partial (Show.lean). Proved: show prints the points of a line and a last sentence describing the set decided by includes; the text of lines, circles, ellipses, inversions and transformations determines the object; Triangle.show says flat exactly for flat triangles when B and C differ from A; the message of includes is true for points not close to the end points. False parts (counterexamples): Projection.show raises AttributeError on every projection; Triangle.show raises when B or C equals A; the origin of a half-line is said not to be on it.
* **C88** proved (FloatGeom.lean). Rounding function with ties to even and gradual underflow, no overflow; every fused or unfused evaluation of ddot. Assumes only that the coordinates and the radius are doubles.
* **C89** proved (FloatTriangle.lean). The bound is explicit; C89_orientation_counterexample shows a triangle that is not flat with orientation 0 in doubles, so the restriction is needed.
* **C90** proved (FloatFlat.lean). For collinear_ no restriction on the points; for flatness the product of the squared edges is at least 2^-800 (no underflow). C90_flatness_counterexample shows that exact collinearity is not decided.
* **C91** proved (FloatIncludes.lean). Cosine and sine by contract (error at most 2^-52). C91_includes_counterexample: center (2^60, 0) and radius 1, so a bound on the center is needed.
* **C92** partial (Methods.lean). Proved for every method: None means no common point, a pair is exactly the set of common points, a tangent line or circle gives the point of contact; Line.invert under the exact condition of C26; images by rotations and reflections under the exact conditions of C10 and C11. Missing, because false: a single returned point need not be on the curve for near-tangent lines (C21_near_tangent_counterexample), and strict=True always gives None (proved in C92_line_line).
* **C93** proved (Methods.lean). Proved for all circles of positive radius, with the exact tolerance condition; a counterexample shows that small circles are always reported orthogonal.
* **C94** proved (Billiard.lean). For the table of the script (centre at the origin, alpha = 0) and every list the function returns. A start from the lower end of a chord raises: C94_lower_start_counterexample.
* **C95** proved (Conformal.lean). For the pairs of circles whose images are circles (the pole on neither).
* **C96** proved (UniqueWith.lean). 
* **C97** proved (Gasket.lean). The mirrors must not be tiny (power at least 2^-26, the tolerance of invert_circle).
* **C98** partial (Translate.lean). The translate is right whenever the method returns (C98_translate_partial) and C98_exact states exactly when it raises; missing for the full claim: a valid line cannot be translated far away (C98_translate_counterexample), because the constructor compares the end points with np.allclose. Compositions and Reflection.__init__ are proved in full.
* **C99** partial (Apollonian.lean). C99_apollonian_partial: for every outer circle, n >= 3, shift and phi between -1 and 1, when the first lines succeed, powers are at least 2^-26 and (only for larger phi) the poles are not within 2^-13 of the outer circle, the drawing is a packing at every depth, with the exact number of circles and three contacts per circle. C99_start_iff: the first lines succeed exactly when no mirror is a line, with the explicit condition on the angles, under a size condition for the tolerances; without it this is false (C99_small_counterexample: outer radius 1e-5, phi = 1/2, n = 3). C99_powers: the powers of the inversions in closed form. C99_start: a range of phi for which no mirror is a line whatever the shift; C99_flat: that range is the best one. The constants of the script and a larger phi are checked in examples.
* **C100** partial (GasketMobius.lean). C100_mobius, C100_mobius_error, C100_group, C100_fixed, C100_frame, C100_period, C100_images are complete. C100_animation_partial has the hypotheses of C99_apollonian_partial on the powers and the poles of the inversions, and any phi between -1 and 1.
* **C101** proved (IcosahedralRun.lean, TriangularCircular.lean, TriangularGasket.lean, TriangularGasketExact.lean, TriangularGasketRun.lean). C101_gasket: every run that finishes, for every triangle that is not flat and every depth. C101_exact: it finishes if and only if the lines in the three corners are accepted by the tests with tolerance, at each level. C101_error: the other steps never fail. C101_deep_counterexample: for every triangle the script fails when the depth is large. C101_finishes: no depth is out of reach. C101_flat: TypeError.
* **C102** proved (ModularTessellation.lean). Script and animation as functions; exact set of circles for n >= 2, n = 1 and n < 1 separately; disjointness and exact tangency between circles; invariance of the frames under the in-place changes. np.linalg.eig enters through its contract (IsEig), which is shown satisfiable. Drawing itself (matplotlib) is not modelled.
* **C103** proved (ThreeTangent.lean). The script as a function of the three circles and of the angle. Soundness without hypotheses, completeness for circles of different radii none inside the other, success on the data of the script, and the case of aligned centers as a counterexample to success.
* **C104** partial (HyperbolicTesselation.lean). The claim is false for the scripts as written: the first points are on the unit circle while circ has radius 3 (C104_script_counterexample: all three angles of the first depth differ from those of the reflected vertices; C104_same_angle: for every circle, angles and radius rho the angle is right only if rho is the radius or the point is in line with centre and pole). With the points on circ the claim holds at every depth (C104_corrected) when no pole is within about 1e-4 relative of the circle, where numpy.allclose would take a point for the pole.
* **C105** partial (Schottky.lean, SchottkyWords.lean). False for the script as written: compose without left=False applies the first letter first, and a circle of generation n is drawn exactly when its word is cyclically reduced (C105_exact); 3^(n-1)-2+(-1)^(n-1) circles are missing, 240 of 972 for n = 6 (C105_missing, C105_script_counterexample), and circles of generation n-1 are drawn instead (C105_drawn). With left=False every word gets its circle (C105_corrected). Proved as stated: the words (C105_words), the four curves (C105_data), the exchange (C105_action), different circles with disjoint or nested insides (C105_generations), the twelve circles of the second generation (C105_second). Not covered: angles for which the circles Cb and CB meet.
* **C106** partial (MalfattiApollonian.lean). The outer circle is right for every non-flat triangle (C106_outer, C106_malfatti) and the drawn triangle is the scaled one (C106_normalised). The packing at every depth is proved when the Malfatti radii are at least 1/60 of the outer radius and no two of them add up to it (C106_script_partial), and for any triangle under a condition on the poles (C106_packing_partial). False for every triangle: when two Malfatti radii add up to the outer radius a mirror is a line and drawGasket raises (C106_flat, concrete triangle in C106_counterexample). Not settled: Malfatti circles smaller than 1/60 of the outer radius, where the tolerances of the library come in.
* **C107** partial (CircularGasket.lean). The packing at every depth is proved for every phi between -1 and 1 when the starting circles and mirrors exist and the powers are above the tolerance (C107_gasket_partial), and the whole function drawCircularGasket without such hypotheses for the phi that allow no flat mirror (C107_draw). Existence is an exact condition (C107_start_iff), given that the pole is not within the tolerances of the outer circle; without this it is false (C107_small_counterexample: outer radius 1e-5, phi = 1/2, any n and shift). C107_same compares with ApollonianGasket.py and C107_errors gives the errors.
* **C108** proved (EllipticalChains.lean). C108_elliptical, C108_nested and C108_elliptical_nested give the exact condition for success and the shape of the drawing; C108_condition a simple sufficient condition that holds for all shifts; C108_sphere and C108_spheres are about the scripts in space, C108_loop and C108_turn about the animations. C48_regions and C31_radii were added for them.
* **C109** proved (IcosahedralGasket.lean, Icosahedron.lean). IcosahedralFrame.lean, IcosahedralGasket.lean, IcosahedralRun.lean, Icosahedron.lean. C109_frame and C109_flat are about transfoMatrix, C109_face about the surfaces on a face (any result of the script), C109_finishes and C109_script about the runs that finish; C109_regular_counterexample: with the rounded golden number the faces are not exactly equilateral. The factor of sphere.scale is a parameter because it depends on the version of pyvista whether the scaling has an effect.
* **C110** partial (Inversions.lean). The generations (C110_generations), the positions of two curves (C110_meet), the starting circles and the first radii (C110_circles, C110_large) are as stated. The last sentence is false for the script: Line.is_equal takes a line for its image by the central symmetry about the origin, so unique_with drops six of the twelve lines, among them the sides x = -2 and y = -2 of the square in the picture (C110_script_counterexample); C110_exact says that these six lines are exactly what is missing, C110_script what is drawn (155 different curves, never with a later generation). Generations after circles of radius 1/10000 or less are not covered.
* **C111** proved (Boundary4.lean). The method is modelled with np.float read as float; with the locked numpy it raises before these lines (C73_boundary4_counterexample). np.argsort, np.roots and np.linalg.eigh by contract; the contracts are shown to be satisfiable (Boundary4.exists_env).
* **C112** partial (LownerJohn4.lean). Proved for every number of points when the ellipses through five of the points are accepted by the third guard of from_equation and do not have their axes at 45 degrees (C112_lownerJohn_partial), without this proviso for four points (C112_four_points), and with ValueError as the only other outcome when only the 45 degrees are excluded (C112_returns_or_raises). False without the proviso: for every schedule ValueError is raised for five points of a circle (C112_far_counterexample), and an ellipse that does not contain the points is returned for five points of an ellipse at 45 degrees (C112_diagonal_counterexample). Three points of a line: C112_collinear_counterexample.
* **C113** proved (TestSuite.lean, TestSuite2.lean, TestSuite3.lean). One theorem for each test of the project, for all inputs under explicit conditions, each followed by an example with the values of the test (all of tests/ except the version string, which is outside the model). The condition of a clear crossing or of centres that is_equal separates is in the statement where the tolerances of the code make it necessary. C113_scale_circle is an equivalence: scale_circle agrees with the affine map exactly for scales above -1.
* **C114** proved (FloatTransforms.lean). Overflow is not modelled. C114_invert, C114_affine, C114_rotate, C114_scalingXY and C114_homothety are the error bounds; C114_affine_int, C114_rotate_center, C114_scalingXY_center and C114_homothety_exact the exact cases; C114_homothety_center_counterexample is the center that is not fixed.
* **C115** proved (FloatLines.lean). C115_line_line, C115_is_parallel and C115_is_perpendicular; C115_parallel_counterexample and C115_far_counterexample show that a bound on the integers is needed. Double-precision model: Model/FloatDecide.
* **C116** proved (FloatCircleLine.lean, FloatCircles.lean). C116_contains, C116_includes, C116_is_orthogonal (bound needed: C116_orthogonal_counterexample), C116_circle_circle (kind of answer only, the coordinates of the points are not bounded there) and C116_circle_line (kind of answer and coordinates).
* **C117** proved (FloatTriangles.lean). C117_contains (C117_edge_counterexample: a point of the edge BC is accepted) and C117_is_acute (C117_right_counterexample: both answers occur for right triangles). Flat triangles: the division by zero gives infinities or nan, for which the answer is False, as in the model.
* **C118** proved (Ieee.lean). C118_circle_agrees, C118_constructors_agree, C118_line_agrees, C118_orientation_agrees (part 1: overflow may be ignored below the bounds, which covers the hypotheses of C115-C117), C118_nan_circle, C118_nan_line, C118_nan_orientation (part 2), C118_large_radius, C118_infinite_radius, C118_large_line, C118_overflow_counterexample (part 3). The sign of zero is not modelled; no division by zero occurs in these functions.
* **C119** proved (Example1.lean). One theorem per check of the script, each followed by the script's own values. The checks after the calls that need np.float; the header says where the script stops. C119_reflection has the tolerance conditions of C09 as hypotheses.
* **C120** proved (FloatReflection.lean). Overflow is not modelled (the bounds are far below). C120_includes, C120_includes_line, C120_projection, C120_projection_included, C120_distance, C120_reflection; C120_projection_counterexample and C120_reflection_counterexample show that the last two bounds cannot be dropped.
* **C121** proved (Uniform.lean, UniformLength.lean). Laws of the generator are hypotheses (pseudo-randomness and rounding are not modelled). where="on" for ellipses is uniform in the eccentric angle; C121_ellipse_on_length_exact shows it is uniform for the length only on circles.
* **C122** proved (FloatConstruct.lean). All statements proved in Props/FloatConstruct for the double-precision model without overflow; the two limits are counterexamples evaluated exactly.
* **C123** proved (IeeeMore.lean). All theorems are about the IEEE model Model/IeeeMore (finite values, two infinities, nan; the sign of zero only as a parameter of divisions by zero). The cases where overflow gives a wrong answer are the theorems with suffix _counterexample.
* **C124** proved (TriangularCircular.lean). C124_picture for all triangles; its hypotheses (the drawing of the triangular gasket and Fits) are settled exactly in C101 and C107 and proved for the values of the scripts in C124_script.
* **C125** proved (FloatRadical.lean). Every operation is rounded; the data are integers in the stated ranges, and two counterexample theorems show what happens beyond them. x**2 is modelled as one rounding of the square (exact here).
* **C126** proved (FloatMobius.lean, FloatMobiusPower.lean). Model Verif/Model/FloatMobius.lean: complex quotient by Smith's method with a reciprocal as in numpy, np.matmul as any function adding the real products in some order, fused or not. The exact behaviour at the pole is settled by C126_transform_pole (inf or division by zero), C126_transform_pole_pow and C126_transform_pole_counterexample. C126_power_bound: the powers are exact when the entries are at most B and (4B)^n is at most 2^25.
* **C127** proved (FloatIncircle.lean). Error bounds for all non-flat triangles with integer vertices up to 512; two flat triangles as counterexamples for the guard.
* **C128** proved (Drawing.lean). Complete for all ellipses and arcs.
* **C129** proved (SteinerFoci.lean). Under the exact condition on the pole of C31_exact (tiny circles are excluded by the tolerance of the code, see C31). The title of the script ("passes through the circle centers") holds for the circles of the chain and not for the inner circle.
* **C130** proved (FloatCircumcircle.lean). FloatCircumcircle.lean. np.linalg.det is modelled with partial pivoting, LAPACK variants as parameters and any logarithm and exponential accurate to one unit in the last place; integer vertices up to 1024. A counterexample shows that the guard of flat triangles also rejects some triangles of doubles that are not flat.
* **C131** proved (FloatAffine.lean). FloatAffine.lean. Integer matrices up to 2^20, any intercept. The guard det == 0 recognises every singular integer matrix whose pivot is a power of two; a counterexample theorem ([[49,49],[1,1]]) shows that it misses others.
* **C132** proved (FloatAffineMap.lean). FloatAffineMap.lean. Integer points up to 2^11; np.matmul may add the products in any order, fused or not.
* **C133** proved (FloatAngles.lean). For integer vertices up to 512; acos of the C library is a parameter with an error bound. Two counterexamples on flat triangles show that the hypothesis is needed.
* **C134** proved (FloatOrthic.lean). For integer vertices up to 512; the infinite value at a right angle is replaced by the zero weight it produces.
* **C135** proved (FloatExcircles.lean). For integer vertices up to 256; the counterexample shows what happens to flat triangles.
* **C136** proved (FloatCircleAngle.lean). The tangent case is decided by a counterexample: the method raises ValueError for two tangent circles with small integer data.
* **C137** proved (FloatLineEq.lean). The True answer for lines symmetric about the origin is part of the statement: it is the error shown in C04.
* **C138** proved (FloatOrthOn.lean). For opposite points the documented diameter is not always returned: counterexample with the angles 7*pi/4 and 7*pi/4 + pi.
* **C139** proved (FloatEllipse.lean). Every operation rounded; cos and sin of the library within 4/2^53 (for the integer theorem: exact at zero). The square x**2 is the rounded square.
* **C140** proved (FloatScaling.lean). Every operation rounded; atan2, cos and sin of the library within 4/2^53.
* **C141** proved (FloatEllipsePath.lean). Ellipse.path in double precision: each row is within 160 R/2^53 of the exact point, and accepted by includes in double precision for data up to 2. numpy functions N and math functions M are arbitrary within 4/2^53 of cos and sin. C139_counterexample shows that includes rejects points of large ellipses.
* **C142** proved (FloatArc.lean). Arc.path in double precision. C142_path gives the sweep and all rows, C142_ends the two ends; C142_counterexample is an arc whose path collapses to one point because its two angles in degrees become the same number of radians. Angles of more than one turn are not covered.
* **C143** proved (FloatSwap.lean). Inversion.from_swapping_two_circles in double precision, compared with the exact function (whose swapping property is proved separately): C143_equal is an equality, C143_unequal gives the same branches with error bounds on pole and power.
* **C144** proved (FloatMid.lean). Integer data up to 32 with different radii, up to 2^11 with equal radii; square roots, sums and quotients correctly rounded, np.vdot with any fusing.
* **C145** proved (FloatFixing.lean). Integer data up to 2^17, sign of the power up to 100; np.vdot with any fusing, different in radical_center and power. Touching circles are excluded from the claim about the sign, where the exact power is 0.
* **C146** proved (FloatCross.lean). Integer coordinates up to 2^25; complex division as in CPython (Smith's method), sums fused or not. np.unique on doubles is equality of the numbers. C146_decides: for coordinates up to 2^10 the computed value decides concyclicity, since an exact imaginary part that is not 0 is bounded below.
* **C147** proved (FloatInvCompose.lean). Integer data in the stated bounds; np.matmul is any function meeting the contract of C126. The claim about points is for left=True; the other order is the same call with exchanged inversions.
