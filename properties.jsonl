{"id": "C01", "title": "Point arguments are validated exactly", "statement": "A constructor or method that takes a point accepts an argument exactly when it is a tuple, a list or a one-dimensional array with exactly two entries that are both non-complex numbers; every other Python value (wrong length, matrix, string, None, complex entries, the float inf) is rejected with ValueError before any object is created.", "quantifier": "every Python value shape: scalars of every numeric kind, strings, None, tuples, lists, arrays of every length and dimension", "why_tests_cant": "the space of wrong-shaped arguments is unbounded", "anchors": ["planegeometry/internal.py: is_point_, is_vector_, is_number_, error_if_not_point_", "planegeometry/geometry.py: Line.__init__, Circle.__init__"]}
{"id": "C02", "title": "Class invariants over every call history", "statement": "Every Circle object obtained through the public constructors and through any chain of API operations (reflecting, rotating, inverting, intersecting, mid circles, homotheties, Moebius images...) has a strictly positive radius, and every Line object obtained this way has two defining points that are not np.allclose; an operation that would violate this raises ValueError instead of returning.", "quantifier": "every finite sequence of API operations, every argument", "why_tests_cant": "histories of operations are unbounded", "anchors": ["planegeometry/geometry.py: Circle.__init__, Line.__init__"]}
{"id": "C03", "title": "Line.direction_offset is the normal form of the line", "statement": "For every Line, direction_offset returns (direction, offset) with 0 <= direction < 2*pi and offset >= 0 such that a point (x, y) is on the infinite line AB iff cos(direction)*x + sin(direction)*y = offset.", "quantifier": "every line (vertical, horizontal, through the origin, generic) and every point", "why_tests_cant": "a test evaluates finitely many sample inputs; the claim ranges over a continuum of inputs and includes the branch boundaries that random samples never hit", "anchors": ["planegeometry/geometry.py: Line.direction_offset"]}
{"id": "C04", "title": "Line.is_equal recognises equal lines and only those", "statement": "If two Line objects describe the same infinite line then is_equal returns True; if is_equal returns True then the two lines are the same up to the float tolerances.", "quantifier": "every pair of lines", "why_tests_cant": "a test evaluates finitely many sample inputs; the claim ranges over a continuum of inputs and includes the branch boundaries that random samples never hit", "anchors": ["planegeometry/geometry.py: Line.is_equal, Line.direction_offset"]}
{"id": "C05", "title": "Line.includes decides membership in the infinite line", "statement": "With the default arguments, includes(M) is True iff M is on the infinite line through A and B or M is np.allclose to A or to B.", "quantifier": "every line and every point", "why_tests_cant": "a test evaluates finitely many sample inputs; the claim ranges over a continuum of inputs and includes the branch boundaries that random samples never hit", "anchors": ["planegeometry/geometry.py: Line.includes", "planegeometry/internal.py: collinear_"]}
{"id": "C06", "title": "Line.includes(strict=True) honours the extension flags", "statement": "With strict=True, includes(M) is True for a point M of (AB), not np.allclose to A or B, iff M lies on the segment, half-line or line that extendA and extendB describe.", "quantifier": "every line, every flag combination, every point", "why_tests_cant": "a test evaluates finitely many sample inputs; the claim ranges over a continuum of inputs and includes the branch boundaries that random samples never hit", "anchors": ["planegeometry/geometry.py: Line.includes"]}
{"id": "C07", "title": "Line.projection and Line.distance", "statement": "projection(M) always returns the foot of the perpendicular from M: a point of the infinite line with M - foot orthogonal to the direction; distance(M) is the minimum of the distances from M to the points of the line and is attained.", "quantifier": "every line and every point", "why_tests_cant": "a test evaluates finitely many sample inputs; the claim ranges over a continuum of inputs and includes the branch boundaries that random samples never hit", "anchors": ["planegeometry/geometry.py: Line.projection, Line.distance", "planegeometry/internal.py: line_line_intersection_"]}
{"id": "C08", "title": "Line.perpendicular", "statement": "Whenever perpendicular(M) returns, the result is a line through M that is perpendicular to the reference line; if M is off the line its first point is the foot of the perpendicular. It raises exactly when the two points that would define the result are np.allclose (which happens off the line when the foot is np.allclose to M, and on the line when M and M plus the rotated direction vector are np.allclose).", "quantifier": "every line, point and flag combination", "why_tests_cant": "a test evaluates finitely many sample inputs; the claim ranges over a continuum of inputs and includes the branch boundaries that random samples never hit", "anchors": ["planegeometry/geometry.py: Line.perpendicular"]}
{"id": "C09", "title": "Reflection is the mirror symmetry", "statement": "Whenever Reflection.transform(P) (or Line.reflection) returns for a point P that is not np.allclose to the line's defining points, the result is the mirror image of P: the midpoint is on the line and the difference is orthogonal to it; applying the reflection twice gives P back and distances are preserved.", "quantifier": "every line and every point (every pair of points for isometry)", "why_tests_cant": "a test evaluates finitely many sample inputs; the claim ranges over a continuum of inputs and includes the branch boundaries that random samples never hit", "anchors": ["planegeometry/geometry.py: Reflection.transform, Reflection.reflect, Line.reflection"]}
{"id": "C10", "title": "Reflection.as_affine agrees with Reflection.transform", "statement": "The augmented matrix of a reflection exists for every line and the affine map it defines sends every point to its mirror image, hence agrees with transform; reflect_circle and reflect_line return exactly the image of the circle and line.", "quantifier": "every line, point, circle", "why_tests_cant": "a test evaluates finitely many sample inputs; the claim ranges over a continuum of inputs and includes the branch boundaries that random samples never hit", "anchors": ["planegeometry/geometry.py: Reflection.get3x3matrix, Reflection.as_affine, Reflection.reflect_circle, Reflection.reflect_line"]}
{"id": "C11", "title": "Rotations form a group of isometries and all entry points agree", "statement": "Rotation.rotate preserves distances and fixes its center, rotating by theta1 then theta2 about a center is rotating by their sum, degrees and radians agree, Rotation.as_affine, Line.rotate, rotate_line, rotate_circle and rotate_ellipse give the images of the same map.", "quantifier": "every center, angle, unit, point, line, circle, ellipse", "why_tests_cant": "a test evaluates finitely many sample inputs; the claim ranges over a continuum of inputs and includes the branch boundaries that random samples never hit", "anchors": ["planegeometry/geometry.py: Rotation, Line.rotate"]}
{"id": "C12", "title": "intersection_line_line returns the unique common point", "statement": "Whenever a point is returned it lies on both lines and is the only such point; None is returned whenever the lines have no unique common point; non-parallel lines (beyond the tolerance) that are not is_equal always give a point.", "quantifier": "every pair of lines", "why_tests_cant": "a test evaluates finitely many sample inputs; the claim ranges over a continuum of inputs and includes the branch boundaries that random samples never hit", "anchors": ["planegeometry/geometry.py: intersection_line_line, Line.intersection_with_line", "planegeometry/internal.py: line_line_intersection_"]}
{"id": "C13", "title": "is_parallel and is_perpendicular", "statement": "Two exactly parallel lines are reported parallel and two exactly perpendicular lines are reported perpendicular, for all lines; a True answer bounds the sine or cosine of the angle by the tolerance divided by the lengths.", "quantifier": "every pair of lines", "why_tests_cant": "a test evaluates finitely many sample inputs; the claim ranges over a continuum of inputs and includes the branch boundaries that random samples never hit", "anchors": ["planegeometry/geometry.py: Line.is_parallel, Line.is_perpendicular"]}
{"id": "C14", "title": "Circle.contains, includes, power and point_from_angle are consistent", "statement": "contains(P) iff the distance from P to the center is at most the radius iff power(P) <= 0; point_from_angle always gives a point at distance exactly the radius, which includes accepts; every point exactly on the circle is included, and an included point is on the circle within the stated relative tolerance.", "quantifier": "every circle, point and angle", "why_tests_cant": "a test evaluates finitely many sample inputs; the claim ranges over a continuum of inputs and includes the branch boundaries that random samples never hit", "anchors": ["planegeometry/geometry.py: Circle.contains, Circle.includes, Circle.power, Circle.point_from_angle"]}
{"id": "C15", "title": "Radical center and axis of two circles", "statement": "For circles with distinct centers, radical_center is on the line of centers and has equal power with respect to both circles, and a point is on radical_axis iff its powers with respect to the two circles are equal.", "quantifier": "every pair of circles and every point", "why_tests_cant": "a test evaluates finitely many sample inputs; the claim ranges over a continuum of inputs and includes the branch boundaries that random samples never hit", "anchors": ["planegeometry/geometry.py: Circle.radical_center, Circle.radical_axis"]}
{"id": "C16", "title": "Radical center of three circles", "statement": "Whenever radical_center(c1, c2, c3) returns a point, that point has the same power with respect to the three circles and is the only such point; it returns None only when the centers are collinear, and returns a point when the centers are not collinear and not np.allclose.", "quantifier": "every triple of circles", "why_tests_cant": "a test evaluates finitely many sample inputs; the claim ranges over a continuum of inputs and includes the branch boundaries that random samples never hit", "anchors": ["planegeometry/geometry.py: radical_center"]}
{"id": "C17", "title": "orthogonal_through_two_points_on_circle", "statement": "For angles not differing by a multiple of pi the result is a circle orthogonal to the reference circle that passes through the two points of the circle with these angles; with arc=True the arc ends at these two points; when the angles differ by an odd multiple of pi the result is the diameter line.", "quantifier": "every circle and pair of angles", "why_tests_cant": "a test evaluates finitely many sample inputs; the claim ranges over a continuum of inputs and includes the branch boundaries that random samples never hit", "anchors": ["planegeometry/geometry.py: Circle.orthogonal_through_two_points_on_circle"]}
{"id": "C18", "title": "orthogonal_through_two_points_in_circle", "statement": "For two distinct points strictly inside the reference circle and not on a common diameter, the returned circle passes through both points and is orthogonal to the reference circle; points not in the interior are rejected with ValueError.", "quantifier": "every circle and pair of points", "why_tests_cant": "a test evaluates finitely many sample inputs; the claim ranges over a continuum of inputs and includes the branch boundaries that random samples never hit", "anchors": ["planegeometry/geometry.py: Circle.orthogonal_through_two_points_in_circle"]}
{"id": "C19", "title": "circleAB and circleOA", "statement": "circleAB(A, B) is the circle with diameter AB: a point P is on it iff PA is orthogonal to PB; circleOA(O, A) is centered at O and passes through A; both raise ValueError exactly when the points are np.allclose.", "quantifier": "every pair of points and every test point", "why_tests_cant": "a test evaluates finitely many sample inputs; the claim ranges over a continuum of inputs and includes the branch boundaries that random samples never hit", "anchors": ["planegeometry/geometry.py: circleAB, circleOA"]}
{"id": "C20", "title": "Circle.angle", "statement": "angle returns None iff the circles do not meet (beyond the tolerance); for circles that meet it returns a value in [0, pi] whose cosine is (d^2 - r1^2 - r2^2)/(2 r1 r2), it is symmetric, and it is pi/2 iff the circles are orthogonal.", "quantifier": "every pair of circles", "why_tests_cant": "a test evaluates finitely many sample inputs; the claim ranges over a continuum of inputs and includes the branch boundaries that random samples never hit", "anchors": ["planegeometry/geometry.py: Circle.angle, Circle.is_orthogonal"]}
{"id": "C21", "title": "intersection_circle_line is sound and complete", "statement": "None means no common point; a list of two points are distinct, both on the circle and on the line, and are all the common points; a single point is the orthogonal projection of the center on the line and is the only common point when the line is exactly tangent.", "quantifier": "every circle and every line", "why_tests_cant": "a test evaluates finitely many sample inputs; the claim ranges over a continuum of inputs and includes the branch boundaries that random samples never hit", "anchors": ["planegeometry/geometry.py: intersection_circle_line, Circle.intersection_with_line, Line.intersection_with_circle", "planegeometry/internal.py: circle_line_intersection_"]}
{"id": "C22", "title": "intersection_circle_circle is sound and complete", "statement": "For two circles that are not is_equal: None means no common point; a list of two points means both are on both circles and they are all the common points; circles with two well separated common points always give the list; a single point is returned for tangent circles and is their common point.", "quantifier": "every pair of circles", "why_tests_cant": "a test evaluates finitely many sample inputs; the claim ranges over a continuum of inputs and includes the branch boundaries that random samples never hit", "anchors": ["planegeometry/geometry.py: intersection_circle_circle, Circle.intersection_with_circle"]}
{"id": "C23", "title": "mid_circles swap the two circles", "statement": "The inversion on each circle returned by mid_circles (and the reflection on each line returned) maps each circle onto the other; a line is returned only if the radii are equal.", "quantifier": "every pair of circles, in every relative position", "why_tests_cant": "a test evaluates finitely many sample inputs; the claim ranges over a continuum of inputs and includes the branch boundaries that random samples never hit", "anchors": ["planegeometry/geometry.py: mid_circles, Inversion.on_circle, Reflection"]}
{"id": "C24", "title": "Inversion.invert", "statement": "For a point M not np.allclose to the pole, invert(M) is on the line pole-M with (M - pole).(invert(M) - pole) = power; inverting twice gives M back; inf is sent to the pole and the pole to inf; an inversion on a circle fixes exactly the points of this circle.", "quantifier": "every pole, nonzero power, point", "why_tests_cant": "a test evaluates finitely many sample inputs; the claim ranges over a continuum of inputs and includes the branch boundaries that random samples never hit", "anchors": ["planegeometry/geometry.py: Inversion.invert, Inversion.on_circle"]}
{"id": "C25", "title": "Inversion.invert_circle gives the image of the circle", "statement": "When the pole is not on the circle (beyond the tolerance) the result is a circle which contains exactly the inverses of the points of the circle; when the pole is exactly on the circle the result is a line which contains exactly the inverses of the other points of the circle; inverting twice gives the circle back.", "quantifier": "every inversion of nonzero power, circle, point", "why_tests_cant": "a test evaluates finitely many sample inputs; the claim ranges over a continuum of inputs and includes the branch boundaries that random samples never hit", "anchors": ["planegeometry/geometry.py: Inversion.invert_circle"]}
{"id": "C26", "title": "Inversion.invert_line gives the image of the line", "statement": "A line through the pole is returned unchanged; otherwise the result is a circle through the pole which contains exactly, besides the pole, the inverses of the points of the line.", "quantifier": "every inversion, line, point", "why_tests_cant": "a test evaluates finitely many sample inputs; the claim ranges over a continuum of inputs and includes the branch boundaries that random samples never hit", "anchors": ["planegeometry/geometry.py: Inversion.invert_line, Line.invert"]}
{"id": "C27", "title": "Inversion.invert_gcircle dispatches on the type", "statement": "invert_gcircle(g) equals invert_circle(g) for a Circle and invert_line(g) for a Line.", "quantifier": "every inversion and generalized circle", "why_tests_cant": "a test evaluates finitely many sample inputs; the claim ranges over a continuum of inputs and includes the branch boundaries that random samples never hit", "anchors": ["planegeometry/geometry.py: Inversion.invert_gcircle"]}
{"id": "C28", "title": "Inversion.compose is the composition", "statement": "iota1.compose(iota2) is the Moebius transformation sending each point M to iota2.invert(iota1.invert(M)), and with left=False to iota1.invert(iota2.invert(M)); its determinant is nonzero when both powers are nonzero.", "quantifier": "every pair of inversions and every point", "why_tests_cant": "a test evaluates finitely many sample inputs; the claim ranges over a continuum of inputs and includes the branch boundaries that random samples never hit", "anchors": ["planegeometry/geometry.py: Inversion.compose", "planegeometry/internal.py: inversion_to_conjugate_mobius_"]}
{"id": "C29", "title": "from_swapping_two_circles swaps in every configuration", "statement": "Unless the circles are congruent and tangent, from_swapping_two_circles(c1, c2, positive) returns an inversion of nonzero power mapping c1 onto c2 and c2 onto c1; the sign of its power is the requested one whenever such an inversion exists.", "quantifier": "every pair of circles in every relative position, both values of positive", "why_tests_cant": "a test evaluates finitely many sample inputs; the claim ranges over a continuum of inputs and includes the branch boundaries that random samples never hit", "anchors": ["planegeometry/geometry.py: Inversion.from_swapping_two_circles"]}
{"id": "C30", "title": "from_fixing_two_circles and from_fixing_three_circles", "statement": "The returned inversion maps each of the given circles onto itself, provided its pole is finite and its power is nonzero.", "quantifier": "every pair (triple) of circles", "why_tests_cant": "a test evaluates finitely many sample inputs; the claim ranges over a continuum of inputs and includes the branch boundaries that random samples never hit", "anchors": ["planegeometry/geometry.py: Inversion.from_fixing_two_circles, Inversion.from_fixing_three_circles"]}
{"id": "C31", "title": "SteinerChain is a closed chain of tangent circles", "statement": "For n >= 3, |phi| < 1 and every shift, SteinerChain returns n+1 circles; consecutive chain circles (cyclically) are externally tangent, all are internally tangent to c0 and externally tangent to the inner circle.", "quantifier": "every n >= 3, phi, shift, circle", "why_tests_cant": "n is unbounded and phi, shift are continuous", "anchors": ["planegeometry/geometry.py: SteinerChain_phi0_, SteinerChain"]}
{"id": "C32", "title": "SteinerChain ellipse of centers", "statement": "The ellipse returned by SteinerChain passes through the centers of all chain circles.", "quantifier": "every n >= 3, phi, shift, circle", "why_tests_cant": "n is unbounded and phi, shift are continuous", "anchors": ["planegeometry/geometry.py: SteinerChain"]}
{"id": "C33", "title": "Triangle.flatness", "statement": "For a triangle with B and C distinct from A the flatness is in [0, 1] and equals 1 iff the vertices are collinear, and 0 iff the angle at A is right.", "quantifier": "every triangle", "why_tests_cant": "a test evaluates finitely many sample inputs; the claim ranges over a continuum of inputs and includes the branch boundaries that random samples never hit", "anchors": ["planegeometry/geometry.py: Triangle.flatness"]}
{"id": "C34", "title": "Triangle.orientation", "statement": "orientation is 1 for counterclockwise triangles, -1 for clockwise triangles, 0 for collinear vertices.", "quantifier": "every triangle", "why_tests_cant": "a test evaluates finitely many sample inputs; the claim ranges over a continuum of inputs and includes the branch boundaries that random samples never hit", "anchors": ["planegeometry/geometry.py: Triangle.orientation"]}
{"id": "C35", "title": "Triangle.contains", "statement": "For a non-flat triangle contains(M) is True iff M is a convex combination of the vertices with strictly positive weights; for a flat triangle it is False.", "quantifier": "every triangle and point", "why_tests_cant": "a test evaluates finitely many sample inputs; the claim ranges over a continuum of inputs and includes the branch boundaries that random samples never hit", "anchors": ["planegeometry/geometry.py: Triangle.contains"]}
{"id": "C36", "title": "Triangle.is_acute", "statement": "is_acute is True iff the three angles of the triangle are acute.", "quantifier": "every triangle", "why_tests_cant": "a test evaluates finitely many sample inputs; the claim ranges over a continuum of inputs and includes the branch boundaries that random samples never hit", "anchors": ["planegeometry/geometry.py: Triangle.is_acute, Triangle.angleA"]}
{"id": "C37", "title": "Triangle angles", "statement": "For a triangle with distinct vertices, angleA, angleB and angleC return without a domain error values in [0, pi] which sum to pi and satisfy the law of cosines with the side lengths a, b, c.", "quantifier": "every triangle", "why_tests_cant": "a test evaluates finitely many sample inputs; the claim ranges over a continuum of inputs and includes the branch boundaries that random samples never hit", "anchors": ["planegeometry/geometry.py: Triangle.angleA, Triangle.angleB, Triangle.angleC, Triangle.a, Triangle.b, Triangle.c"]}
{"id": "C38", "title": "Triangle.incircle", "statement": "For a non-flat triangle incircle returns a circle whose center is strictly inside the triangle and whose distance to each of the three side lines is the radius; a flat triangle is rejected with ValueError.", "quantifier": "every triangle", "why_tests_cant": "a test evaluates finitely many sample inputs; the claim ranges over a continuum of inputs and includes the branch boundaries that random samples never hit", "anchors": ["planegeometry/geometry.py: Triangle.incircle"]}
{"id": "C39", "title": "Triangle.excircles", "statement": "For a non-flat triangle excircles returns three circles, each tangent to the three side lines; the center of the circle opposite to A is outside the triangle on the other side of BC.", "quantifier": "every triangle", "why_tests_cant": "a test evaluates finitely many sample inputs; the claim ranges over a continuum of inputs and includes the branch boundaries that random samples never hit", "anchors": ["planegeometry/geometry.py: Triangle.excircles"]}
{"id": "C40", "title": "Triangle.circumcircle", "statement": "For a non-flat triangle circumcircle returns the circle through the three vertices and it is the only circle through them; for a flat triangle with distinct vertices it returns None.", "quantifier": "every triangle", "why_tests_cant": "a test evaluates finitely many sample inputs; the claim ranges over a continuum of inputs and includes the branch boundaries that random samples never hit", "anchors": ["planegeometry/geometry.py: Triangle.circumcircle"]}
{"id": "C41", "title": "Triangle.orthic_triangle", "statement": "The vertices of the orthic triangle are the feet of the altitudes: on the opposite side line, with the altitude orthogonal to the side.", "quantifier": "every triangle with distinct vertices", "why_tests_cant": "a test evaluates finitely many sample inputs; the claim ranges over a continuum of inputs and includes the branch boundaries that random samples never hit", "anchors": ["planegeometry/geometry.py: Triangle.orthic_triangle"]}
{"id": "C42", "title": "Triangle.equal_detour_point", "statement": "For a non-flat triangle the returned point P has the same detour for the three sides: PA+PB-c = PB+PC-a = PC+PA-b, which is the returned number.", "quantifier": "every triangle", "why_tests_cant": "a test evaluates finitely many sample inputs; the claim ranges over a continuum of inputs and includes the branch boundaries that random samples never hit", "anchors": ["planegeometry/geometry.py: Triangle.equal_detour_point"]}
{"id": "C43", "title": "Triangle.malfatti_circles", "statement": "For a non-flat triangle the three Malfatti circles are mutually tangent, each is tangent to two sides of the triangle, and the returned tangency points are the contact points.", "quantifier": "every triangle", "why_tests_cant": "a test evaluates finitely many sample inputs; the claim ranges over a continuum of inputs and includes the branch boundaries that random samples never hit", "anchors": ["planegeometry/geometry.py: Triangle.malfatti_circles"]}
{"id": "C44", "title": "Steiner ellipse and inellipse", "statement": "For a non-flat triangle steiner_ellipse passes through the three vertices and is centered at the centroid; steiner_inellipse passes through the midpoints of the sides, is centered at the centroid, and touches each side line only there.", "quantifier": "every triangle", "why_tests_cant": "a test evaluates finitely many sample inputs; the claim ranges over a continuum of inputs and includes the branch boundaries that random samples never hit", "anchors": ["planegeometry/geometry.py: Triangle.steiner_ellipse, Triangle.steiner_inellipse, Affine.transform_ellipse"]}
{"id": "C45", "title": "Affine maps: composition and inverse", "statement": "compose and inverse act on points as composition and inverse of maps: f0.compose(f1).transform(P) = f1.transform(f0.transform(P)), with left=False the other order; inverse exists iff det != 0 and then undoes transform on both sides; composition is associative.", "quantifier": "every affine map and point", "why_tests_cant": "a test evaluates finitely many sample inputs; the claim ranges over a continuum of inputs and includes the branch boundaries that random samples never hit", "anchors": ["planegeometry/geometry.py: Affine.compose, Affine.inverse, Affine.transform, Affine.get3x3matrix"]}
{"id": "C46", "title": "Affine.from_mapping_three_points", "statement": "For non-collinear triples the returned map sends Pi to Qi, is invertible, and is the only such affine map; it returns None exactly when one of the triples is collinear (or has np.allclose points).", "quantifier": "every two triples of points", "why_tests_cant": "a test evaluates finitely many sample inputs; the claim ranges over a continuum of inputs and includes the branch boundaries that random samples never hit", "anchors": ["planegeometry/geometry.py: Affine.from_mapping_three_points"]}
{"id": "C47", "title": "Affine.transform_line and transform_ellipse give the images", "statement": "For an invertible map, transform_line is the image of the line (with the same extension flags) and transform_ellipse never fails and is the image of the ellipse or circle: P is on the ellipse iff f(P) is on the transformed one; singular maps give None.", "quantifier": "every affine map, line, ellipse, circle, point", "why_tests_cant": "a test evaluates finitely many sample inputs; the claim ranges over a continuum of inputs and includes the branch boundaries that random samples never hit", "anchors": ["planegeometry/geometry.py: Affine.transform_line, Affine.transform_ellipse"]}
{"id": "C48", "title": "Affine.from_ellipse_to_ellipse", "statement": "The returned affine map sends every point of the first ellipse (or circle) to the second one, onto it.", "quantifier": "every pair of ellipses or circles", "why_tests_cant": "a test evaluates finitely many sample inputs; the claim ranges over a continuum of inputs and includes the branch boundaries that random samples never hit", "anchors": ["planegeometry/geometry.py: Affine.from_ellipse_to_ellipse"]}
{"id": "C49", "title": "Moebius transformations: composition and inverse on the sphere", "statement": "For matrices of nonzero determinant, transform is a bijection of the plane with inf; compose(M1) acts as M1 after M0 (and the other order with left=False); inverse undoes transform on both sides, including at inf and at the pole.", "quantifier": "every Moebius transformation, every point including inf", "why_tests_cant": "a test evaluates finitely many sample inputs; the claim ranges over a continuum of inputs and includes the branch boundaries that random samples never hit", "anchors": ["planegeometry/geometry.py: Mobius.transform, Mobius.compose, Mobius.inverse"]}
{"id": "C50", "title": "Mobius.power", "statement": "power(k) acts as the k-fold iterate of transform for every integer k (iterates of the inverse for k < 0), and power(j+k) acts as power(j) after power(k).", "quantifier": "every integer k (unbounded), every transformation and point", "why_tests_cant": "k is unbounded", "anchors": ["planegeometry/geometry.py: Mobius.power"]}
{"id": "C51", "title": "Mobius.gpower", "statement": "gpower(k) acts as power(k) for every integer k, and gpower(s+t) acts as gpower(s) after gpower(t) for every real s, t.", "quantifier": "every transformation of nonzero determinant, real exponents", "why_tests_cant": "a test evaluates finitely many sample inputs; the claim ranges over a continuum of inputs and includes the branch boundaries that random samples never hit", "anchors": ["planegeometry/geometry.py: Mobius.gpower"]}
{"id": "C52", "title": "Mobius.fixed_points", "statement": "Every point returned by fixed_points is fixed by transform, and every fixed point (including inf) is returned.", "quantifier": "every Moebius transformation of nonzero determinant", "why_tests_cant": "a test evaluates finitely many sample inputs; the claim ranges over a continuum of inputs and includes the branch boundaries that random samples never hit", "anchors": ["planegeometry/geometry.py: Mobius.fixed_points"]}
{"id": "C53", "title": "Mobius.transform_circle gives the image of the circle", "statement": "For nonzero determinant, transform_circle terminates and returns a circle or a line which contains exactly the images of the points of the circle.", "quantifier": "every Moebius transformation, circle, point", "why_tests_cant": "a test evaluates finitely many sample inputs; the claim ranges over a continuum of inputs and includes the branch boundaries that random samples never hit", "anchors": ["planegeometry/geometry.py: Mobius.transform_circle"]}
{"id": "C54", "title": "Mobius.transform_line gives the image of the line", "statement": "For nonzero determinant, transform_line returns a circle or a line which contains the images of all points of the line.", "quantifier": "every Moebius transformation, line, point", "why_tests_cant": "a test evaluates finitely many sample inputs; the claim ranges over a continuum of inputs and includes the branch boundaries that random samples never hit", "anchors": ["planegeometry/geometry.py: Mobius.transform_line"]}
{"id": "C55", "title": "Mobius.from_mapping_three_points", "statement": "For distinct P1, P2, P3 and distinct Q1, Q2, Q3 the returned transformation has nonzero determinant and sends Pi to Qi, inf being allowed among the Pi and the Qi; it returns None iff points coincide.", "quantifier": "every pair of triples, inf included", "why_tests_cant": "a test evaluates finitely many sample inputs; the claim ranges over a continuum of inputs and includes the branch boundaries that random samples never hit", "anchors": ["planegeometry/geometry.py: Mobius.from_mapping_three_points", "planegeometry/internal.py: mobius_from_three_points_to_zero_one_inf_, is_inf_"]}
{"id": "C56", "title": "Mobius.from_mapping_one_circle", "statement": "The returned transformation has nonzero determinant and maps every point of the first circle to the second circle.", "quantifier": "every pair of circles", "why_tests_cant": "a test evaluates finitely many sample inputs; the claim ranges over a continuum of inputs and includes the branch boundaries that random samples never hit", "anchors": ["planegeometry/geometry.py: Mobius.from_mapping_one_circle"]}
{"id": "C57", "title": "cross_ratio", "statement": "cross_ratio raises ValueError iff two of the four points coincide; it is real iff the four points lie on a circle or a line; it is invariant under every Moebius transformation that does not send one of the points to inf.", "quantifier": "every four points, every Moebius transformation", "why_tests_cant": "a test evaluates finitely many sample inputs; the claim ranges over a continuum of inputs and includes the branch boundaries that random samples never hit", "anchors": ["planegeometry/geometry.py: cross_ratio"]}
{"id": "C58", "title": "unimodular_matrices", "statement": "For every n >= 1 every matrix returned is an integer 2x2 matrix of determinant 1 with entries between 0 and n and there are no duplicates; for n >= 2 the list contains the identity and exactly the matrices [[q, s], [p, r]] with qr - ps = 1, 0 <= p <= q <= n and 0 < r <= s <= n.", "quantifier": "every n (unbounded)", "why_tests_cant": "n is unbounded; the determinant claim is the Farey neighbour theorem", "anchors": ["planegeometry/geometry.py: unimodular_matrices", "planegeometry/internal.py: farey_, farey_stack_"]}
{"id": "C59", "title": "Projection", "statement": "If D and Delta are not parallel then project(M) is on D and M - project(M) is parallel to Delta, projecting twice changes nothing, as_affine agrees with project, and for Delta=None it is the orthogonal projection given by Line.projection.", "quantifier": "every pair of lines and point", "why_tests_cant": "a test evaluates finitely many sample inputs; the claim ranges over a continuum of inputs and includes the branch boundaries that random samples never hit", "anchors": ["planegeometry/geometry.py: Projection.project, Projection.get3x3matrix, Projection.as_affine"]}
{"id": "C60", "title": "Shear fixes its vertex and preserves areas", "statement": "A shear has determinant 1, fixes its vertex, and transform and as_affine agree.", "quantifier": "every shear and point", "why_tests_cant": "a test evaluates finitely many sample inputs; the claim ranges over a continuum of inputs and includes the branch boundaries that random samples never hit", "anchors": ["planegeometry/geometry.py: Shear.get3x3matrix, Shear.transform, Shear.as_affine"]}
{"id": "C61", "title": "ScalingXY and Homothety", "statement": "Both fix their center, scale the coordinates relative to the center by the factors, agree with their as_affine and invert when the factors are inverted; Homothety multiplies distances by |scale| and its transform_circle is the image of the circle; scale 0 is rejected with ValueError for circles.", "quantifier": "every center, factors, points, circles", "why_tests_cant": "a test evaluates finitely many sample inputs; the claim ranges over a continuum of inputs and includes the branch boundaries that random samples never hit", "anchors": ["planegeometry/geometry.py: ScalingXY, Homothety"]}
{"id": "C62", "title": "Scaling along a direction", "statement": "For a nonzero direction, transform multiplies by s along the direction and is the identity orthogonally, fixes the center, agrees with as_affine; scale_circle is the image of the circle for nonzero s.", "quantifier": "every scaling, point, circle", "why_tests_cant": "a test evaluates finitely many sample inputs; the claim ranges over a continuum of inputs and includes the branch boundaries that random samples never hit", "anchors": ["planegeometry/geometry.py: Scaling.transform, Scaling.get3x3matrix, Scaling.scale_circle"]}
{"id": "C63", "title": "Matrix arguments are transformed row by row", "statement": "transform of Affine, Rotation, Shear, ScalingXY, Homothety, Scaling on an n x 2 matrix gives the n x 2 matrix whose i-th row is the transform of the i-th row, for every n; arguments of other shapes are rejected.", "quantifier": "every number of rows, every transformation", "why_tests_cant": "n is unbounded", "anchors": ["planegeometry/geometry.py: Affine.transform, Rotation.rotate, Shear.transform, ScalingXY.transform, Homothety.transform, Scaling.transform"]}
{"id": "C64", "title": "Ellipse equation, includes, contains, path and point_from_angle agree", "statement": "The coefficients of equation() vanish exactly on the points of the ellipse and are negative exactly in its interior; contains decides the closed interior; path returns n_points points, all on the ellipse; point_from_angle returns a point of the ellipse for every angle; includes accepts every point of the ellipse.", "quantifier": "every ellipse, point, angle, n_points", "why_tests_cant": "a test evaluates finitely many sample inputs; the claim ranges over a continuum of inputs and includes the branch boundaries that random samples never hit", "anchors": ["planegeometry/geometry.py: Ellipse.equation, Ellipse.includes, Ellipse.contains, Ellipse.path, Ellipse.point_from_angle", "planegeometry/internal.py: ellipse_points_"]}
{"id": "C65", "title": "Ellipse.shape_matrix and from_center_and_matrix are inverse", "statement": "The ellipse is {M : (M-O)' S (M-O) = 1} with S its shape matrix, which is symmetric positive definite; from_center_and_matrix(O, S) describes the same point set, for every symmetric positive definite S, and rejects others with ValueError.", "quantifier": "every ellipse, every symmetric matrix", "why_tests_cant": "a test evaluates finitely many sample inputs; the claim ranges over a continuum of inputs and includes the branch boundaries that random samples never hit", "anchors": ["planegeometry/geometry.py: Ellipse.shape_matrix, Ellipse.from_center_and_matrix", "planegeometry/internal.py: ellipse_from_center_and_eigen_"]}
{"id": "C66", "title": "Ellipse.from_equation inverts Ellipse.equation", "statement": "from_equation accepts the coefficients of equation() for every ellipse and returns an ellipse with the same points; more generally a returned ellipse is exactly the zero set of the equation.", "quantifier": "every ellipse and every six coefficients", "why_tests_cant": "a test evaluates finitely many sample inputs; the claim ranges over a continuum of inputs and includes the branch boundaries that random samples never hit", "anchors": ["planegeometry/geometry.py: Ellipse.from_equation, Ellipse.equation"]}
{"id": "C67", "title": "Ellipse.equation_from_five_points", "statement": "The returned coefficients vanish at the five points; if the five points are on an ellipse and the coefficients are not all zero they are proportional to its equation.", "quantifier": "every five points", "why_tests_cant": "a test evaluates finitely many sample inputs; the claim ranges over a continuum of inputs and includes the branch boundaries that random samples never hit", "anchors": ["planegeometry/geometry.py: Ellipse.equation_from_five_points, Ellipse.from_five_points"]}
{"id": "C68", "title": "Ellipse.normal and Ellipse.diameter", "statement": "normal(t) is a unit vector orthogonal to the tangent at the point of eccentric angle t and points outwards; diameter(t) is a chord through the center with endpoints on the ellipse; each of the two diameters returned with conjugate=True is parallel to the tangent at the ends of the other.", "quantifier": "every ellipse and angle", "why_tests_cant": "a test evaluates finitely many sample inputs; the claim ranges over a continuum of inputs and includes the branch boundaries that random samples never hit", "anchors": ["planegeometry/geometry.py: Ellipse.normal, Ellipse.diameter"]}
{"id": "C69", "title": "Ellipse.theta2t", "statement": "theta2t(theta) returns the eccentric angle of the point of the ellipse seen from the center in the direction theta from the major axis, for every theta.", "quantifier": "every ellipse and angle", "why_tests_cant": "a test evaluates finitely many sample inputs; the claim ranges over a continuum of inputs and includes the branch boundaries that random samples never hit", "anchors": ["planegeometry/geometry.py: Ellipse.theta2t"]}
{"id": "C70", "title": "intersection_ellipse_line is sound and complete", "statement": "None means no common point; two points are distinct, on the ellipse and on the line and are all the common points.", "quantifier": "every ellipse and line", "why_tests_cant": "a test evaluates finitely many sample inputs; the claim ranges over a continuum of inputs and includes the branch boundaries that random samples never hit", "anchors": ["planegeometry/geometry.py: intersection_ellipse_line, Ellipse.intersection_with_line, Line.intersection_with_ellipse"]}
{"id": "C71", "title": "Arc.path", "statement": "path(n) returns n points of the circle, the first is starting_point() and for n >= 2 the last is ending_point().", "quantifier": "every arc and n", "why_tests_cant": "n is unbounded, angles are continuous", "anchors": ["planegeometry/geometry.py: Arc.path, Arc.starting_point, Arc.ending_point", "planegeometry/internal.py: circle_points_"]}
{"id": "C72", "title": "Random points are where they should be for every random draw", "statement": "Whatever the random generator returns, Circle.random_points gives points in (on) the circle, Ellipse.random_points points in (on) the ellipse, Triangle.random_points points of the closed triangle (of its boundary), exactly n_points of them.", "quantifier": "every outcome of the random generator and every n_points", "why_tests_cant": "every random outcome must be covered", "anchors": ["planegeometry/internal.py: runif_on_circle_, runif_in_circle_, runif_on_ellipse_, runif_in_ellipse_, runif_on_triangle_, runif_in_triangle_", "planegeometry/geometry.py: Circle.random_points, Triangle.random_points, Ellipse.random_points"]}
{"id": "C73", "title": "Ellipse.from_boundary3 and from_boundary4", "statement": "For three non-collinear points from_boundary3 returns an ellipse through the three points centered at their centroid; for four points in convex position from_boundary4 returns an ellipse through the four points.", "quantifier": "every three (four) points", "why_tests_cant": "a test evaluates finitely many sample inputs; the claim ranges over a continuum of inputs and includes the branch boundaries that random samples never hit", "anchors": ["planegeometry/geometry.py: Ellipse.from_boundary3, Ellipse.from_boundary4"]}
{"id": "C74", "title": "Ellipse.LownerJohnEllipse", "statement": "For every finite set of points with at least three non-collinear ones and every sequence of random choices the recursion terminates and returns an ellipse containing all the points.", "quantifier": "every number of points, every random schedule", "why_tests_cant": "unbounded point sets and random schedules", "anchors": ["planegeometry/geometry.py: Ellipse.LownerJohnEllipse"]}
{"id": "C75", "title": "is_equal is an equivalence-like test", "statement": "Circle.is_equal, Line.is_equal and Ellipse.is_equal are reflexive and symmetric.", "quantifier": "every pair of objects", "why_tests_cant": "a test evaluates finitely many sample inputs; the claim ranges over a continuum of inputs and includes the branch boundaries that random samples never hit", "anchors": ["planegeometry/geometry.py: Circle.is_equal, Line.is_equal, Ellipse.is_equal", "planegeometry/internal.py: approx_equal_"]}
{"id": "C76", "title": "Objects do not share state with the caller's arrays", "statement": "No method changes an array passed by the caller, and modifying an array after it was used to construct an object does not change the object.", "quantifier": "every history of array writes and method calls", "why_tests_cant": "histories are unbounded and depend on aliasing", "anchors": ["planegeometry/geometry.py: Ellipse.point_from_angle, Circle.__init__, Line.__init__, Inversion.invert"]}
{"id": "C77", "title": "Ellipse.is_equal decides equality of point sets", "statement": "Two ellipses with the same point set are reported equal.", "quantifier": "every pair of ellipses", "why_tests_cant": "a test evaluates finitely many sample inputs; the claim ranges over a continuum of inputs and includes the branch boundaries that random samples never hit", "anchors": ["planegeometry/geometry.py: Ellipse.is_equal"]}
{"id": "C78", "title": "Ellipse.point_from_angle direction", "statement": "point_from_angle(theta) is the point of the ellipse seen from the center in the direction making the angle theta with the first axis.", "quantifier": "every ellipse, every angle", "why_tests_cant": "a test evaluates finitely many angles; the claim ranges over a continuum and includes the branch boundaries at multiples of pi", "anchors": ["planegeometry/geometry.py: Ellipse.point_from_angle"]}
{"id": "C79", "title": "Ellipse.from_five_points", "statement": "For five distinct points of an ellipse, from_five_points returns an ellipse with exactly the same points.", "quantifier": "every five distinct points of every ellipse", "why_tests_cant": "a test evaluates finitely many sample inputs; the claim ranges over a continuum of inputs", "anchors": ["planegeometry/geometry.py: Ellipse.from_five_points, Ellipse.equation_from_five_points, Ellipse.from_equation"]}
{"id": "C80", "title": "Smallest enclosing ellipse", "statement": "The ellipse returned by from_boundary3 has the smallest area among all the ellipses containing the three points, and it is the only one with that area; every ellipse returned by LownerJohnEllipse contains the given points, has the smallest area among the ellipses containing them, and does not depend on the random choices.", "quantifier": "every three non-collinear points; every list of points and every random schedule for which an ellipse is returned", "why_tests_cant": "a test evaluates finitely many sample inputs; the claim compares with every other ellipse and ranges over a continuum of inputs", "anchors": ["planegeometry/geometry.py: Ellipse.from_boundary3, Ellipse.LownerJohnEllipse"]}
{"id": "C81", "title": "Steiner ellipses are extremal", "statement": "steiner_ellipse contains the triangle and has the smallest area among the ellipses containing it; steiner_inellipse is contained in the triangle and has the largest area among the ellipses contained in it; both are unique.", "quantifier": "every non-degenerate triangle whose vertices are pairwise not allclose", "why_tests_cant": "a test evaluates finitely many sample inputs; the claim compares with every other ellipse and ranges over a continuum of inputs", "anchors": ["planegeometry/geometry.py: Triangle.steiner_ellipse, Triangle.steiner_inellipse, Affine.AffineMappingThreePoints"]}
{"id": "C82", "title": "The arc through two points on the circle is the inner arc", "statement": "orthogonal_through_two_points_on_circle(arc=True) returns the arc made exactly of the points of the orthogonal circle that are inside the reference circle, with increasing angles, and its path stays in the closed disk.", "quantifier": "every circle, every two angles not differing by a multiple of pi", "why_tests_cant": "a test evaluates finitely many sample inputs; the claim ranges over all the points of an arc and a continuum of circles and angles", "anchors": ["planegeometry/geometry.py: Circle.orthogonal_through_two_points_on_circle, Arc.path"]}
{"id": "C83", "title": "The arc through two points in the circle stays in the circle", "statement": "For two points strictly inside the reference circle, orthogonal_through_two_points_in_circle(arc=True) returns an arc that stays inside the circle.", "quantifier": "every circle, every two points inside it", "why_tests_cant": "a test evaluates finitely many sample inputs; the claim ranges over all the points of an arc and a continuum of circles and angles", "anchors": ["planegeometry/geometry.py: Circle.orthogonal_through_two_points_in_circle"]}
{"id": "C84", "title": "Number and Boolean arguments are checked exactly", "statement": "A constructor or method that expects a number, a positive number, an angle in a range, a number of points or a Boolean raises exactly when the given value is not one, and otherwise behaves as on the plain float.", "quantifier": "every Python value (other than complex64 scalars) in each such argument of Circle, Arc, Ellipse, Rotation, Homothety, ScalingXY, Scaling, Shear, Line.rotate, Circle.point_from_angle, Arc.path, Ellipse.path", "why_tests_cant": "a test evaluates finitely many sample arguments; the claim ranges over every Python value and every kind of number", "anchors": ["planegeometry/geometry.py: constructors, Circle.point_from_angle, Line.rotate, Arc.path, Ellipse.path", "planegeometry/internal.py: error_if_not_number_, error_if_not_positive_, error_if_not_boolean_, is_inf_"]}
{"id": "C85", "title": "Identities between the circles, edges and angles of a triangle", "statement": "edges are the distances between the vertices in order; circumcircle, incircle and excircles satisfy Euler's relations between their centers and radii; their radii satisfy the classical relations with the edges and the area; the edges and angles satisfy the law of sines with the circumradius.", "quantifier": "every non-degenerate triangle", "why_tests_cant": "a test evaluates finitely many sample triangles with tolerances; the identities are exact and range over a continuum of triangles", "anchors": ["planegeometry/geometry.py: Triangle.edges, Triangle.circumcircle, Triangle.incircle, Triangle.excircles, Triangle.angles"]}
{"id": "C86", "title": "Nine-point circle and Feuerbach's theorem", "statement": "The circumcircle of the orthic triangle goes through the midpoints of the edges, its radius is half the circumradius, the incircle is internally tangent to it and the three excircles are externally tangent to it.", "quantifier": "every non-degenerate triangle without a right angle", "why_tests_cant": "a test evaluates finitely many sample triangles with tolerances; the identities are exact and range over a continuum of triangles", "anchors": ["planegeometry/geometry.py: Triangle.orthic_triangle, Triangle.circumcircle, Triangle.incircle, Triangle.excircles"]}
{"id": "C87", "title": "Printed descriptions and messages state what is true", "statement": "The text printed by a show method determines the object (its points, numbers and Booleans), show never fails on a constructed object, and the messages printed by includes, show and origin-related checks state facts that hold.", "quantifier": "every Line, Circle, Ellipse, Triangle, Inversion and transformation object", "why_tests_cant": "a test compares printed text on a few objects; the claim ranges over all objects", "anchors": ["planegeometry/geometry.py: show methods, Line.includes, Triangle.show"]}
{"id": "C88", "title": "Circle.contains, Circle.power and distance_ in double precision", "statement": "With IEEE double arithmetic Circle.contains gives the exact answer for every point outside a relative annulus of width 2^-50 around the circle; a point is contained iff the computed power is at most 0; containment is monotone in the radius; the computed distance is symmetric.", "quantifier": "every double-precision center, radius and point, every fused or unfused evaluation of ddot", "why_tests_cant": "a test evaluates finitely many doubles; there are about 2^64 values per coordinate, and the failing inputs lie in sets that random samples never hit", "anchors": ["planegeometry/geometry.py: Circle.contains, Circle.power", "planegeometry/internal.py: distance_, dot_"]}
{"id": "C89", "title": "Triangle.orientation in double precision", "statement": "The orientation computed with IEEE doubles is the exact one whenever the doubled area exceeds 2^-51 times the sum of the two products it is the difference of; with integer coordinates up to 2^25 it is always exact, and up to 2^52 it is never the opposite one.", "quantifier": "every triangle with double-precision coordinates", "why_tests_cant": "a test evaluates finitely many doubles; there are about 2^64 values per coordinate, and the failing inputs lie in sets that random samples never hit", "anchors": ["planegeometry/geometry.py: Triangle.orientation"]}
{"id": "C90", "title": "Triangle.flatness and collinear_ in double precision", "statement": "Computed with IEEE doubles the flatness is in [0, 1]; it is 1 when the sine of the angle at A is at most 2^-28 and less than 1 when it is more than 2^-25; collinear_ never divides by zero and accepts within the same bounds; with integer coordinates up to 2^11 the flatness is 1 exactly for collinear points.", "quantifier": "every three points with double-precision coordinates", "why_tests_cant": "a test evaluates finitely many doubles; there are about 2^64 values per coordinate, and the failing inputs lie in sets that random samples never hit", "anchors": ["planegeometry/geometry.py: Triangle.flatness", "planegeometry/internal.py: collinear_"]}
{"id": "C91", "title": "Circle.includes accepts the points of Circle.point_from_angle in double precision", "statement": "With IEEE doubles and a cosine and sine accurate to 2^-52, a point made by point_from_angle is accepted by includes when each coordinate of the center is at most 2^20 radii.", "quantifier": "every circle with double-precision center and positive radius, every angle, every fused or unfused evaluation of ddot", "why_tests_cant": "a test evaluates finitely many doubles; there are about 2^64 values per coordinate, and the failing inputs lie in sets that random samples never hit", "anchors": ["planegeometry/geometry.py: Circle.point_from_angle, Circle.includes", "planegeometry/internal.py: approx_equal_"]}
{"id": "C92", "title": "Methods and functions give the same intersections and images", "statement": "intersection_with_line, intersection_with_circle and intersection_with_ellipse of Line, Circle and Ellipse give the common points of the two sets in either order of receiver and argument: None means no common point, a pair is the set of common points, a unique common point is returned as such. Line.invert is the image of the line, and the transform_circle, transform_line, transform_ellipse aliases of Rotation and Reflection give the images.", "quantifier": "every pair of valid objects, every rotation, reflection and inversion", "why_tests_cant": "a test compares a few pairs of objects; a wrong argument order or a dropped flag in a forwarding method shows only for particular objects", "anchors": ["planegeometry/geometry.py: Line.invert, Line.intersection_with_circle, Line.intersection_with_ellipse, Line.intersection_with_line", "planegeometry/geometry.py: Circle.intersection_with_line, Circle.intersection_with_circle, Ellipse.intersection_with_line", "planegeometry/geometry.py: Rotation.transform_circle, Rotation.transform_ellipse, Rotation.transform_line, Reflection.transform_circle, Reflection.transform_line"]}
{"id": "C93", "title": "Circle.is_orthogonal detects right angles", "statement": "Circle.is_orthogonal is true for every pair of circles meeting at right angles; it is true exactly when |d^2 - (r1^2 + r2^2)| is at most 1e-9 (1 + max(d^2, r1^2 + r2^2)), d the distance of the centers; it is symmetric; and when the circles meet it bounds the cosine of their angle.", "quantifier": "every pair of circles of positive radius", "why_tests_cant": "a test checks a few pairs; a wrong formula such as (r1+r2)^2 or an asymmetric tolerance agrees with the right one on many pairs", "anchors": ["planegeometry/geometry.py: Circle.is_orthogonal", "planegeometry/internal.py: approx_equal_"]}
{"id": "C94", "title": "Elliptical billiard: the trajectory obeys the law of reflection and keeps a confocal caustic", "statement": "For every ellipse centred at the origin with horizontal major axis and every starting chord, every list of lines returned by trajectory(P0, theta0, n) in the billiard example consists of consecutive chords: each starts where the previous ended, both ends are on the table, and the angle of incidence equals the angle of reflection at every bounce. If the first chord's line is tangent to a conic confocal with the table, every later chord's line is tangent to the same conic.", "quantifier": "for all tables (semi-axes), all starting chords, all numbers of bounces", "why_tests_cant": "The number of bounces and the starting chord are unbounded; the caustic is an invariant that only an induction over all bounces establishes.", "anchors": ["examples/EllipticalBilliard.py:reflect", "examples/EllipticalBilliard.py:trajectory", "examples/EllipticalBilliard_animation.py", "planegeometry/geometry.py:intersection_ellipse_line"]}
{"id": "C95", "title": "Inversions and Möbius transformations keep the angle of two circles", "statement": "When invert_circle (resp. transform_circle of an invertible Möbius transformation) maps two circles to two circles, touching circles have touching images and conversely, circles that meet at right angles have images that meet at right angles and conversely, and the method angle returns for the images the same value as for the circles if the pole is inside both or outside both, and the supplementary value otherwise.", "quantifier": "for all pairs of circles and all inversions / invertible Möbius transformations", "why_tests_cant": "A relation between two continuous families of circles and a continuous family of maps.", "anchors": ["planegeometry/geometry.py:Inversion.invert_circle", "planegeometry/geometry.py:Mobius.transform_circle", "planegeometry/geometry.py:Circle.angle", "planegeometry/geometry.py:Circle.is_orthogonal"]}
{"id": "C96", "title": "unique_with removes duplicates and keeps first occurrences", "statement": "unique_with(L, f) of the examples never fails, although it deletes from the list it loops over; it returns the list in which each element is kept unless it is related by f to an earlier kept one; the argument list itself is changed into the result. If f is an equivalence the result has exactly one element of every class, and a list without duplicates is returned unchanged.", "quantifier": "for all lists of all lengths and all comparison functions", "why_tests_cant": "Index arithmetic of a loop that shrinks its own list, for lists of every length.", "anchors": ["examples/Inversions.py:unique_with", "examples/Schottky.py:unique_with"]}
{"id": "C97", "title": "Gaskets made by repeated inversions are packings at every depth", "statement": "If the discs of the mirrors do not overlap and the first generation is as in the examples (images of starting regions, each inside the disc of its mirror), then children never fails and never returns a line at any depth; generation d has |C| (m-1)^d circles; no two circles of the gasket overlap, of the same or of different generations, nor a circle and a starting region; and if every circle of the first generation touches n regions, so does every circle of every generation.", "quantifier": "for all lists of mirrors, starting configurations and depths", "why_tests_cant": "The depth is unbounded and the number of pairs of circles grows exponentially.", "anchors": ["examples/ApollonianGasket.py:children", "examples/ApollonianGasketMobius.py:children", "examples/ApollonianGasket_animation.py:children", "examples/MalfattiApollonian.py:iteration", "examples/triangularCircularGasket.py:children"]}
{"id": "C98", "title": "Line.translate moves the set of points; Reflection keeps the full line", "statement": "translate(v) returns the line, half-line or segment whose set of points is the translate by v of the original one, and raises exactly when the translated points are np.allclose; translations compose and are undone by -v. The constructor of Reflection accepts every valid line and keeps the full line through its points, whatever the extend flags.", "quantifier": "for all lines, flags and vectors", "why_tests_cant": "A test checks one line and one vector; the set of points is infinite and the failure region depends on the size of the coordinates.", "anchors": ["geometry.py:Line.translate", "geometry.py:Reflection.__init__"]}
{"id": "C99", "title": "ApollonianGasket.py draws a packing at every depth", "statement": "For every outer circle, every n >= 3, every shift and every phi between -1 and 1, the script examples/ApollonianGasket.py builds n + 1 starting circles and n + 1 inversions exactly when no mirror is a line (2 phi cos((i+shift) 2pi/n + pi/n) differs from (1+phi^2) cos(pi/n) for every i < n), and when no power is below the tolerance its loop never fails and never meets a line, at any depth. Generation d has n (n - 1) n^d circles, all inside the outer circle. No two circles overlap, whether of the same generation, of different generations or starting circles, and every circle touches three other regions of the drawing at one point each. For |phi| (1 + sin(pi/n)) < cos(pi/n) no mirror is a line, and this bound is the best one.", "quantifier": "for all outer circles, all n >= 3, all phi between -1 and 1, all shifts, all depths", "why_tests_cant": "The number of circles grows like n^d and both n and the depth are unbounded; phi and shift are continuous; overlap of two discs in a picture is not visible to a test of single circles.", "anchors": ["examples/ApollonianGasket.py:5-53", "geometry.py:SteinerChain", "geometry.py:Inversion.from_fixing_three_circles", "geometry.py:Inversion.from_swapping_two_circles", "geometry.py:Inversion.invert_circle"]}
{"id": "C100", "title": "ApollonianGasketMobius.py: every frame is a packing of the unit disc and the frames form a loop", "statement": "In examples/ApollonianGasketMobius.py, for |gamma| < 1 and every real t the function mobius(gamma, t) returns an invertible Moebius transformation of determinant (1-|gamma|^2)^t that keeps the unit disc, the unit circle and the outside; these transformations are the powers of one transformation (frame s after frame t is frame s+t, frames 0 and 2 are the identity) and turn around one point of the disc. A frame draws, without error, for every circle inside the unit circle a circle inside the unit circle, its exact image; circles overlap or touch iff their images do. Hence every frame of the gasket, at every depth, shows circles inside the unit circle of which no two overlap. For |gamma| > 1 a ValueError is raised, for |gamma| = 1 a ZeroDivisionError.", "quantifier": "for all complex gamma, all real t, all lists of circles inside the unit circle, all n >= 3, all shifts, all phi between -1 and 1, all depths", "why_tests_cant": "Infinitely many gamma, t, circles and depths; the script draws ten frames for one gamma.", "anchors": ["examples/ApollonianGasketMobius.py:57-66", "examples/ApollonianGasketMobius.py:82-86", "planegeometry/geometry.py:2472-2513"]}
{"id": "C101", "title": "triangularApollonianGasket.py draws a packing of every triangle, at every depth it finishes", "statement": "In examples/triangularApollonianGasket.py, for every triangle that is not flat and every depth, when drawTriangularGasket finishes it has drawn (7*3^(depth+1) - 1)/2 circles. The first three are the Malfatti circles. All the discs are inside the triangle and no two of them have a common point. Every circle after the first three touches three different curves among the sides of the triangle and the drawn circles, at three different points. For a flat triangle whose first vertex is not one of the others a TypeError is raised. The only step that can fail is the one in a corner, because of the tolerances of the lines, and for every triangle it fails when the depth is large enough; on the other hand, for every depth there are triangles for which the script finishes.", "quantifier": "for all triangles, all depths", "why_tests_cant": "The number of circles grows like 3^depth, the triangle is arbitrary; overlap of discs and contacts at three points are not visible in a picture.", "anchors": ["examples/triangularApollonianGasket.py:17-189", "geometry.py:Triangle.malfatti_circles", "geometry.py:Triangle.equal_detour_point", "geometry.py:Triangle.incircle", "geometry.py:intersection_line_line"]}
{"id": "C102", "title": "ModularTessellation.py draws exactly the images of a disc by the modular group up to n, without overlaps, at every frame", "statement": "In examples/ModularTessellation.py and its animation, for every n >= 2 and every real parameter u, the script finishes and the circles drawn are exactly the images, in the unit disc, of the circle with diameter from i to 2i by the integer matrices of determinant 1 with all entries at most n in absolute value, followed by the rotation R^u. All of them are strictly inside the unit circle; two matrices give the same circle iff they are equal or opposite, and otherwise circles without common interior; two circles touch iff the matrices differ by one of the generators. For n = 1 two circles are drawn, for n < 1 a ValueError is raised. In the animation the arrays are changed in place from one frame to the next and every frame still shows all the circles. The frames u and u+3 are the same and the rotations form a group fixing exp(2 pi i/3).", "quantifier": "for all n, all real u, all lists of frames, all functions satisfying the contract of np.linalg.eig", "why_tests_cant": "The number of matrices grows with n, u is real, and a missing or an overlapping circle is not visible in a picture of thousands of small circles.", "anchors": ["examples/ModularTessellation.py:1-72", "examples/ModularTessellation_animation.py", "geometry.py:unimodular_matrices", "geometry.py:Mobius.gpower", "geometry.py:Mobius.transform_circle"]}
{"id": "C103", "title": "Circles_simultaneously_tangent.py finds all the circles touching three circles in the same way", "statement": "In examples/Circles_simultaneously_tangent.py, for all three circles and every auxiliary point, when the script finishes it has found two different circles and each of them has exactly one common point with each of the three circles. If C1 and C2 have other radii than C3 and none of the discs contains the other, the two circles found are exactly the circles which touch the three given circles in the same way (all from outside, or all with one disc inside the other). With the numbers of the script it finishes. With centers at the same height the point of angle 0 never works, because the auxiliary triangle is flat.", "quantifier": "for all triples of circles, all angles of the auxiliary point, all candidate circles", "why_tests_cant": "The claim is about all configurations and about the absence of further solutions; contact at exactly one point cannot be seen with floating point numbers.", "anchors": ["examples/Circles_simultaneously_tangent.py:13-47", "geometry.py:Inversion.from_swapping_two_circles", "geometry.py:Triangle.circumcircle", "geometry.py:Circle.radical_axis", "geometry.py:intersection_circle_circle"]}
{"id": "C104", "title": "HyperbolicTesselation scripts: the reflected vertices are on the circle of the figure", "statement": "The scripts reflect the vertices of an ideal triangle of the circle circ again and again: depth d+1 has 3*2^d points, all points are finite and on circ, and the angles computed with atan2 are the angles of these points. (In the code the starting points are on the unit circle, not on circ of radius 3, and the angles are wrong.)", "quantifier": "every radius, every three angles no two of which are equal or opposite, every depth", "why_tests_cant": "the scripts only draw; an angle which is slightly wrong is not visible, and the claim is for every depth", "anchors": ["examples/HyperbolicTesselation.py:6-41", "examples/HyperbolicTesselation.py:53-60", "examples/HyperbolicTesselation2.py:9-35", "examples/HyperbolicTesselation2.py:49-53"]}
{"id": "C105", "title": "Schottky script: the circles drawn are the circles of generation n of the Schottky group", "statement": "The four curves of the script touch or are apart, the two transformations exchange them in pairs, the list Gn has each reduced word of n letters once (4*3^(n-1) words), and for every reduced word the loop draws its circle: the circles of generation n, all different, with disjoint insides, each inside a circle of the generation before. (In the code the transformations are composed in the wrong order and the circles of the words which are not cyclically reduced are not drawn.)", "quantifier": "every number of letters n >= 2, every angle theta in (-pi/2, 0) with 3 - sin(theta) < 4 cos(theta)", "why_tests_cant": "the script only draws; with 972 circles on the figure nobody sees that 240 are missing, and the claim is for every n", "anchors": ["examples/Schottky.py:11-48", "examples/Schottky.py:52-106", "examples/Schottky.py:118-160"]}
{"id": "C106", "title": "Malfatti gasket scripts: outer Soddy circle and Apollonian packing", "statement": "For every non-flat triangle, soddyOuterCircle applied to the centers of the Malfatti circles returns the circle that encloses them and touches the three of them; the triangle that is drawn is scaled so that this circle is the unit circle; and for every depth the circles drawn by gasket are an Apollonian packing: level d has 4*3^d circles, no two circles overlap, all are inside the unit circle and outside the Malfatti circles, and each touches three circles drawn before or with it.", "quantifier": "every non-flat triangle, every depth", "why_tests_cant": "the scripts only draw; they run for a few triangles, for which the mirrors are not lines, and for a small depth", "anchors": ["examples/MalfattiApollonian.py:9-23", "examples/MalfattiApollonian.py:25-69", "examples/MalfattiApollonian.py:72-88", "examples/MalfattiApollonian_animation.py:10-24"]}
{"id": "C107", "title": "triangularCircularGasket.py: the circular gaskets are packings at every depth", "statement": "startingCircles builds, for an outer circle, n >= 3 circles of a Steiner chain and the inner circle, and n + 1 mirrors as circumcircles of contact points. It succeeds exactly when no mirror is a line, which is an explicit condition on n, phi and shift. The circles are the ones of SteinerChain and the inversions the ones of ApollonianGasket.py for a chain turned by one circle. drawCircularGasket then draws n + 1 starting circles and n (n - 1) n^e circles in generation e; all of them are inside the outer circle, no two overlap, and every circle of a generation touches three others. phi = 0 is a ZeroDivisionError, |phi| > 1 and |phi| = 1 are ValueErrors.", "quantifier": "every valid outer circle, every n >= 3, every shift, every phi (between -1 and 1 and not 0 for the successful cases), every depth", "why_tests_cant": "The number of circles grows like n^depth, and overlap must be excluded for every pair; n, phi, shift and the circle vary continuously or without bound, and the mirrors degenerate to lines on a curve of values that a finite test does not hit.", "anchors": ["examples/triangularCircularGasket.py:103-134", "examples/triangularCircularGasket.py:162-216"]}
{"id": "C108", "title": "Elliptical and nested Steiner chains: closed chains of ellipses, nested chains, their bodies in space, and animations that loop", "statement": "The image of a Steiner chain by the affine map from the outer circle to an ellipse is a closed chain of n ellipses: each meets the next one, the ellipse at the center and the outer ellipse in exactly one point, there is no other contact, nothing overlaps and nothing leaves the outer ellipse. The script succeeds exactly when the pole of the inversion is farther than the tolerance from the circles. NestedSteinerChains.py and its elliptical version draw such a chain in every circle (ellipse) of the first chain, and no two of the n (m + 1) small figures overlap. The matrix Tr of the 3D scripts sends the sphere on a circle to a body that cuts the plane in the ellipse of that circle and covers, seen from above, exactly its region; these bodies form nested closed chains. A shift by 1 turns the chain by one circle, a shift by n is the identity, so that the animations loop.", "quantifier": "every valid outer circle and ellipse, every n, m >= 3, every phi and phi2 between -1 and 1, every shift, every height factor", "why_tests_cant": "Tangency and disjointness of ellipses are statements about all points of the plane for a continuum of configurations; images show them only up to the width of a line, and the number of figures is not bounded.", "anchors": ["examples/EllipticalSteinerChain.py:6-12", "examples/EllipticalNestedSteinerChains.py:6-29", "examples/NestedSteinerChains.py:6-19", "examples/NestedSteinerChains_animation.py:12-17", "examples/EllipticalSteinerChain3D.py:6-40", "examples/EllipticalNestedSteinerChains3D_animation2.py:40-50", "planegeometry/geometry.py:1703-1731", "examples/EllipticalSteinerChain_animation.py:11-16", "examples/EllipticalSteinerChain3D_animation.py:11-40", "examples/EllipticalNestedSteinerChains_animation.py:20-35", "examples/EllipticalNestedSteinerChains3D_animation.py:11-51", "examples/EllipticalNestedSteinerChains3D_animation3.py:13-55"]}
{"id": "C109", "title": "Icosahedral gasket: the matrix of a face is the displacement to it, the bodies on a face are a packing, the faces are a convex icosahedron", "statement": "For three points of space that are not on a line, transfoMatrix returns the only displacement of space (distances and orientation kept) that takes the origin and the points P and Q of the horizontal plane to them, with P on the positive half of the first axis and Q on its left; for three points of a line the entries are nan. When drawFace finishes, the surfaces drawn on the face are those of flattened balls whose sections are inside the face, which do not overlap, whose three first ones touch each other and the sides as Malfatti circles do, and whose other ones touch three sides or bodies in exactly one point each. It finishes for every triangle that is almost equilateral and not small, for at most five passes. The vertices and faces of the script are a convex icosahedron for every number between 0 and 1 in place of 0.618033988749895, regular exactly for the golden number; the script draws its twenty faces.", "quantifier": "every three points of space, every number of passes, every flattening factor h > 0, every number t between 0 and 1", "why_tests_cant": "Being a displacement, a packing with exact tangencies and a convex polyhedron are statements about all points of space and all triangles; images show a few of them up to the width of a pixel.", "anchors": ["examples/ApollonianIcosahedralGasket.py:10-35", "examples/ApollonianIcosahedralGasket.py:46-58", "examples/ApollonianIcosahedralGasket.py:182-228", "examples/ApollonianIcosahedralGasket.py:232-283"]}
{"id": "C110", "title": "Generations of Inversions.py: every curve of the orbit is drawn once", "statement": "For every n, the n-th generation built by examples/Inversions.py from the five starting circles consists of 5*4^n circles or lines, one for each word of inversions without equal consecutive letters, and each is the exact image of a starting circle by the word. Any two curves of the orbit coincide, cross at right angles, touch in one point or are disjoint. After unique_with the script draws every curve of the first four generations exactly once, coloured by its first generation.", "quantifier": "every generation n whose predecessors have circles of radius more than 1/10000 (in particular n <= 5), every word of inversions, every pair of curves", "why_tests_cant": "the list of 425 curves with duplicates is not checked by looking at the picture; words and pairs are quantified over all generations, and the two missing sides of the square are outside what a numeric test of invert_circle or invert_line sees", "anchors": ["examples/Inversions.py:7-17", "examples/Inversions.py:37-90", "planegeometry/geometry.py:1520-1546", "planegeometry/geometry.py:118-133"]}
{"id": "C111", "title": "from_boundary4 with np.float read as float: the smallest ellipse through four points in convex position", "statement": "Read np.float as float (numpy before 1.24, or the obvious repair; with the locked numpy the method always raises, see C73). Then for every four points in convex position from_boundary4 returns an ellipse through the four points, it has the smallest area among all ellipses through them, and it is the only one with that area. For four different points it returns an ellipse through them exactly when they are in convex position, which is exactly when there is such an ellipse. The region does not depend on the order of the points or on the choices of numpy (ties of argsort, order of the roots, signs of the eigenvectors).", "quantifier": "every four points of the plane, every environment meeting the contracts of np.argsort, np.roots and np.linalg.eigh", "why_tests_cant": "Minimality is against all ellipses of a one-parameter family for all quadrilaterals, and that exactly one root of the cubic is in the interval holds for all coefficients that occur; with the locked numpy no test reaches these lines.", "anchors": ["planegeometry/geometry.py:1323-1406", "planegeometry/geometry.py:1306-1321", "examples/example1.py"]}
{"id": "C112", "title": "LownerJohnEllipse, with np.float read as float, returns the smallest ellipse containing the points", "statement": "With np.float read as float (so that from_boundary4 runs), Ellipse.LownerJohnEllipse applied to at least three points, no two equal and no three on a line, returns the ellipse with the smallest area among all the ellipses that contain the points, and it is the only one with that area; the result does not depend on the random choices of the recursion nor on the order of the points. With at most two points it returns None.", "quantifier": "all finite lists of points of any length, all sequences of random indices, all answers of np.roots, np.linalg.eigh, np.linalg.eigvals and np.argsort that meet their contracts, all competing ellipses", "why_tests_cant": "The minimality is a statement about all the ellipses that contain the points, the number of points is unbounded, and the tree of recursive calls depends on random indices: a test sees one run of one list.", "anchors": ["planegeometry/geometry.py:1429-1480", "planegeometry/geometry.py:1323-1406", "planegeometry/geometry.py:1214-1288"]}
{"id": "C113", "title": "The assertions of the project's own tests hold in the model, with exact conditions in place of the sampled values", "statement": "Every assertion of the test files of the project (all of tests/ except the test of the version string) holds in the model for the values of the test, and holds for all inputs that meet explicit conditions: transforms applied row by row; swapping, fixing and composing inversions; mid-circles; the equation of orthogonality; cross-ratios; homotheties; Moebius images of circles and lines, power and mapping constructors; Malfatti circles meeting at one point returned as the tangency point; excircles meeting each sideline once; random points contained in the triangle or included in the ellipse; intersections of circles with two, one or no point; the round trips of an ellipse through its equation, five of its points and its shape matrix; diameters; and the agreement of rotate_ellipse and scale_circle with the transform_ellipse of the affine map.", "quantifier": "all circles, lines, ellipses, triangles, maps, matrices and draws meeting the stated conditions; all answers of eigvals and eigh meeting their contracts", "why_tests_cant": "These are the tests: each of them samples one input, sometimes a random one. The conditions under which the assertion is true (for instance a scale greater than -1 for scale_circle, or a centre at distance less than sqrt(a^2+b^2) for from_equation) are not visible from the sample.", "anchors": ["tests/test_Affine.py", "tests/test_AxisScaling.py", "tests/test_Circle.py", "tests/test_CrossRatio.py", "tests/test_Ellipse.py", "tests/test_Homothety.py", "tests/test_Inversion.py", "tests/test_MidCircles.py", "tests/test_Mobius.py", "tests/test_Rotation.py", "tests/test_Scaling.py", "tests/test_Shear.py", "tests/test_Triangle.py", "tests/test_intersections.py"]}
{"id": "C114", "title": "Inversion, Affine, Rotation, ScalingXY and Homothety compute the image of a point up to a few roundings", "statement": "In double precision, with any use of fused multiply-add in np.vdot and np.matmul: Inversion.invert returns inf exactly on the points that np.allclose finds close to the pole, and elsewhere each coordinate of the result differs from that of the inverse point by at most one rounding of the coordinate, eleven roundings of its difference with the pole and a term of the size of the smallest double; Affine.transform, Rotation.rotate, ScalingXY.transform and Homothety.transform have explicit forward error bounds of the same kind; Affine.transform is exact on integers below 2^53; a rotation and a ScalingXY fix their center exactly; a homothety of ratio 0 or 1 is exact, but a homothety need not fix its center: with ratio 1e17 the center (1, 1) is sent to (0, 0).", "quantifier": "for all doubles as coordinates, all real powers and factors (the ratio of the homothety is a double), all evaluation orders of the scalar products, all values of the cosine and sine within a given error", "why_tests_cant": "the tests use a few points with small coordinates and compare with a tolerance; a bound on the rounding error is about every double and every evaluation order, and the loss of the center by a homothety needs a large ratio", "anchors": ["planegeometry/geometry.py:1508-1518", "planegeometry/geometry.py:2172-2183", "planegeometry/geometry.py:2876-2911", "planegeometry/geometry.py:3160-3183", "planegeometry/geometry.py:3225-3247"]}
{"id": "C115", "title": "On integer coordinates line_line_intersection_, is_parallel and is_perpendicular are exact in double precision", "statement": "In double precision: for points with integer coordinates of absolute value at most 10^5, line_line_intersection_ returns None exactly when the two lines are parallel, and otherwise returns the point of intersection with each coordinate correctly rounded; for integer coordinates of absolute value at most 2^24, Line.is_parallel and Line.is_perpendicular answer correctly, for any use of fused multiply-add. With integers up to 2^28 both parts fail: two lines crossing at the origin are declared parallel, and for two segments of length less than four with a common end point the computed intersection is at distance more than five of that point.", "quantifier": "for all points with integer coordinates within the stated bounds, all evaluation orders of np.vdot", "why_tests_cant": "the tests compare with a tolerance on a few lines near the origin; that no rounding error at all occurs below a bound on the coordinates, and that errors larger than the data occur above it, concern all integers and the rounding of each operation", "anchors": ["planegeometry/internal.py:89-108", "planegeometry/geometry.py:135-166"]}
{"id": "C116", "title": "Circles with integer data in double precision: membership, orthogonality, number and place of the intersections", "statement": "In double precision, for circles with integer center and positive integer radius: contains (data up to 2^24 and 2^26), includes and is_orthogonal (coordinates up to 10^4, radii up to 2*10^4) are exact; intersection_circle_circle (data up to 90000) answers with a circle, None, one point or two points exactly when the circles are equal, disjoint, tangent or secant; intersection_circle_line (coordinates up to 3000, radius up to 10000, line through two integer points) returns None, one point or two points exactly when the line misses, touches or cuts the circle, and each returned coordinate differs from the coordinate of the true intersection by at most (|x| + 5 r)/2^53. With larger data is_orthogonal errs: centers at distance 40000 and radii 40000 and 1.", "quantifier": "for all circles, points and lines with integer data within the stated bounds, all evaluation orders of np.vdot", "why_tests_cant": "tangency is decided by comparing a computed discriminant with a tolerance; the tests look at a few configurations, the claim is that for no integer data within the bounds is a tangent line or circle missed or a secant one taken for tangent", "anchors": ["planegeometry/internal.py:110-133", "planegeometry/geometry.py:376-388", "planegeometry/geometry.py:390-416", "planegeometry/geometry.py:607-620", "planegeometry/geometry.py:766-821"]}
{"id": "C117", "title": "Triangles with integer vertices in double precision: contains and is_acute", "statement": "In double precision: for a non-flat triangle and a point with integer coordinates of absolute value at most 10^7, Triangle.contains accepts every point strictly inside, and every point it accepts is strictly inside or on the open edge BC; some points of that edge are accepted, e.g. (2, 1) for the triangle (0, 0), (3, 0), (0, 3). For integer vertices of absolute value at most 2^23 and no right angle, Triangle.is_acute says exactly whether the three angles are acute; for right triangles both answers occur: True for sides 3, 4, 5 and False for sides 1, 1, sqrt 2.", "quantifier": "for all triangles and points with integer coordinates within the stated bounds, all evaluation orders of np.vdot", "why_tests_cant": "the tests check a few points; here the numbers s and t are rounded quotients and the lengths rounded square roots, and the claim is that no rounding changes an answer except on one edge and for right angles", "anchors": ["planegeometry/geometry.py:1778-1797", "planegeometry/geometry.py:1816-1838"]}
{"id": "C118", "title": "Overflow, infinities and nan: where the double-precision model is the program, and what happens elsewhere", "statement": "In a model with nan, the two infinities and overflow to infinity: (1) for data of absolute value at most 2^508 (circles: contains, includes, power, distance_), 2^1021 (Circle.is_equal and the checks of the constructors), 2^330 (is_parallel, is_perpendicular, line_line_intersection_) and 2^510 (orientation) no overflow and no nan occur, and the functions are those of the model without largest number. (2) nan is accepted as a radius and as a coordinate; then contains, includes, is_equal, is_parallel, is_perpendicular are False whatever the other arguments, even on the same object twice, power, distance_ and the intersection are nan, a Line is accepted with twice the same point, and Triangle.orientation is -1. (3) A radius that is infinite or at least 2^512 is accepted and the circle contains every point with finite coordinates: the circle of radius 2^512 around the origin contains and includes (2^600, 0). A line whose points differ by at least 2^512 in both coordinates is not parallel to itself and meets itself in (nan, nan).", "quantifier": "for all floats, finite or not, as coordinates and radii (within the stated bounds for part 1), all evaluation orders of np.vdot", "why_tests_cant": "the tests use small finite numbers; that no overflow occurs below a bound, and what is answered for each special value, concerns all floats", "anchors": ["planegeometry/geometry.py:60-68", "planegeometry/geometry.py:361-416", "planegeometry/geometry.py:529-539", "planegeometry/geometry.py:135-166", "planegeometry/geometry.py:1805-1814", "planegeometry/internal.py:6-7", "planegeometry/internal.py:23-28", "planegeometry/internal.py:78-108"]}
{"id": "C119", "title": "The checks printed by examples/example1.py, for all data", "statement": "Rotating a point and rotating rows that repeat it give the same image on every row; the circumcircle of a non-flat triangle includes its vertices; the points returned by intersection_circle_line and intersection_ellipse_line are on the curve; the affine map of from_ellipse_to_ellipse maps the first ellipse onto the second and transform_ellipse returns an ellipse with the same points; power(n) and gpower(n) have the same matrix; the image of a point of a circle by a Mobius map is included in the image of the circle; the projection on a line is included in the line; a reflection applied twice gives the point back when no point involved is within the tolerances of the line; a shear fixes its vertex; ScalingXY multiplies the two coordinates of the vector from its centre.", "quantifier": "for all circles, lines, ellipses, invertible Mobius matrices, exponents, shears, scalings and points satisfying the stated conditions", "why_tests_cant": "the script prints each check for one choice of data and compares nothing", "anchors": ["examples/example1.py:51-68", "examples/example1.py:93-102", "examples/example1.py:119-162", "planegeometry/geometry.py:207-263"]}
{"id": "C120", "title": "Line.includes, projection, distance and reflection in double precision on integer data", "statement": "In double precision: for a line and a point with integer coordinates of absolute value at most 2^11, includes has the value it would have without rounding for all its options, and by default is True exactly for the points of the line. For absolute values at most 33333 the computed projection is the exact foot of the perpendicular with each coordinate rounded once, and distance is within 10^-10 of the exact distance. For absolute values at most 1000 the computed projection is a point that includes accepts; for A = (0, -33000), B = (33001, 0) and M = (1, -33001) it is not. For absolute values at most 150 reflection returns a point of the line unchanged and the mirror image of any other point within 10^-12 per coordinate; for the line through (0, 0) and (300, 301) and the point (299, 300), which is not on it, reflection raises ValueError.", "quantifier": "for all lines and points with integer coordinates within the stated bounds, all evaluation orders of np.vdot", "why_tests_cant": "the test suite reflects and projects a few points; that no rounding changes a decision, and the bound up to which this holds, concern all the integer data", "anchors": ["planegeometry/geometry.py:60-68", "planegeometry/geometry.py:169-263", "planegeometry/geometry.py:2704-2719"]}
{"id": "C121", "title": "The random points are uniformly distributed and independent", "statement": "If the numbers drawn by numpy have their documented laws (rand uniform on [0, 1), uniform(lo, hi) uniform on [lo, hi), normal standard normal, all independent), then every row of Triangle.random_points, Circle.random_points and Ellipse.random_points with where=\"in\" is uniformly distributed with respect to the area of the closed triangle, disc or elliptic region; every row of Triangle.random_points with where=\"on\" is uniformly distributed on the three edges with respect to the length; every row of Circle.random_points with where=\"on\" is uniformly distributed on the circle; and the rows are independent. On an ellipse, where=\"on\" gives a uniformly distributed eccentric angle, which is uniform with respect to the length exactly if the ellipse is a circle.", "quantifier": "all triangles, circles and ellipses, all numbers of points, all rows, all measurable sets, all probability spaces", "why_tests_cant": "A test can only look at finitely many samples; no finite sample decides a probability, and a wrong density (for instance without the square root) gives points that are still in the right region.", "anchors": ["planegeometry/internal.py:181-232", "planegeometry/geometry.py:418-435", "planegeometry/geometry.py:1018-1035", "planegeometry/geometry.py:2102-2119"]}
{"id": "C122", "title": "circleOA and circleAB in double precision", "statement": "In double precision circleOA and circleAB raise ValueError exactly when np.allclose accepts the two points. Otherwise circleOA keeps the centre, its radius has a relative error of at most 2^-50, and the circle includes the given point. The circle of circleAB includes both ends of the diameter when |A.x+B.x| and |A.y+B.y| are at most 2^20 times the distance of the points, and also for all integer coordinates of absolute value at most 2^52, where the centre is exact. contains is a different matter: for integer coordinates up to 2^25 and an integer distance the circle of circleOA contains the point, but the circle of centre (0, 0) through (2, 3) does not contain (2, 3). For A = (2^53-1, 0) and B = (2^53+2, 1) the circle of circleAB includes neither end.", "quantifier": "for all pairs of points with double coordinates (no overflow), or integer coordinates within the stated bounds, all evaluation orders of np.linalg.norm and np.vdot", "why_tests_cant": "the tests build a few circles with small coordinates; that the tolerance of includes absorbs the rounding of the radius for every pair of points, and where it stops absorbing the rounding of the centre, concerns all doubles", "anchors": ["planegeometry/geometry.py:361-366", "planegeometry/geometry.py:390-416", "planegeometry/geometry.py:646-674"]}
{"id": "C123", "title": "Circle constructors, Triangle.contains and transformations with infinities and nan", "statement": "With coordinates of absolute value at most 2^508, circleOA and circleAB never overflow and give exactly the finite double-precision circle; with coordinates of the data at most 2^500 the same holds for Triangle.contains and for Homothety, ScalingXY, Rotation and Affine. Beyond: circleOA of points at distance at least 2^512 in a coordinate gives an infinite radius, includes its point and contains every finite point; circleAB of two points with coordinates 2^1023 gives an infinite centre and includes neither end; Triangle.contains denies an inner point of the triangle (0,0), (2^600,0), (0,2^600). A nan coordinate makes Triangle.contains false, both coordinates of the image by a rotation or affine map nan, and only the same coordinate nan for homotheties and scalings. The identity as an affine map sends (inf, y) to (inf, nan), as a homothety it keeps (inf, y).", "quantifier": "for all finite data within the stated bounds, all points with a nan coordinate, all evaluation orders of the dot products", "why_tests_cant": "the tests use small finite coordinates; overflow and nan need data of size 2^500 and the statements are about all of them", "anchors": ["planegeometry/geometry.py:646-674", "planegeometry/geometry.py:1816-1828", "planegeometry/geometry.py:2172-2183", "planegeometry/geometry.py:2876-2911", "planegeometry/geometry.py:3160-3183", "planegeometry/geometry.py:3225-3247"]}
{"id": "C124", "title": "triangularCircularGasket scripts: the whole picture is a packing of the triangle, and the animation loops", "statement": "The picture of triangularCircularGasket.py is the triangular gasket without the three Malfatti circles, with a circular gasket in each Malfatti circle. For every triangle that is not flat, whenever the triangular gasket is drawn and the Malfatti circles are fit for the circular gaskets (no flat mirror, not too small), the script finishes; the number of circles is (7 * 3^(depth+1) - 1) / 2 + n1^depth2 + n2^depth2 + n3^depth2, all of them are inside the triangle and no two overlap. For the triangle of the scripts this holds for every depth up to 4, every depth2 >= 1, every shift and all phi up to 1/4, 2/5, 2/5, hence for triangularCircularGasket.py and for every frame of the animation. A shift by 1 gives exactly the same picture, and the 90 frames are 90 different shifts from 0, below 1. For a flat triangle the script raises TypeError.", "quantifier": "all triangles, depths, numbers of circles n1, n2, n3 >= 3, phi1, phi2, phi3 and shifts", "why_tests_cant": "the absence of overlaps is a statement about more than a thousand circles and all their pairs for each of infinitely many shifts and triangles; the picture shows it only up to the width of a pixel", "anchors": ["examples/triangularCircularGasket.py:229-282", "examples/triangularCircularGasket_animation.py:260-287"]}
{"id": "C125", "title": "radical axes and images of circles in double precision, on integer data", "statement": "In double precision, for integer centers and radii up to 2^17, Circle.radical_center is infinite exactly for concentric circles and otherwise gives the radical center up to one rounding of the coordinate and two roundings of its difference with the middle of the centers. For integers up to 400, Circle.radical_axis is None exactly for concentric circles and otherwise a line through points within 2^-34 of two distinct points of the radical axis; for larger radii Line may reject the two points as equal. For an integer pole, center and radius up to 2^24 (and a power of absolute value at least 2^-1000), Inversion.invert_circle returns a circle when the pole is not on the circle, within three roundings of the image of the circle; for a circle through the pole (integers up to 30000) it returns the line through two points close to points of the image line, or Line rejects these as equal. Beyond this range the power of the pole is not exact and a circle through the pole may have a circle as its image.", "quantifier": "all integer centers, radii and poles in the stated ranges, all powers, every way of fusing the multiplications in np.vdot", "why_tests_cant": "the claims are about every rounding of every input; the values of the tests do not show an error in the last digits nor a wrong branch for large integers", "anchors": ["planegeometry/geometry.py:541-578", "planegeometry/geometry.py:1520-1534"]}
{"id": "C126", "title": "Mobius transformations in double precision, on integer data", "statement": "In double precision, np.matmul and Mobius.compose are exact on complex matrices whose entries have integer parts up to 2^25, in whatever order the products are added and fused; Mobius.power is exact as long as the powers of the matrix (of its inverse, for a negative exponent) up to the exponent have integer parts up to 2^25. The complex quotient of numbers with integer parts up to 2^53 is finite exactly for a nonzero divisor and then has an error of at most thirteen roundings of its absolute value in each part. Mobius.transform, for a matrix and a point with integer parts up to 2^24 and c*z+d nonzero, returns a finite point within thirteen roundings of the image; at inf it returns inf exactly when c = 0 and otherwise a/c within thirteen roundings. At the pole it returns inf or divides by zero; it returns inf when c is a power of two, and divides by zero for (1, 0; 49, -49) at (1, 0), where the exact program gives inf.", "quantifier": "all matrices and points with integer parts in the stated ranges, all exponents, every order of the sums and every way of fusing the multiplications", "why_tests_cant": "the tests compare a few images with a tolerance and never evaluate a transformation at its pole; whether -d/c is recognised depends on the last bit of a reciprocal", "anchors": ["planegeometry/geometry.py:2347-2384", "planegeometry/geometry.py:2425-2442"]}
{"id": "C127", "title": "Inscribed circles in double precision, on integer triangles", "statement": "In double precision, for a triangle which is not flat and whose vertices have integer coordinates of absolute value at most B, with B up to 512, Triangle.incircle returns a circle: it neither raises nor returns a non-finite number. Each coordinate of its center is within 9 B / 2^53 of the center of the inscribed circle (the circle inside the triangle tangent to the three side lines), and its radius has a relative error of at most B^4 / 2^41. For flat triangles the guard depends on rounding: (0,0), (1,1), (3,3) gets a circle of positive radius although the exact program raises, and (0,0), (3,3), (4,4) raises from sqrt rather than from the constructor of circles.", "quantifier": "all non-flat triangles with integer vertices up to 512 in absolute value, every way of fusing the multiplications in the scalar products", "why_tests_cant": "Heron's formula cancels badly for needle-like triangles; the tests use one well-shaped triangle with a tolerance and cannot bound the loss over all shapes, nor see that a flat triangle can be given a circle", "anchors": ["planegeometry/geometry.py:1882-1897"]}
{"id": "C128", "title": "The polygons drawn from Ellipse.path and Arc.path approximate the curves", "statement": "For a valid ellipse and n >= 3 the closed polygon with the vertices path(n) has n distinct vertices, is convex and described counterclockwise (every other vertex is strictly to the left of each side), lies inside the ellipse, and encloses the area n/2 sin(2 pi/n) rmajor rminor; every point of the polygon is within max(rmajor, rminor)(1 - cos(pi/n)) of the ellipse and conversely. For an arc and n >= 2 the polygonal line through path(n) goes from starting_point() to ending_point(), and the line and the arc described counterclockwise from the first to the second point are within radius (1 - cos(d/(2(n-1)))) of each other, d being the angle of the arc.", "quantifier": "every ellipse, every arc, every number of points", "why_tests_cant": "the distance of two curves is a supremum over infinitely many points, n is unbounded", "anchors": ["planegeometry/geometry.py:890-917", "planegeometry/geometry.py:996-1016"]}
{"id": "C129", "title": "The ellipse of SteinerChain is the locus of the centers of all circles tangent to the outer and the inner circle", "statement": "For n >= 3, |phi| < 1 and every shift (when the pole is farther than the tolerance from the circles), the ellipse returned by SteinerChain is the set of points P with |P O| + |P O'| = R + r, where (O, R) is the outer and (O', r) the inner circle, and it is the set of the centers of all circles tangent to the outer circle from the inside and to the inner one from the outside. With q = (1 - sin(pi/n))/(1 + sin(pi/n)), the inner circle has center O + R (phi (1 - q^2)/(1 - q^2 phi^2), 0) and radius R q (1 - phi^2)/(1 - q^2 phi^2), is strictly inside the outer circle, and its center is not on the ellipse. Inner circle and ellipse do not depend on the shift, and increasing the shift by one moves every circle to the place of the next one. The polygon drawn from ellipse.path(m) is inside the outer circle and within R (1 - cos(pi/m)) of this locus.", "quantifier": "every outer circle, every n >= 3, every phi with |phi| < 1, every shift, every number of points m >= 3", "why_tests_cant": "The identity of the ellipse with a locus is about all points of the plane and all tangent circles; the periodicity in the shift holds for a continuum of shifts.", "anchors": ["planegeometry/geometry.py:1688-1731", "planegeometry/geometry.py:996-1016", "examples/SteinerChainWithEllipse.py:7-32", "examples/NestedSteinerChains_animation.py:13"]}
{"id": "C130", "title": "The circumscribed circle in double precision, through numpy's determinant", "statement": "For every triangle with integer vertices of absolute value at most B <= 1024 that is not flat, Triangle.circumcircle evaluated in double precision returns a circle; with (O, R) the exact circumscribed circle and S twice the area, |x - O.x| <= (B^3 + B^2 |O.x|)/(2^43 S) + |O.x|/2^36, likewise for y, and |r - R| is at most the sum of these bounds plus R/2^50. np.linalg.det is modelled as the LU factorisation with partial pivoting followed by sign * exp(sum of log |u_ii|), and the bound holds for every build of LAPACK (reciprocal pivots or divisions, fused operations or not, order of the additions) and for all logarithms and exponentials accurate to one unit in the last place. For flat triangles with integer vertices up to 2^11 and A different from B and C the result is None; with general doubles None is also returned for some triangles that are not flat.", "quantifier": "all non-flat triangles with integer vertices up to 1024 in absolute value, all builds of LAPACK, all logarithms and exponentials of the stated accuracy; for flat triangles all integer vertices up to 2048", "why_tests_cant": "The error depends on the triangle, on the pivoting and on the machine's linear algebra; tests compare one triangle on one machine with a tolerance.", "anchors": ["planegeometry/geometry.py:1899-1920", "planegeometry/geometry.py:1769-1775"]}
{"id": "C131", "title": "Affine.inverse and its guard against singular maps in double precision", "statement": "For every affine map whose matrix has integer entries up to B <= 2^20, np.linalg.det (LU with partial pivoting, then sign * exp of a sum of logarithms) differs from the determinant D by at most B^2/2^44 + |D|/2^38 and has its sign, so an invertible map is never taken for a singular one; with D nonzero and any intercept with coordinates up to E >= 1, Affine.inverse returns a map whose matrix entries differ from those of the exact inverse by at most B^3/(2^45 D^2), and whose intercept by at most E times this. Singular integer matrices whose largest entry in the first column is a power of two (or zero) are recognised: Affine.inverse and transform_line return None. Other singular matrices can pass the guard: for [[49, 49], [1, 1]] a map is returned as inverse, with every build of LAPACK.", "quantifier": "all integer matrices up to 2^20, all intercepts, all builds of LAPACK (separately for det and inv), all logarithms and exponentials accurate to one unit in the last place", "why_tests_cant": "The comparison of a computed determinant with zero depends on the rounding of each entry and on the machine's linear algebra; tests sample a few maps on one machine.", "anchors": ["planegeometry/geometry.py:2149-2157", "planegeometry/geometry.py:2185-2196", "planegeometry/geometry.py:2142-2147"]}
{"id": "C132", "title": "Affine.compose and Affine.from_mapping_three_points in double precision", "statement": "Composition of affine maps with integer data up to 2^24 is exact, in both orders and for every order of the additions in np.matmul. For integer points P1, P2, P3 up to B <= 2^11 and images Q1, Q2, Q3 up to C <= 2^11, neither triple collinear, from_mapping_three_points returns a map whose matrix is within C B^3/(2^39 D^2) and whose intercept is within C B^4/(2^39 D^2) of the exact map, D being twice the area of P1 P2 P3, and which sends each Pi to Qi up to 3 C B^4/(2^39 D^2) in each coordinate. When one of the triples is collinear (equal points included) the result is None.", "quantifier": "all integer points up to 2^11, all builds of LAPACK, all orders of summation in np.matmul, all logarithms and exponentials accurate to one unit in the last place", "why_tests_cant": "Tests map one triple on one machine; the error depends on the shape of the triangle and on the linear algebra library.", "anchors": ["planegeometry/geometry.py:2159-2170", "planegeometry/geometry.py:2237-2271", "planegeometry/internal.py:159-171"]}
{"id": "C133", "title": "The angles of a triangle in double precision", "statement": "For a non-flat triangle with integer vertices of absolute value at most B <= 512 the quotients dot/b/c of angleA, angleB, angleC stay inside [-1, 1] after rounding, so acos never raises, and each returned angle is within eta + 152 B^2/2^53 of the exact angle, eta being the error of the C library's acos; the sum of the three is within 3 eta + 456 B^2/2^53 of pi. For the flat triangle (0,0), (3,2), (6,4) the quotient is 1 + 2^-52 and angleA raises ValueError although the exact angle is 0; for (0,0), (1,1), (2,2) the exact angle is 0 and the returned one exceeds 2^-27.", "quantifier": "all non-flat triangles with integer vertices up to 512, all contractions of np.vdot, all acos functions with error at most eta", "why_tests_cant": "Whether rounding pushes a cosine outside of the domain of acos depends on the vertices; a test looks at a few of them.", "anchors": ["planegeometry/geometry.py:1840-1880", "planegeometry/internal.py:81-88"]}
{"id": "C134", "title": "Triangle.orthic_triangle in double precision", "statement": "For three different points with integer coordinates of absolute value at most B <= 512 (acute, obtuse, right or flat) orthic_triangle returns a triangle whose vertices are within B^2/2^44, in each coordinate, of the feet of the altitudes. At a right angle the quotient is exactly zero, its inverse is infinite and the weight is zero, and the bound holds as well.", "quantifier": "all triples of different integer points up to 512, all contractions of np.vdot", "why_tests_cant": "Tests look at one acute triangle; right angles go through an infinite intermediate value and obtuse angles through a cancellation.", "anchors": ["planegeometry/geometry.py:1947-1972"]}
{"id": "C135", "title": "Triangle.excircles in double precision", "statement": "For a non-flat triangle with integer vertices of absolute value at most B <= 256, excircles returns three circles; a coordinate v of a center has an error of at most (B + |v|) B^4/2^42 and a radius a relative error of at most B^4/2^41 with respect to the circle tangent to the three side lines whose center is across the corresponding side. For the flat triangle (0,0), (1,1), (3,3), where a denominator is exactly zero, double precision returns three circles, one with a radius above 2^26.", "quantifier": "all non-flat triangles with integer vertices up to 256, all contractions of np.vdot", "why_tests_cant": "The denominators -a+b+c are differences of irrational lengths; how much they lose depends on the triangle.", "anchors": ["planegeometry/geometry.py:1922-1945"]}
{"id": "C136", "title": "Circle.angle in double precision", "statement": "For circles whose centers and radii are integers of absolute value at most B <= 2048, angle returns None exactly when the circles have no common point. When they cross in two points it does not raise and returns the exact angle up to 240 B^3/2^53 plus the error of the library function acos. For tangent circles it can raise: centers (1,0), (5,0), radii 3, 1 give acos the number 1 + 2^-51 and a ValueError, while the exact angle is 0.", "quantifier": "all pairs of circles with integer data up to 2048, all contractions of np.vdot, all accuracies of acos", "why_tests_cant": "Whether the rounded cosine leaves [-1, 1] depends on the last bits of reciprocals of the radii; a few test circles cannot show it.", "anchors": ["planegeometry/geometry.py:622-644"]}
{"id": "C137", "title": "Line.direction_offset and Line.is_equal in double precision", "statement": "For lines through distinct points with integer coordinates of absolute value at most 20, and library functions atan2, cos, sin accurate to 2^-45: the computed offset is not negative and is the distance from the origin up to 2^-38, the points of the line satisfy the equation cos(direction) x + sin(direction) y = offset up to 2^-43 (|x|+|y|) + 2^-38, and is_equal answers True exactly when the lines are equal or symmetric with respect to the origin (the error of C04; rounding adds no other).", "quantifier": "all pairs of lines with integer points up to 20, all library functions within the accuracy", "why_tests_cant": "Two pairs of points of one line give directions that differ in the last bits or by pi; the answer depends on the modulus and on tolerances for every such pair.", "anchors": ["planegeometry/geometry.py:88-133"]}
{"id": "C138", "title": "Circle.orthogonal_through_two_points_on_circle in double precision", "statement": "For library functions with relative accuracy 2^-51, a circle of radius r >= 1 and any two angles whose rounded difference is not a multiple of math.pi, the method returns a circle; with t the rounded half difference, R a bound of the coordinates of the center and S = r/|cos t| + R, it is orthogonal to the given circle up to 67 S^2/2^53 and contains up to 100 S^2/2^53 the points at the two angles, which are the given ones up to rounding. For opposite points it can fail: with a = 7*pi/4 and a + pi on the unit circle the remainder modulo math.pi is 2^-50, and the result is a circle with radius above 2^46 and not the diameter.", "quantifier": "all circles with radius at least 1, all angles, all library functions within the accuracy", "why_tests_cant": "Whether the difference of two angles is exactly a multiple of math.pi depends on the last bit of each angle.", "anchors": ["planegeometry/geometry.py:494-527"]}
{"id": "C139", "title": "Ellipse.equation, contains and includes in double precision", "statement": "For library functions with error at most 4/2^53, data and point bounded by R >= 1 and an angle of at most 360 degrees (or any angle in radians), contains answers right for every point whose value of (a b)^2 |(X/a)^2 + (Y/b)^2 - 1| exceeds R^4/2^41; includes accepts only points with that value at most 3e-9 + R^4/2^41, and accepts every point of the ellipse when R <= 6. For angle zero and integers up to 2048 both answers are exact. Above the bound they can be wrong: the point (21999, 29332) of the circle of radius 36665 given as an ellipse is rejected by both.", "quantifier": "all ellipses and points within the bounds, all library functions within the accuracy", "why_tests_cant": "The error bound holds for a continuum of angles, axes, centers and points; failing points on the ellipse are rare.", "anchors": ["planegeometry/geometry.py:1095-1122", "planegeometry/geometry.py:1124-1135", "planegeometry/geometry.py:1137-1147"]}
{"id": "C140", "title": "Scaling.transform in double precision", "statement": "For library functions with error at most 4/2^53, center and point with coordinates of absolute value at most R >= 1, any nonzero direction and any scale s, the coordinates of Scaling.transform(P) differ from those of the scaled point by at most 24 (4|s| + 9) R / 2^53; the center is mapped to itself exactly.", "quantifier": "all centers and points within R, all nonzero directions, all scales, all library functions within the accuracy", "why_tests_cant": "The bound holds for all directions and scales, including directions of any length and negative scales.", "anchors": ["planegeometry/geometry.py:3336-3379", "planegeometry/geometry.py:3278-3293"]}
{"id": "C141", "title": "Ellipse.path in double precision", "statement": "For library functions with error at most 4/2^53, center and axes bounded by R >= 1 and an angle of at most 360 degrees (any angle in radians), row i of Ellipse.path(n) differs from the point of eccentric angle 2 pi i/n by at most 160 R/2^53 in each coordinate; for R = 2 Ellipse.includes in double precision accepts every row.", "quantifier": "all ellipses within R, all n up to 2^50, all rows, all library functions within the accuracy", "why_tests_cant": "Every ellipse and every number of points is covered, with the roundings of linspace and of the two different conversions to radians.", "anchors": ["planegeometry/geometry.py:996-1016", "planegeometry/internal.py:139-149", "planegeometry/geometry.py:1124-1135"]}
{"id": "C142", "title": "Arc.path in double precision", "statement": "For library functions with error at most 4/2^53, center and radius bounded by R >= 1 and angles of at most one turn, the rows of Arc.path(n) follow the circle from alpha1 over a sweep of at most one turn: row i differs from the point of polar angle alpha1 + s i/(n-1) by at most 150 R/2^53 in each coordinate, where s is alpha2 - alpha1 up to turns and 100/2^53; the first and the last row are within 150 R/2^53 and 250 R/2^53 of the starting and the ending point. The sweep can differ from the exact one by a whole turn: from the double after 47 degrees to 47 degrees the exact arc is almost the whole circle, while all rows are one point.", "quantifier": "all arcs within R, all n up to 2^50, all rows, all library functions within the accuracy", "why_tests_cant": "Every arc and every number of points is covered, with the roundings of the conversion, of the reduction modulo 2*pi and of linspace; the failing arc was found from the roundings.", "anchors": ["planegeometry/geometry.py:890-917", "planegeometry/internal.py:151-157", "planegeometry/geometry.py:919-935"]}
{"id": "C143", "title": "Inversion.from_swapping_two_circles in double precision, on integer data", "statement": "In double precision: for integer centers and equal integer radii up to 2^20 from_swapping_two_circles returns exactly the inversion, or None, that it returns without rounding; for integer centers and different positive integer radii up to B <= 128 it takes the same branches, the coordinates of the pole have an error of at most 28 B^3/2^53, and the power has an error of at most B^6/2^43 and never the opposite sign.", "quantifier": "all pairs of circles with integer data in the bounds, both values of positive, all ways of fusing the operations of np.vdot", "why_tests_cant": "The branches compare a rounded square root with radii by ==, <, >=; that all of them are right, touching circles included, needs the gap between integers and square roots of integers.", "anchors": ["planegeometry/geometry.py:1591-1649", "planegeometry/internal.py:78-87"]}
{"id": "C144", "title": "mid_circles in double precision, on integer data", "statement": "In double precision, for integer centers and different positive integer radii up to B <= 32, mid_circles returns as many circles as without rounding: one if the circles do not cross, two if they cross at two points. The coordinates of the centers have an error of at most 28 B^3/2^53 and the radii an error of at most B^7/2^41. For equal integer radii and integer data up to 2^11 the result is the one without rounding, the given circle, a line, or a line and a circle, except that the radius of this circle is correctly rounded.", "quantifier": "all pairs of circles with integer data in the bounds, all ways of fusing the operations of np.vdot", "why_tests_cant": "The five branches compare rounded squares with the tolerance sepsilon_, touching circles included; a test covers single pairs, not that every rounded comparison and both constructor checks come out right.", "anchors": ["planegeometry/geometry.py:697-763", "planegeometry/internal.py:78-87"]}
{"id": "C145", "title": "Inversion.from_fixing_two_circles in double precision, on integer data", "statement": "In double precision, for integer centers and radii up to B <= 2^17, from_fixing_two_circles has no finite pole exactly for concentric circles; otherwise the coordinates of the pole have an error of at most 4 B^2/2^53 and the power an error of at most 175 B^4/2^53. For data up to 100 the power has the right sign unless the circles touch.", "quantifier": "all pairs of circles with integer data in the bounds, all ways of fusing the operations of np.vdot", "why_tests_cant": "The sign of the power decides whether the inversion has fixed points; that no pair of integer circles gets the wrong one needs the gap of the exact power from zero.", "anchors": ["planegeometry/geometry.py:1651-1665", "planegeometry/geometry.py:529-540", "planegeometry/geometry.py:541-559"]}
{"id": "C146", "title": "cross_ratio in double precision, on integer points", "statement": "In double precision, for points with integer coordinates up to 2^25, cross_ratio raises its ValueError exactly when two points coincide; otherwise the absolute value of the error is at most 34/2^53 of the absolute value of the cross ratio, and for points of a circle or a line the computed imaginary part is at most 35/2^53 of the real part; for coordinates up to 2^10 that happens only for such points, so the computed value decides whether four points lie on a circle or a line.", "quantifier": "all quadruples of points with integer coordinates in the bounds, all ways of fusing the sums of CPython's complex operations", "why_tests_cant": "The docstring says that the result is real exactly for concyclic points; with rounding it is only nearly real, and how nearly, for every quadruple, needs error bounds of the two complex divisions.", "anchors": ["planegeometry/geometry.py:2616-2637"]}
{"id": "C147", "title": "Inversion.compose in double precision, on integer data", "statement": "In double precision, for poles with integer coordinates up to 2^11 and integer powers up to 2^23, Inversion.compose returns exactly the M\u00f6bius transformation that it returns without rounding, for both values of left. For poles up to 64 and powers up to 4096 the composed transformation maps a point with integer coordinates up to 2^24 to the double inverse with an error of at most 13/2^53 of the distance of the image from the origin.", "quantifier": "all pairs of inversions with integer data in the bounds, all points, every np.matmul that adds the products in some order, fused or not", "why_tests_cant": "The order and the fusing of the sums in np.matmul depend on the library; a test sees one machine and single inversions.", "anchors": ["planegeometry/geometry.py:1561-1577", "planegeometry/internal.py:249-252", "planegeometry/internal.py:176-179"]}
