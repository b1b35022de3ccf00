{
 "claims": [
  {
   "property": "C01",
   "status": "partial",
   "theorems": [
    "C01_is_point",
    "C01_constructors_reject",
    "C01_methods_reject",
    "C01_methods_message",
    "C01_functions_reject",
    "C01_inf_methods_reject",
    "C01_methods_accept",
    "C01_functions_accept",
    "C01_line_accept",
    "C01_circle_accept",
    "C01_complex64_counterexample",
    "C01_transform_counterexample",
    "C01_flat_sequence"
   ],
   "note": "Proved for the checks, 11 constructors and the methods and functions that take points: exactly the tuples, lists and 1-d arrays of two real numbers are accepted, everything else is a ValueError. The claim fails for numpy complex scalars other than complex128, and for the methods that take a point or a matrix (numeric strings and None are converted): counterexamples proved. inf is accepted by three methods, as documented."
  },
  {
   "property": "C02",
   "status": "partial",
   "theorems": [
    "C02_invariants_partial",
    "C02_rejects",
    "C02_degenerate_images",
    "C02_nan_counterexample"
   ],
   "note": "Proved by induction over every finite sequence of 50 API operations, when the computations are finite. The claim fails for nan: Circle((0,0), nan) is accepted (counterexample proved)."
  },
  {
   "property": "C03",
   "status": "proved",
   "theorems": [
    "C03_direction_offset"
   ],
   "note": "normal form of every valid line"
  },
  {
   "property": "C04",
   "status": "partial",
   "theorems": [
    "C04_is_equal_complete",
    "C04_is_equal_unsound",
    "C04_symmetric_lines_counterexample",
    "C04_is_equal_sound_partial",
    "C04_exact"
   ],
   "note": "Completeness proved. The full claim is false: a line off the origin and its mirror image through the origin are reported equal (C04_symmetric_lines_counterexample, C04_is_equal_unsound). C04_exact shows that this is the only failure: when the answer is True, the first line or its mirror image through the origin is the second line up to the tolerances."
  },
  {
   "property": "C05",
   "status": "proved",
   "theorems": [
    "C05_includes"
   ],
   "note": "exact characterisation of includes with default flags"
  },
  {
   "property": "C06",
   "status": "proved",
   "theorems": [
    "C06_includes_strict",
    "C06_halfline_origin_excluded"
   ],
   "note": "all four flag combinations, away from the end points as stated; the origin of a half-line is excluded by the code (C06_halfline_origin_excluded)"
  },
  {
   "property": "C07",
   "status": "proved",
   "theorems": [
    "C07_projection",
    "C07_distance"
   ],
   "note": "foot of the perpendicular, minimal distance attained"
  },
  {
   "property": "C08",
   "status": "proved",
   "theorems": [
    "C08_perpendicular",
    "C08_perpendicular_total",
    "C08_perpendicular_on_line_total",
    "C08_perpendicular_raises_on_line"
   ],
   "note": "result characterised and failures characterised in both branches"
  },
  {
   "property": "C09",
   "status": "partial",
   "theorems": [
    "C09_exact",
    "C09_involution_exact",
    "C09_reflection_mirror",
    "C09_reflection_fixes_line",
    "C09_reflection_total",
    "C09_reflection_involutive_partial",
    "C09_reflection_isometry",
    "C09_reflection_raises_counterexample",
    "C09_involution_counterexample"
   ],
   "note": "Every returned point is the mirror image; isometry. The exact set of points where the call returns the mirror image, and the exact set where reflecting twice gives the point back, are proved (C09_exact, C09_involution_exact). The full claim is false: the image can be np.allclose to a defining point and is then not reflected back (C09_involution_counterexample), and points very near the line raise ValueError (C09_reflection_raises_counterexample)."
  },
  {
   "property": "C10",
   "status": "partial",
   "theorems": [
    "C10_exact",
    "C10_as_affine",
    "C10_transform_partial",
    "C10_reflect_circle_partial",
    "C10_reflect_line_partial",
    "C10_near_counterexample"
   ],
   "note": "as_affine is the exact mirror map; reflect_circle and reflect_line give the image for points that are not allclose to a defining point of the axis while being off it. C10_exact: transform agrees with as_affine exactly at the points of the axis and at the points that are allclose neither to a defining point nor to their foot on the axis. C10_near_counterexample refutes the full claim."
  },
  {
   "property": "C11",
   "status": "partial",
   "theorems": [
    "C11_exact",
    "C11_rotate",
    "C11_isometry",
    "C11_group",
    "C11_as_affine",
    "C11_rotate_circle",
    "C11_rotate_ellipse",
    "C11_line_rotate_eq",
    "C11_rotate_line_partial",
    "C11_rotate_line_raises_counterexample"
   ],
   "note": "rotate, isometry, group laws, as_affine, rotate_circle, rotate_ellipse in full, Line.rotate = rotate_line; rotate_line gives the image of the line iff the images of the defining points are not np.allclose, and raises ValueError otherwise (C11_exact); it can raise because allclose is not rotation invariant (C11_rotate_line_raises_counterexample)"
  },
  {
   "property": "C12",
   "status": "proved",
   "theorems": [
    "C12_intersection_sound",
    "C12_intersection_none_iff",
    "C12_intersection_parallel",
    "C12_short_lines_counterexample"
   ],
   "note": "soundness, uniqueness and exact None condition; strict=True always gives None (unfinished code); note that crossing lines given by close points are reported parallel (C12_short_lines_counterexample)"
  },
  {
   "property": "C13",
   "status": "proved",
   "theorems": [
    "C13_parallel_perp_complete",
    "C13_parallel_iff",
    "C13_perp_sound",
    "C13_short_lines_counterexample"
   ],
   "note": "completeness and the bound by tolerance over lengths; the bound is weak for short defining vectors (C13_short_lines_counterexample)"
  },
  {
   "property": "C14",
   "status": "proved",
   "theorems": [
    "C14_contains_power",
    "C14_point_from_angle",
    "C14_includes"
   ],
   "note": "contains/power as exact statements; includes within the code tolerance; point_from_angle on the circle"
  },
  {
   "property": "C15",
   "status": "proved",
   "theorems": [
    "C15_radical_center",
    "C15_radical_center_concentric",
    "C15_radical_axis",
    "C15_radical_axis_total"
   ],
   "note": ""
  },
  {
   "property": "C16",
   "status": "partial",
   "theorems": [
    "C16_radical_center_three",
    "C16_radical_center_none_iff",
    "C16_radical_center_total_partial",
    "C16_close_centers_counterexample",
    "C16_exact"
   ],
   "note": "Soundness, and the exact condition for a result (C16_exact): not collinear centers do not suffice when a radical axis object is rejected as np.allclose (C16_close_centers_counterexample)"
  },
  {
   "property": "C17",
   "status": "proved",
   "theorems": [
    "C17_orthogonal_on_circle",
    "C17_orthogonal_on_circle_arc",
    "C17_orthogonal_on_circle_diameter"
   ],
   "note": ""
  },
  {
   "property": "C18",
   "status": "partial",
   "theorems": [
    "C18_orthogonal_in_circle",
    "C18_orthogonal_in_circle_arc",
    "C18_rejected_partial",
    "C18_outside_accepted_counterexample",
    "C18_inside_rejected_counterexample",
    "C18_exact"
   ],
   "note": "Every returned circle (arc) passes through the points and is orthogonal. Rejection of non-interior points is false because the code compares the distance with r*r: counterexamples in both directions, proved for radius at most 1, and C18_exact gives the exact set of rejected points."
  },
  {
   "property": "C19",
   "status": "proved",
   "theorems": [
    "C19_circleAB",
    "C19_circleOA"
   ],
   "note": ""
  },
  {
   "property": "C20",
   "status": "proved",
   "theorems": [
    "C20_angle_none_iff",
    "C20_angle",
    "C20_angle_symm",
    "C20_angle_band_error"
   ],
   "note": "with an extra theorem: in the tolerance band the call raises ValueError"
  },
  {
   "property": "C21",
   "status": "proved",
   "theorems": [
    "C21_none",
    "C21_two",
    "C21_one",
    "C21_tangent",
    "C21_near_tangent_counterexample",
    "C21_one_exact"
   ],
   "note": "With a counterexample showing that the single point may be off the circle for near tangent lines, and C21_one_exact: the single point is on the circle exactly when it is the only common point."
  },
  {
   "property": "C22",
   "status": "proved",
   "theorems": [
    "C22_none",
    "C22_two",
    "C22_two_of_secant",
    "C22_tangent",
    "C22_total",
    "C22_concentric_counterexample"
   ],
   "note": "plus totality; concentric circles with close radii are reported as touching (C22_concentric_counterexample)"
  },
  {
   "property": "C23",
   "status": "partial",
   "theorems": [
    "C23_mid_circles_partial",
    "C23_line_only_if_congruent",
    "C23_small_circles_counterexample",
    "C23_exact"
   ],
   "note": "Proved for circles with 4*r1*r2 at least 2^-26 and, when congruent, with centers equal or not np.allclose; C23_exact gives the exact pairs for which every returned object exchanges the circles; false for tiny nested circles (counterexample)."
  },
  {
   "property": "C24",
   "status": "partial",
   "theorems": [
    "C24_exact",
    "C24_invert",
    "C24_invert_inf",
    "C24_involution_partial",
    "C24_involution_counterexample",
    "C24_on_circle_fixed"
   ],
   "note": "All clauses proved except that inverting twice needs the image not to be np.allclose to the pole; C24_exact gives the exact set of points where inverting twice is the identity; C24_involution_counterexample refutes the full claim."
  },
  {
   "property": "C25",
   "status": "partial",
   "theorems": [
    "C25_exact",
    "C25_invert_circle",
    "C25_invert_circle_through_pole",
    "C25_invert_circle_twice_partial",
    "C25_near_pole_counterexample"
   ],
   "note": "Image of every circle beyond the tolerance or exactly through the pole; C25_exact: a returned generalised circle is the image exactly in these two cases. Inverting twice proved when the image is again beyond the tolerance. A pole nearly on the circle gives a wrong line (C25_near_pole_counterexample)."
  },
  {
   "property": "C26",
   "status": "partial",
   "theorems": [
    "C26_exact",
    "C26_through_pole",
    "C26_invert_line_partial",
    "C26_near_pole_counterexample",
    "C26_raises_counterexample"
   ],
   "note": "Proved for lines through the pole and for lines none of whose defining points is np.allclose to the pole; C26_exact: the image is returned exactly in these cases. Otherwise the line is wrongly returned unchanged (C26_near_pole_counterexample) or rejected because np.allclose is not symmetric (C26_raises_counterexample)."
  },
  {
   "property": "C27",
   "status": "partial",
   "theorems": [
    "C27_invert_gcircle_counterexample"
   ],
   "note": "the claim is false: isinstance is called with a string, so invert_gcircle always raises TypeError (C27_invert_gcircle_counterexample)"
  },
  {
   "property": "C28",
   "status": "partial",
   "theorems": [
    "C28_exact",
    "C28_compose",
    "C28_compose_invert_partial",
    "C28_near_pole_counterexample"
   ],
   "note": "Proved for the exact inverses of every point including inf, in both orders, with nonzero determinant (C28_compose). Against the code's invert, which sends every point np.allclose to the pole to inf, C28_exact gives the exact set of points where the composition agrees; refuted elsewhere (C28_near_pole_counterexample)."
  },
  {
   "property": "C29",
   "status": "proved",
   "theorems": [
    "C29_swaps",
    "C29_tangent_none",
    "C29_equal_circles_counterexample"
   ],
   "note": "the sign statement concerns two distinct circles; for the same circle twice see C29_equal_circles_counterexample; congruent tangent circles give None"
  },
  {
   "property": "C30",
   "status": "proved",
   "theorems": [
    "C30_fixing_two",
    "C30_fixing_two_concentric",
    "C30_fixing_three"
   ],
   "note": ""
  },
  {
   "property": "C31",
   "status": "partial",
   "theorems": [
    "C31_radii",
    "C31_exact",
    "C31_steiner_chain_partial",
    "C31_small_circle_counterexample",
    "C31_too_few"
   ],
   "note": "Proved for all n >= 3, |phi| < 1 and every shift; C31_exact gives the exact condition: the chain is returned and correct iff phi = 0 or the pole of the inversion has power larger than the code's tolerance with respect to the circles of the regular chain. Without it the claim is false (C31_small_circle_counterexample: radius 1e-5, phi = 1/2 raises). n <= 2 gives ValueError."
  },
  {
   "property": "C32",
   "status": "partial",
   "theorems": [
    "C32_exact",
    "C32_ellipse_of_centers_partial"
   ],
   "note": "Proved under the exact condition of C31 for the chain to be returned (C32_exact)."
  },
  {
   "property": "C33",
   "status": "proved",
   "theorems": [
    "C33_flatness",
    "C33_flatness_raises"
   ],
   "note": "plus C33_flatness_raises: ZeroDivisionError when B or C equals A"
  },
  {
   "property": "C34",
   "status": "partial",
   "theorems": [
    "C34_orientation_partial",
    "C34_orientation_counterexample"
   ],
   "note": "the signs are opposite to the documentation: counterclockwise gives -1 (C34_orientation_counterexample); the reversed statement is proved"
  },
  {
   "property": "C35",
   "status": "proved",
   "theorems": [
    "C35_contains",
    "C35_contains_flat"
   ],
   "note": ""
  },
  {
   "property": "C36",
   "status": "partial",
   "theorems": [
    "C36_exact",
    "C36_is_acute_partial",
    "C36_is_acute_no_right_angle_partial",
    "C36_right_triangle_counterexample"
   ],
   "note": "is_acute is proved to mean that no angle is obtuse; C36_exact: the claim fails exactly for triangles with a right angle and no obtuse one (C36_right_triangle_counterexample)."
  },
  {
   "property": "C37",
   "status": "proved",
   "theorems": [
    "C37_angles"
   ],
   "note": ""
  },
  {
   "property": "C38",
   "status": "partial",
   "theorems": [
    "C38_exact",
    "C38_incircle",
    "C38_incircle_flat_partial",
    "C38_point_triangle_counterexample"
   ],
   "note": "C38_exact: the inscribed circle is returned iff the triangle is not flat; ValueError iff it is flat and its vertices are not all equal; for three equal vertices the code builds a circle with nan radius (C38_point_triangle_counterexample)"
  },
  {
   "property": "C39",
   "status": "proved",
   "theorems": [
    "C39_excircles"
   ],
   "note": ""
  },
  {
   "property": "C40",
   "status": "proved",
   "theorems": [
    "C40_circumcircle",
    "C40_circumcircle_flat"
   ],
   "note": ""
  },
  {
   "property": "C41",
   "status": "proved",
   "theorems": [
    "C41_orthic"
   ],
   "note": "for all triples of distinct vertices"
  },
  {
   "property": "C42",
   "status": "proved",
   "theorems": [
    "C42_equal_detour"
   ],
   "note": ""
  },
  {
   "property": "C43",
   "status": "proved",
   "theorems": [
    "C43_malfatti",
    "C43_malfatti_flat"
   ],
   "note": "the Malfatti configuration for every non-flat triangle, with the three discs inside the triangle; None for flat triangles"
  },
  {
   "property": "C44",
   "status": "partial",
   "theorems": [
    "C44_exact",
    "C44_steiner_ellipse_partial",
    "C44_steiner_inellipse_partial",
    "C44_flat",
    "C44_tiny_triangle_counterexample"
   ],
   "note": "C44_exact: for triangles whose vertices are not collinear both ellipses are returned and correct iff no two vertices are np.allclose; otherwise both methods raise AttributeError (C44_tiny_triangle_counterexample). Flat triangles give None."
  },
  {
   "property": "C45",
   "status": "proved",
   "theorems": [
    "C45_compose",
    "C45_inverse",
    "C45_compose_assoc"
   ],
   "note": "Composition in both orders, associativity, inverse exactly for bijective maps (det != 0), on both sides."
  },
  {
   "property": "C46",
   "status": "proved",
   "theorems": [
    "C46_from_mapping_three_points"
   ],
   "note": "None exactly for a collinear or np.allclose triple; otherwise an invertible map sending each point to its image, unique among affine maps."
  },
  {
   "property": "C47",
   "status": "partial",
   "theorems": [
    "C47_transform_line_partial",
    "C47_transform_line_counterexample",
    "C47_transform_ellipse",
    "C47_exact"
   ],
   "note": "transform_ellipse is proved in full (never fails, image of the curve, the region and the center, None for singular maps). transform_line is the image iff the images of the two defining points are not np.allclose (C47_exact); otherwise it raises (C47_transform_line_counterexample)."
  },
  {
   "property": "C48",
   "status": "proved",
   "theorems": [
    "C48_from_ellipse_to_ellipse",
    "C48_regions"
   ],
   "note": "The map is a bijection of the plane mapping the first curve onto the second one; the call never fails."
  },
  {
   "property": "C49",
   "status": "proved",
   "theorems": [
    "C49_transform",
    "C49_compose",
    "C49_inverse",
    "C49_bijection"
   ],
   "note": "Proved against the projective definition of a homography on the plane with inf."
  },
  {
   "property": "C50",
   "status": "proved",
   "theorems": [
    "C50_power",
    "C50_power_add",
    "C50_power_error"
   ],
   "note": "The iterate is the power of the permutation of the plane with inf. Non-integer exponents raise ValueError."
  },
  {
   "property": "C51",
   "status": "partial",
   "theorems": [
    "C51_exact",
    "C51_gpower_partial",
    "C51_scalar",
    "C51_raises_counterexample",
    "C51_near_scalar_counterexample"
   ],
   "note": "C51_exact: gpower is a one-parameter group agreeing with power at the integers iff |tr^2-4det| >= sepsilon_ (np.linalg.eig by contract), or tr^2 = 4 det with a matrix that is scalar or not np.allclose to a scalar one. Refuted otherwise: z/1.0001 raises LinAlgError, the translation by 1e-9 is taken for the identity."
  },
  {
   "property": "C52",
   "status": "partial",
   "theorems": [
    "C52_exact",
    "C52_fixed_points_partial",
    "C52_identity_iff",
    "C52_inf_missing_counterexample",
    "C52_complex_counterexample",
    "C52_negative_counterexample"
   ],
   "note": "C52_exact: the fixed points are returned exactly when c = 0 and a = d, or c != 0 and the discriminant is a nonnegative real. Refuted otherwise: inf is missing when c = 0 and a != d; wrong square root for a non-real discriminant; math domain error for a negative real part."
  },
  {
   "property": "C53",
   "status": "partial",
   "theorems": [
    "C53_circle",
    "C53_line_partial",
    "C53_line_returns_partial",
    "C53_diverges_counterexample",
    "C53_raises_counterexample",
    "C53_exact"
   ],
   "note": "Pole not on the circle: proved in full (C53_circle). Pole on the circle: every returned line is the image (C53_line_partial). C53_exact: the loop runs forever exactly when every point of the circle is allclose to the pole, and ValueError is raised exactly when the two image points are allclose; both happen (counterexamples)."
  },
  {
   "property": "C54",
   "status": "partial",
   "theorems": [
    "C54_exact",
    "C54_transform_line_partial",
    "C54_scale_counterexample",
    "C54_raises_counterexample"
   ],
   "note": "C54_exact: a returned value is the image exactly when every pole is on the line or beyond the tolerance from it; refuted for a pole in between (C54_scale_counterexample) and for image points that are allclose, which raise (C54_raises_counterexample)."
  },
  {
   "property": "C55",
   "status": "partial",
   "theorems": [
    "C55_exact",
    "C55_none_iff",
    "C55_from_mapping_partial",
    "C55_inf_counterexample"
   ],
   "note": "None iff points coincide; a correct transformation is returned iff the points are finite and distinct (C55_exact). With inf among the points the code's arithmetic on inf does not give a usable transformation (C55_inf_counterexample)."
  },
  {
   "property": "C56",
   "status": "proved",
   "theorems": [
    "C56_from_mapping_one_circle"
   ],
   "note": "Also an exact image: a point is on the first circle iff its image is on the second."
  },
  {
   "property": "C57",
   "status": "proved",
   "theorems": [
    "C57_error_iff",
    "C57_real_iff",
    "C57_invariant"
   ],
   "note": ""
  },
  {
   "property": "C58",
   "status": "proved",
   "theorems": [
    "C58_members",
    "C58_unimodular"
   ],
   "note": ""
  },
  {
   "property": "C59",
   "status": "partial",
   "theorems": [
    "C59_exact",
    "C59_constructor",
    "C59_project_partial",
    "C59_idempotent",
    "C59_as_affine_partial",
    "C59_orthogonal_partial",
    "C59_parallel",
    "C59_near_counterexample",
    "C59_as_affine_counterexample",
    "C59_short_line_counterexample"
   ],
   "note": "project, as_affine and agreement with Line.projection proved for points that are not allclose to a defining point of D while being off it; C59_exact: project returns the projection exactly at these points and at the points of D. Idempotence and the constructor unconditional; counterexamples for the excluded points (C59_near_counterexample, C59_as_affine_counterexample) and for very short lines with Delta=None."
  },
  {
   "property": "C60",
   "status": "partial",
   "theorems": [
    "C60_exact",
    "C60_shear_partial",
    "C60_vertex_counterexample",
    "C60_zero_vector"
   ],
   "note": "Determinant 1 and agreement of transform and as_affine proved; C60_exact: the vertex is fixed exactly when it is the origin or the angle is zero (the linear part of the code is the transpose of the right one, C60_vertex_counterexample)."
  },
  {
   "property": "C61",
   "status": "proved",
   "theorems": [
    "C61_scalingXY",
    "C61_scalingXY_as_affine",
    "C61_scalingXY_inverse",
    "C61_homothety",
    "C61_homothety_inverse",
    "C61_homothety_circle"
   ],
   "note": "every center, factor, point, circle; inverses for nonzero factors"
  },
  {
   "property": "C62",
   "status": "proved",
   "theorems": [
    "C62_scaling",
    "C62_as_affine",
    "C62_scale_circle",
    "C62_zero_direction"
   ],
   "note": "nonzero direction: transform, center, as_affine, scale_circle as image set; scale 0 and zero direction characterised"
  },
  {
   "property": "C63",
   "status": "partial",
   "theorems": [
    "C63_rotation",
    "C63_scalingXY",
    "C63_homothety",
    "C63_scaling",
    "C63_shear",
    "C63_affine_partial",
    "C63_affine_counterexample"
   ],
   "note": "row by row and rejection proved for Rotation, Shear, ScalingXY, Homothety, Scaling; for Affine row by row and rejection of wrong shapes in dimension at most 2; three dimensional arrays are accepted by Affine.transform (C63_affine_counterexample)"
  },
  {
   "property": "C64",
   "status": "proved",
   "theorems": [
    "C64_equation",
    "C64_contains",
    "C64_includes",
    "C64_includes_tolerance",
    "C64_includes_center_counterexample",
    "C64_path",
    "C64_point_from_angle"
   ],
   "note": "Sign of the equation, contains, path, point_from_angle and includes; includes also accepts other points (tolerance bound and counterexample given)."
  },
  {
   "property": "C65",
   "status": "partial",
   "theorems": [
    "C65_shape_matrix",
    "C65_from_center_and_matrix",
    "C65_rejects",
    "C65_round_trip",
    "C65_not_symmetric_counterexample",
    "C65_exact"
   ],
   "note": "Shape matrix, reconstruction for every symmetric positive definite matrix, rejection of the other symmetric matrices, for every result of eigh meeting its contract. Matrices that are not symmetric are not rejected (C65_not_symmetric_counterexample); C65_exact gives the result for every matrix: the ellipse of the lower triangle, right exactly when the matrix is symmetric."
  },
  {
   "property": "C66",
   "status": "partial",
   "theorems": [
    "C66_from_equation_partial",
    "C66_accepts_partial",
    "C66_guard_counterexample",
    "C66_A_eq_C_counterexample",
    "C66_exact",
    "C66_accepts_exact",
    "C66_geometric"
   ],
   "note": "C66_exact: a returned ellipse is the zero set of the equation exactly when A != C or B = 0. C66_accepts_exact: an ellipse is returned exactly for the equations of ellipses passing the third guard. The claim fails for A = C, B != 0 and for ellipses such as the circle of center (3,0) and radius 1, which the guard D*D+E*E <= 4(A+C)F rejects: both counterexamples are proved. In terms of the ellipse (C66_geometric): accepted iff the squared distance of the center to the origin is less than the sum of the squared semi-axes, and recovered iff it is a circle or its axes are not at 45 degrees."
  },
  {
   "property": "C67",
   "status": "proved",
   "theorems": [
    "C67_vanish",
    "C67_five_points_of_ellipse",
    "C67_accepts_iff",
    "C67_rejects"
   ],
   "note": "Coefficients are returned exactly for five distinct points of an ellipse, vanish at them and are a non-zero multiple of its equation; otherwise ValueError."
  },
  {
   "property": "C68",
   "status": "partial",
   "theorems": [
    "C68_tangent_is_derivative",
    "C68_normal",
    "C68_diameter_partial",
    "C68_conjugate_partial",
    "C68_tiny_ellipse_counterexample",
    "C68_exact"
   ],
   "note": "normal is proved in full; a diameter is returned and correct iff its endpoints are not np.allclose (C68_exact), the conjugate diameters whenever they are returned; they raise for tiny ellipses (C68_tiny_ellipse_counterexample)."
  },
  {
   "property": "C69",
   "status": "partial",
   "theorems": [
    "C69_theta2t_partial",
    "C69_zero_counterexample",
    "C69_above_pi_counterexample",
    "C69_exact"
   ],
   "note": "C69_exact: for angles other than pi the eccentric angle is right exactly when the representative in [0, 2pi) is not 0 and not in (pi, pi+sepsilon_). The claim fails at 0 (ZeroDivisionError) and just above pi (opposite point): both counterexamples are proved. At pi itself the exact model differs from floats, whose tangent of pi is not 0."
  },
  {
   "property": "C70",
   "status": "proved",
   "theorems": [
    "C70_none",
    "C70_two",
    "C70_one_on_line",
    "C70_tangent",
    "C70_failure",
    "C70_large_ellipse_counterexample",
    "C70_near_tangent_counterexample",
    "C70_exact"
   ],
   "note": "None and two points are exact, for every ellipse and line. Beyond the statement: a single point is on the line, and it is on the curve exactly when it is the only common point (C70_exact); a near tangent line may give a point off the curve (counterexample); the call raises exactly when the preimages of the points defining the line are np.allclose (counterexample)."
  },
  {
   "property": "C71",
   "status": "proved",
   "theorems": [
    "C71_arc_path"
   ],
   "note": ""
  },
  {
   "property": "C72",
   "status": "partial",
   "theorems": [
    "C72_circle_exact",
    "C72_ellipse_exact",
    "C72_triangle_exact",
    "C72_circle_partial",
    "C72_ellipse_partial",
    "C72_triangle_in",
    "C72_triangle_on_partial",
    "C72_triangle_rejects",
    "C72_degenerate_counterexample",
    "C72_zero_draw_counterexample",
    "C72_almost_surely"
   ],
   "note": "For every draw of the generator: points of circles and ellipses are correct iff no normal vector drawn is zero (C72_circle_exact, C72_ellipse_exact), points of the boundary of a triangle iff A and B differ or no number drawn is zero (C72_triangle_exact), points of the closed triangle always. Both kinds of failure are shown by counterexamples. When the normal vectors have their law, all the points of circles and ellipses are correct with probability one (C72_almost_surely)."
  },
  {
   "property": "C73",
   "status": "partial",
   "theorems": [
    "C73_from_boundary3_partial",
    "C73_collinear",
    "C73_boundary4_counterexample"
   ],
   "note": "from_boundary3 is proved (eigh by contract); minimality of its area is C80. from_boundary4 raises on every input (np.float does not exist in the locked numpy): proved."
  },
  {
   "property": "C74",
   "status": "partial",
   "theorems": [
    "C74_contains_partial",
    "C74_three_points",
    "C74_parallelogram_counterexample",
    "C74_four_points",
    "C74_schedule_counterexample"
   ],
   "note": "Every returned ellipse contains all the points and passes through three of them, for every random schedule; three non-collinear points always give an ellipse; minimality of the area is C80. Four points in general position: an ellipse is returned exactly when one point is in the circumscribed Steiner ellipse of the three others, whatever the schedule (C74_four_points). The full claim is false: the function raises on the vertices of every parallelogram, and with a point on an edge or a repeated point it depends on the random choices whether it raises (C74_schedule_counterexample)."
  },
  {
   "property": "C75",
   "status": "partial",
   "theorems": [
    "C75_reflexive",
    "C75_circle_symmetric_partial",
    "C75_line_symmetric_partial",
    "C75_ellipse_symmetric_partial",
    "C75_circle_counterexample",
    "C75_ellipse_counterexample",
    "C75_line_counterexample",
    "C75_circle_sound"
   ],
   "note": "Reflexivity is proved for all three classes. Symmetry is proved where the comparison is symmetric (equal or comparable coordinates) and is false in general because numpy.allclose is asymmetric: counterexamples proved for all three classes. Soundness bounds are proved for circles and ellipses."
  },
  {
   "property": "C76",
   "status": "partial",
   "theorems": [
    "C76_history_partial",
    "C76_no_write_partial",
    "C76_alias_counterexample",
    "C76_mutation_counterexample",
    "C76_shared_result_counterexample",
    "C76_point_from_angle_vector"
   ],
   "note": "The claim is false: objects alias float arrays given by the caller, point_from_angle modifies its argument, invert(inf) returns the pole itself (counterexamples proved). Proved for every history when the arguments are tuples, lists or integer arrays."
  },
  {
   "property": "C77",
   "status": "partial",
   "theorems": [
    "C77_is_equal_partial",
    "C77_circle_counterexample",
    "C77_swapped_counterexample",
    "C77_sound",
    "C77_exact"
   ],
   "note": "Proved for non-circular ellipses with rminor < rmajor; C77_exact gives the exact condition under which two ellipses with the same points are reported equal: same rmajor for a non-circle, close angles for a circle. The claim as stated fails for circles given as ellipses and swapped semi-axes: both counterexamples are proved. C77_sound bounds the difference of the ellipses reported equal."
  },
  {
   "property": "C78",
   "status": "partial",
   "theorems": [
    "C78_point_from_angle_partial",
    "C78_above_pi_counterexample",
    "C78_exact"
   ],
   "note": "C78_exact: for angles other than pi the point is in the right direction exactly when the representative in [0, 2pi) is not in (pi, pi+sepsilon_); counterexample proved. At pi itself the exact model differs from floats, whose tangent of pi is not 0."
  },
  {
   "property": "C79",
   "status": "partial",
   "theorems": [
    "C79_exact",
    "C79_from_five_points_partial",
    "C79_accepts_partial",
    "C79_geometric"
   ],
   "note": "C79_exact: an ellipse is returned exactly when the third guard of from_equation passes, and it is the right one exactly when A != C or B = 0 in its equation; the remaining cases fail as in C66. In terms of the ellipse (C79_geometric): accepted iff the squared distance of the center to the origin is less than the sum of the squared semi-axes, and recovered iff it is a circle or its axes are not at 45 degrees."
  },
  {
   "property": "C80",
   "status": "proved",
   "theorems": [
    "C80_from_boundary3",
    "C80_lownerJohn",
    "C80_schedule_independent"
   ],
   "note": "Minimal area, uniqueness and independence of the random schedule, for all inputs; eigh by contract."
  },
  {
   "property": "C81",
   "status": "proved",
   "theorems": [
    "C81_steiner_ellipse",
    "C81_steiner_inellipse"
   ],
   "note": "Containment, extremal area and uniqueness for both ellipses, for all triangles that pass the guards of AffineMappingThreePoints."
  },
  {
   "property": "C82",
   "status": "proved",
   "theorems": [
    "C82_arc_on_circle",
    "C82_arc_path"
   ],
   "note": "The arc is exactly the inside part of the orthogonal circle, for all circles and angles; the sampled path stays in the closed disk."
  },
  {
   "property": "C83",
   "status": "partial",
   "theorems": [
    "C83_arc_in_circle_partial",
    "C83_arc_counterexample"
   ],
   "note": "The arc stays inside exactly when its angle is less than pi; the code does not ensure it (unit circle, (-1/2, 1/2) and (-1/2, -1/2): the arc leaves the disk, proved)."
  },
  {
   "property": "C84",
   "status": "partial",
   "theorems": [
    "C84_circle_partial",
    "C84_arc_partial",
    "C84_ellipse_partial",
    "C84_transformations",
    "C84_scaling",
    "C84_shear_partial",
    "C84_shear_degrees",
    "C84_line_equal",
    "C84_nan_counterexample",
    "C84_minus_inf",
    "C84_point_from_angle_partial",
    "C84_infinite_angle",
    "C84_decimal_counterexample",
    "C84_rotate_partial",
    "C84_path"
   ],
   "note": "The full statement is false: nan is accepted as a radius and as an angle (C84_nan_counterexample), and a Decimal angle given in degrees raises TypeError in point_from_angle and Line.rotate (C84_decimal_counterexample). Proved: with nan allowed, every constructor and method returns exactly for the numbers, positive numbers, angles in range, Booleans and counts it should accept. complex64 scalars are outside the statement."
  },
  {
   "property": "C85",
   "status": "proved",
   "theorems": [
    "C85_edges",
    "C85_euler",
    "C85_radii",
    "C85_sines"
   ],
   "note": "Edges, Euler's relations, relations between radii, edges and area, law of sines, for every non-degenerate triangle."
  },
  {
   "property": "C86",
   "status": "proved",
   "theorems": [
    "C86_feuerbach"
   ],
   "note": "Stated for non-degenerate triangles without a right angle: with a right angle the orthic triangle degenerates."
  },
  {
   "property": "C87",
   "status": "partial",
   "theorems": [
    "C87_show_line",
    "C87_show_injective",
    "C87_show_triangle_partial",
    "C87_show_triangle_counterexample",
    "C87_show_projection_counterexample",
    "C87_line_attributes",
    "C87_includes_message_partial",
    "C87_origin_message_counterexample",
    "C87_labels"
   ],
   "note": "Proved: show prints the points of a line and a last sentence describing the set decided by includes; the text of lines, circles, ellipses, inversions and transformations determines the object; Triangle.show says flat exactly for flat triangles when B and C differ from A; the message of includes is true for points not close to the end points. False parts (counterexamples): Projection.show raises AttributeError on every projection; Triangle.show raises when B or C equals A; the origin of a half-line is said not to be on it."
  },
  {
   "property": "C88",
   "status": "proved",
   "theorems": [
    "C88_contains",
    "C88_power",
    "C88_monotone",
    "C88_distance_symm",
    "C88_power_error",
    "C88_distance_error"
   ],
   "note": "Rounding function with ties to even and gradual underflow, no overflow; every fused or unfused evaluation of ddot. Assumes only that the coordinates and the radius are doubles."
  },
  {
   "property": "C89",
   "status": "proved",
   "theorems": [
    "C89_orientation",
    "C89_grid",
    "C89_orientation_counterexample"
   ],
   "note": "The bound is explicit; C89_orientation_counterexample shows a triangle that is not flat with orientation 0 in doubles, so the restriction is needed."
  },
  {
   "property": "C90",
   "status": "proved",
   "theorems": [
    "C90_flatness_range",
    "C90_flatness",
    "C90_collinear",
    "C90_grid",
    "C90_flatness_counterexample"
   ],
   "note": "For collinear_ no restriction on the points; for flatness the product of the squared edges is at least 2^-800 (no underflow). C90_flatness_counterexample shows that exact collinearity is not decided."
  },
  {
   "property": "C91",
   "status": "proved",
   "theorems": [
    "C91_includes",
    "C91_point",
    "C91_includes_counterexample"
   ],
   "note": "Cosine and sine by contract (error at most 2^-52). C91_includes_counterexample: center (2^60, 0) and radius 1, so a bound on the center is needed."
  },
  {
   "property": "C92",
   "status": "partial",
   "theorems": [
    "C92_line_line",
    "C92_circle_line",
    "C92_ellipse_line",
    "C92_circle_circle",
    "C92_line_invert",
    "C92_rotation",
    "C92_reflection"
   ],
   "note": "Proved for every method: None means no common point, a pair is exactly the set of common points, a tangent line or circle gives the point of contact; Line.invert under the exact condition of C26; images by rotations and reflections under the exact conditions of C10 and C11. Missing, because false: a single returned point need not be on the curve for near-tangent lines (C21_near_tangent_counterexample), and strict=True always gives None (proved in C92_line_line)."
  },
  {
   "property": "C93",
   "status": "proved",
   "theorems": [
    "C93_is_orthogonal",
    "C93_angle",
    "C93_small_circle_counterexample"
   ],
   "note": "Proved for all circles of positive radius, with the exact tolerance condition; a counterexample shows that small circles are always reported orthogonal."
  },
  {
   "property": "C94",
   "status": "proved",
   "theorems": [
    "C94_trajectory",
    "C94_caustic",
    "C94_lower_start_counterexample"
   ],
   "note": "For the table of the script (centre at the origin, alpha = 0) and every list the function returns. A start from the lower end of a chord raises: C94_lower_start_counterexample."
  },
  {
   "property": "C95",
   "status": "proved",
   "theorems": [
    "C95_inversion",
    "C95_mobius"
   ],
   "note": "For the pairs of circles whose images are circles (the pole on neither)."
  },
  {
   "property": "C96",
   "status": "proved",
   "theorems": [
    "C96_unique_with",
    "C96_selection",
    "C96_classes"
   ],
   "note": ""
  },
  {
   "property": "C97",
   "status": "proved",
   "theorems": [
    "C97_packing",
    "C97_touch",
    "C97_from_seed"
   ],
   "note": "The mirrors must not be tiny (power at least 2^-26, the tolerance of invert_circle)."
  },
  {
   "property": "C98",
   "status": "partial",
   "theorems": [
    "C98_translate_partial",
    "C98_exact",
    "C98_translate_counterexample",
    "C98_translate_compose",
    "C98_reflection_init"
   ],
   "note": "The translate is right whenever the method returns (C98_translate_partial) and C98_exact states exactly when it raises; missing for the full claim: a valid line cannot be translated far away (C98_translate_counterexample), because the constructor compares the end points with np.allclose. Compositions and Reflection.__init__ are proved in full."
  },
  {
   "property": "C99",
   "status": "partial",
   "theorems": [
    "C99_apollonian_partial",
    "C99_start_iff",
    "C99_powers",
    "C99_start",
    "C99_flat",
    "C99_small_counterexample"
   ],
   "note": "C99_apollonian_partial: for every outer circle, n >= 3, shift and phi between -1 and 1, when the first lines succeed, powers are at least 2^-26 and (only for larger phi) the poles are not within 2^-13 of the outer circle, the drawing is a packing at every depth, with the exact number of circles and three contacts per circle. C99_start_iff: the first lines succeed exactly when no mirror is a line, with the explicit condition on the angles, under a size condition for the tolerances; without it this is false (C99_small_counterexample: outer radius 1e-5, phi = 1/2, n = 3). C99_powers: the powers of the inversions in closed form. C99_start: a range of phi for which no mirror is a line whatever the shift; C99_flat: that range is the best one. The constants of the script and a larger phi are checked in examples."
  },
  {
   "property": "C100",
   "status": "partial",
   "theorems": [
    "C100_mobius",
    "C100_mobius_error",
    "C100_group",
    "C100_fixed",
    "C100_frame",
    "C100_line",
    "C100_images",
    "C100_period",
    "C100_animation_partial"
   ],
   "note": "C100_mobius, C100_mobius_error, C100_group, C100_fixed, C100_frame, C100_period, C100_images are complete. C100_animation_partial has the hypotheses of C99_apollonian_partial on the powers and the poles of the inversions, and any phi between -1 and 1."
  },
  {
   "property": "C101",
   "status": "proved",
   "theorems": [
    "C101_near_equilateral",
    "C101_moderate",
    "C101_gasket",
    "C101_exact",
    "C101_error",
    "C101_deep_counterexample",
    "C101_flat",
    "C101_finishes"
   ],
   "note": "C101_gasket: every run that finishes, for every triangle that is not flat and every depth. C101_exact: it finishes if and only if the lines in the three corners are accepted by the tests with tolerance, at each level. C101_error: the other steps never fail. C101_deep_counterexample: for every triangle the script fails when the depth is large. C101_finishes: no depth is out of reach. C101_flat: TypeError."
  },
  {
   "property": "C102",
   "status": "proved",
   "theorems": [
    "C102_apart",
    "C102_neighbours",
    "C102_figure",
    "C102_packing",
    "C102_small",
    "C102_animation",
    "C102_rotation"
   ],
   "note": "Script and animation as functions; exact set of circles for n >= 2, n = 1 and n < 1 separately; disjointness and exact tangency between circles; invariance of the frames under the in-place changes. np.linalg.eig enters through its contract (IsEig), which is shown satisfiable. Drawing itself (matplotlib) is not modelled."
  },
  {
   "property": "C103",
   "status": "proved",
   "theorems": [
    "C103_touch",
    "C103_all",
    "C103_aligned_counterexample",
    "C103_script"
   ],
   "note": "The script as a function of the three circles and of the angle. Soundness without hypotheses, completeness for circles of different radii none inside the other, success on the data of the script, and the case of aligned centers as a counterexample to success."
  },
  {
   "property": "C104",
   "status": "partial",
   "theorems": [
    "C104_count",
    "C104_same_angle",
    "C104_corrected",
    "C104_script_counterexample"
   ],
   "note": "The claim is false for the scripts as written: the first points are on the unit circle while circ has radius 3 (C104_script_counterexample: all three angles of the first depth differ from those of the reflected vertices; C104_same_angle: for every circle, angles and radius rho the angle is right only if rho is the radius or the point is in line with centre and pole). With the points on circ the claim holds at every depth (C104_corrected) when no pole is within about 1e-4 relative of the circle, where numpy.allclose would take a point for the pole."
  },
  {
   "property": "C105",
   "status": "partial",
   "theorems": [
    "C105_data",
    "C105_action",
    "C105_generations",
    "C105_drawn",
    "C105_exact",
    "C105_script_counterexample",
    "C105_corrected",
    "C105_second",
    "C105_missing",
    "C105_words"
   ],
   "note": "False for the script as written: compose without left=False applies the first letter first, and a circle of generation n is drawn exactly when its word is cyclically reduced (C105_exact); 3^(n-1)-2+(-1)^(n-1) circles are missing, 240 of 972 for n = 6 (C105_missing, C105_script_counterexample), and circles of generation n-1 are drawn instead (C105_drawn). With left=False every word gets its circle (C105_corrected). Proved as stated: the words (C105_words), the four curves (C105_data), the exchange (C105_action), different circles with disjoint or nested insides (C105_generations), the twelve circles of the second generation (C105_second). Not covered: angles for which the circles Cb and CB meet."
  },
  {
   "property": "C106",
   "status": "partial",
   "theorems": [
    "C106_outer",
    "C106_malfatti",
    "C106_packing_partial",
    "C106_normalised",
    "C106_script_partial",
    "C106_flat",
    "C106_counterexample"
   ],
   "note": "The outer circle is right for every non-flat triangle (C106_outer, C106_malfatti) and the drawn triangle is the scaled one (C106_normalised). The packing at every depth is proved when the Malfatti radii are at least 1/60 of the outer radius and no two of them add up to it (C106_script_partial), and for any triangle under a condition on the poles (C106_packing_partial). False for every triangle: when two Malfatti radii add up to the outer radius a mirror is a line and drawGasket raises (C106_flat, concrete triangle in C106_counterexample). Not settled: Malfatti circles smaller than 1/60 of the outer radius, where the tolerances of the library come in."
  },
  {
   "property": "C107",
   "status": "partial",
   "theorems": [
    "C107_gasket_partial",
    "C107_start_iff",
    "C107_same",
    "C107_errors",
    "C107_draw",
    "C107_small_counterexample"
   ],
   "note": "The packing at every depth is proved for every phi between -1 and 1 when the starting circles and mirrors exist and the powers are above the tolerance (C107_gasket_partial), and the whole function drawCircularGasket without such hypotheses for the phi that allow no flat mirror (C107_draw). Existence is an exact condition (C107_start_iff), given that the pole is not within the tolerances of the outer circle; without this it is false (C107_small_counterexample: outer radius 1e-5, phi = 1/2, any n and shift). C107_same compares with ApollonianGasket.py and C107_errors gives the errors."
  },
  {
   "property": "C108",
   "status": "proved",
   "theorems": [
    "C108_elliptical",
    "C108_nested",
    "C108_elliptical_nested",
    "C108_condition",
    "C108_sphere",
    "C108_spheres",
    "C108_loop",
    "C108_turn"
   ],
   "note": "C108_elliptical, C108_nested and C108_elliptical_nested give the exact condition for success and the shape of the drawing; C108_condition a simple sufficient condition that holds for all shifts; C108_sphere and C108_spheres are about the scripts in space, C108_loop and C108_turn about the animations. C48_regions and C31_radii were added for them."
  },
  {
   "property": "C109",
   "status": "proved",
   "theorems": [
    "C109_frame",
    "C109_flat",
    "C109_face",
    "C109_icosahedron",
    "C109_regular",
    "C109_regular_counterexample",
    "C109_finishes",
    "C109_script"
   ],
   "note": "IcosahedralFrame.lean, IcosahedralGasket.lean, IcosahedralRun.lean, Icosahedron.lean. C109_frame and C109_flat are about transfoMatrix, C109_face about the surfaces on a face (any result of the script), C109_finishes and C109_script about the runs that finish; C109_regular_counterexample: with the rounded golden number the faces are not exactly equilateral. The factor of sphere.scale is a parameter because it depends on the version of pyvista whether the scaling has an effect."
  },
  {
   "property": "C110",
   "status": "partial",
   "theorems": [
    "C110_circles",
    "C110_generations",
    "C110_meet",
    "C110_large",
    "C110_script",
    "C110_script_counterexample",
    "C110_exact"
   ],
   "note": "The generations (C110_generations), the positions of two curves (C110_meet), the starting circles and the first radii (C110_circles, C110_large) are as stated. The last sentence is false for the script: Line.is_equal takes a line for its image by the central symmetry about the origin, so unique_with drops six of the twelve lines, among them the sides x = -2 and y = -2 of the square in the picture (C110_script_counterexample); C110_exact says that these six lines are exactly what is missing, C110_script what is drawn (155 different curves, never with a later generation). Generations after circles of radius 1/10000 or less are not covered."
  },
  {
   "property": "C111",
   "status": "proved",
   "theorems": [
    "C111_from_boundary4",
    "C111_convex_position",
    "C111_exact",
    "C111_points_of_ellipse",
    "C111_order"
   ],
   "note": "The method is modelled with np.float read as float; with the locked numpy it raises before these lines (C73_boundary4_counterexample). np.argsort, np.roots and np.linalg.eigh by contract; the contracts are shown to be satisfiable (Boundary4.exists_env)."
  },
  {
   "property": "C112",
   "status": "partial",
   "theorems": [
    "C112_lownerJohn_partial",
    "C112_four_points",
    "C112_returns_or_raises",
    "C112_collinear_counterexample",
    "C112_far_counterexample",
    "C112_diagonal_counterexample",
    "C112_few_points",
    "C112_schedule_independent"
   ],
   "note": "Proved for every number of points when the ellipses through five of the points are accepted by the third guard of from_equation and do not have their axes at 45 degrees (C112_lownerJohn_partial), without this proviso for four points (C112_four_points), and with ValueError as the only other outcome when only the 45 degrees are excluded (C112_returns_or_raises). False without the proviso: for every schedule ValueError is raised for five points of a circle (C112_far_counterexample), and an ellipse that does not contain the points is returned for five points of an ellipse at 45 degrees (C112_diagonal_counterexample). Three points of a line: C112_collinear_counterexample."
  },
  {
   "property": "C113",
   "status": "proved",
   "theorems": [
    "C113_rows",
    "C113_orthogonal",
    "C113_cross_ratio_real",
    "C113_cross_ratio_invariant",
    "C113_homothety",
    "C113_invert_circle",
    "C113_swapping",
    "C113_swapping_apart",
    "C113_fixing_two",
    "C113_fixing_three",
    "C113_compose",
    "C113_mid_circle",
    "C113_mid_line",
    "C113_image_circle",
    "C113_image_circle_line",
    "C113_image_line",
    "C113_mapping_three",
    "C113_mapping_one_circle",
    "C113_gpower",
    "C113_malfatti",
    "C113_excircles",
    "C113_contains",
    "C113_two_circumcircles",
    "C113_no_intersection",
    "C113_ellipse_equation",
    "C113_affine_ellipse",
    "C113_ellipse_random",
    "C113_five_points",
    "C113_ellipse_matrix",
    "C113_diameter",
    "C113_rotate_ellipse",
    "C113_scale_circle"
   ],
   "note": "One theorem for each test of the project, for all inputs under explicit conditions, each followed by an example with the values of the test (all of tests/ except the version string, which is outside the model). The condition of a clear crossing or of centres that is_equal separates is in the statement where the tolerances of the code make it necessary. C113_scale_circle is an equivalence: scale_circle agrees with the affine map exactly for scales above -1."
  },
  {
   "property": "C114",
   "status": "proved",
   "theorems": [
    "C114_invert",
    "C114_affine",
    "C114_affine_int",
    "C114_rotate",
    "C114_rotate_center",
    "C114_scalingXY",
    "C114_scalingXY_center",
    "C114_homothety",
    "C114_homothety_center_counterexample",
    "C114_homothety_exact"
   ],
   "note": "Overflow is not modelled. C114_invert, C114_affine, C114_rotate, C114_scalingXY and C114_homothety are the error bounds; C114_affine_int, C114_rotate_center, C114_scalingXY_center and C114_homothety_exact the exact cases; C114_homothety_center_counterexample is the center that is not fixed."
  },
  {
   "property": "C115",
   "status": "proved",
   "theorems": [
    "C115_line_line",
    "C115_is_parallel",
    "C115_is_perpendicular",
    "C115_parallel_counterexample",
    "C115_far_counterexample"
   ],
   "note": "C115_line_line, C115_is_parallel and C115_is_perpendicular; C115_parallel_counterexample and C115_far_counterexample show that a bound on the integers is needed. Double-precision model: Model/FloatDecide."
  },
  {
   "property": "C116",
   "status": "proved",
   "theorems": [
    "C116_circle_line",
    "C116_contains",
    "C116_includes",
    "C116_is_orthogonal",
    "C116_orthogonal_counterexample",
    "C116_circle_circle"
   ],
   "note": "C116_contains, C116_includes, C116_is_orthogonal (bound needed: C116_orthogonal_counterexample), C116_circle_circle (kind of answer only, the coordinates of the points are not bounded there) and C116_circle_line (kind of answer and coordinates)."
  },
  {
   "property": "C117",
   "status": "proved",
   "theorems": [
    "C117_contains",
    "C117_edge_counterexample",
    "C117_is_acute",
    "C117_right_counterexample"
   ],
   "note": "C117_contains (C117_edge_counterexample: a point of the edge BC is accepted) and C117_is_acute (C117_right_counterexample: both answers occur for right triangles). Flat triangles: the division by zero gives infinities or nan, for which the answer is False, as in the model."
  },
  {
   "property": "C118",
   "status": "proved",
   "theorems": [
    "C118_circle_agrees",
    "C118_constructors_agree",
    "C118_line_agrees",
    "C118_orientation_agrees",
    "C118_nan_circle",
    "C118_nan_line",
    "C118_nan_orientation",
    "C118_large_radius",
    "C118_infinite_radius",
    "C118_overflow_counterexample",
    "C118_large_line"
   ],
   "note": "C118_circle_agrees, C118_constructors_agree, C118_line_agrees, C118_orientation_agrees (part 1: overflow may be ignored below the bounds, which covers the hypotheses of C115-C117), C118_nan_circle, C118_nan_line, C118_nan_orientation (part 2), C118_large_radius, C118_infinite_radius, C118_large_line, C118_overflow_counterexample (part 3). The sign of zero is not modelled; no division by zero occurs in these functions."
  },
  {
   "property": "C119",
   "status": "proved",
   "theorems": [
    "C119_rotate",
    "C119_circumcircle",
    "C119_circle_line",
    "C119_ellipse_line",
    "C119_ellipse_to_ellipse",
    "C119_power",
    "C119_image_circle",
    "C119_projection",
    "C119_reflection",
    "C119_shear",
    "C119_scalingXY"
   ],
   "note": "One theorem per check of the script, each followed by the script's own values. The checks after the calls that need np.float; the header says where the script stops. C119_reflection has the tolerance conditions of C09 as hypotheses."
  },
  {
   "property": "C120",
   "status": "proved",
   "theorems": [
    "C120_includes",
    "C120_includes_line",
    "C120_projection",
    "C120_projection_included",
    "C120_distance",
    "C120_reflection",
    "C120_reflection_counterexample",
    "C120_projection_counterexample"
   ],
   "note": "Overflow is not modelled (the bounds are far below). C120_includes, C120_includes_line, C120_projection, C120_projection_included, C120_distance, C120_reflection; C120_projection_counterexample and C120_reflection_counterexample show that the last two bounds cannot be dropped."
  },
  {
   "property": "C121",
   "status": "proved",
   "theorems": [
    "C121_triangle_in",
    "C121_circle_in",
    "C121_circle_on",
    "C121_triangle_on",
    "C121_ellipse_in",
    "C121_ellipse_on",
    "C121_triangle_independent",
    "C121_circle_independent",
    "C121_ellipse_independent",
    "C121_circle_on_length",
    "C121_ellipse_on_length_exact"
   ],
   "note": "Laws of the generator are hypotheses (pseudo-randomness and rounding are not modelled). where=\"on\" for ellipses is uniform in the eccentric angle; C121_ellipse_on_length_exact shows it is uniform for the length only on circles."
  },
  {
   "property": "C122",
   "status": "proved",
   "theorems": [
    "C122_circleOA",
    "C122_circleOA_includes",
    "C122_circleOA_radius",
    "C122_circleAB",
    "C122_circleAB_includes",
    "C122_circleAB_integer",
    "C122_circleOA_contains",
    "C122_contains_counterexample",
    "C122_circleAB_counterexample"
   ],
   "note": "All statements proved in Props/FloatConstruct for the double-precision model without overflow; the two limits are counterexamples evaluated exactly."
  },
  {
   "property": "C123",
   "status": "proved",
   "theorems": [
    "C123_circle_agrees",
    "C123_circleOA_large",
    "C123_contains_agrees",
    "C123_contains_nan",
    "C123_contains_overflow_counterexample",
    "C123_circleAB_counterexample",
    "C123_transforms_agree",
    "C123_transforms_nan",
    "C123_identity_infinity"
   ],
   "note": "All theorems are about the IEEE model Model/IeeeMore (finite values, two infinities, nan; the sign of zero only as a parameter of divisions by zero). The cases where overflow gives a wrong answer are the theorems with suffix _counterexample."
  },
  {
   "property": "C124",
   "status": "proved",
   "theorems": [
    "C124_picture",
    "C124_loop",
    "C124_script",
    "C124_flat",
    "C124_frames"
   ],
   "note": "C124_picture for all triangles; its hypotheses (the drawing of the triangular gasket and Fits) are settled exactly in C101 and C107 and proved for the values of the scripts in C124_script."
  },
  {
   "property": "C125",
   "status": "proved",
   "theorems": [
    "C125_radical_center",
    "C125_radical_axis",
    "C125_radical_axis_counterexample",
    "C125_invert_circle",
    "C125_invert_circle_through_pole",
    "C125_invert_circle_counterexample"
   ],
   "note": "Every operation is rounded; the data are integers in the stated ranges, and two counterexample theorems show what happens beyond them. x**2 is modelled as one rounding of the square (exact here)."
  },
  {
   "property": "C126",
   "status": "proved",
   "theorems": [
    "C126_matmul",
    "C126_compose",
    "C126_power",
    "C126_div",
    "C126_transform",
    "C126_transform_inf",
    "C126_transform_pole",
    "C126_transform_pole_pow",
    "C126_transform_pole_counterexample",
    "C126_power_bound"
   ],
   "note": "Model Verif/Model/FloatMobius.lean: complex quotient by Smith's method with a reciprocal as in numpy, np.matmul as any function adding the real products in some order, fused or not. The exact behaviour at the pole is settled by C126_transform_pole (inf or division by zero), C126_transform_pole_pow and C126_transform_pole_counterexample. C126_power_bound: the powers are exact when the entries are at most B and (4B)^n is at most 2^25."
  },
  {
   "property": "C127",
   "status": "proved",
   "theorems": [
    "C127_incircle",
    "C127_incircle_flat_counterexample",
    "C127_incircle_domain_counterexample"
   ],
   "note": "Error bounds for all non-flat triangles with integer vertices up to 512; two flat triangles as counterexamples for the guard."
  },
  {
   "property": "C128",
   "status": "proved",
   "theorems": [
    "C128_ellipse_polygon",
    "C128_arc_polyline"
   ],
   "note": "Complete for all ellipses and arcs."
  },
  {
   "property": "C129",
   "status": "proved",
   "theorems": [
    "C129_foci",
    "C129_shift",
    "C129_drawing"
   ],
   "note": "Under the exact condition on the pole of C31_exact (tiny circles are excluded by the tolerance of the code, see C31). The title of the script (\"passes through the circle centers\") holds for the circles of the chain and not for the inner circle."
  },
  {
   "property": "C130",
   "status": "proved",
   "theorems": [
    "C130_flat",
    "C130_circumcircle",
    "C130_flat_counterexample"
   ],
   "note": "FloatCircumcircle.lean. np.linalg.det is modelled with partial pivoting, LAPACK variants as parameters and any logarithm and exponential accurate to one unit in the last place; integer vertices up to 1024. A counterexample shows that the guard of flat triangles also rejects some triangles of doubles that are not flat."
  },
  {
   "property": "C131",
   "status": "proved",
   "theorems": [
    "C131_guard",
    "C131_inverse",
    "C131_singular",
    "C131_singular_counterexample"
   ],
   "note": "FloatAffine.lean. Integer matrices up to 2^20, any intercept. The guard det == 0 recognises every singular integer matrix whose pivot is a power of two; a counterexample theorem ([[49,49],[1,1]]) shows that it misses others."
  },
  {
   "property": "C132",
   "status": "proved",
   "theorems": [
    "C132_compose",
    "C132_collinear",
    "C132_mapping"
   ],
   "note": "FloatAffineMap.lean. Integer points up to 2^11; np.matmul may add the products in any order, fused or not."
  },
  {
   "property": "C133",
   "status": "proved",
   "theorems": [
    "C133_angles",
    "C133_sum",
    "C133_flat_counterexample",
    "C133_zero_counterexample"
   ],
   "note": "For integer vertices up to 512; acos of the C library is a parameter with an error bound. Two counterexamples on flat triangles show that the hypothesis is needed."
  },
  {
   "property": "C134",
   "status": "proved",
   "theorems": [
    "C134_orthic"
   ],
   "note": "For integer vertices up to 512; the infinite value at a right angle is replaced by the zero weight it produces."
  },
  {
   "property": "C135",
   "status": "proved",
   "theorems": [
    "C135_excircles",
    "C135_flat_counterexample"
   ],
   "note": "For integer vertices up to 256; the counterexample shows what happens to flat triangles."
  },
  {
   "property": "C136",
   "status": "proved",
   "theorems": [
    "C136_none",
    "C136_angle",
    "C136_tangent_counterexample"
   ],
   "note": "The tangent case is decided by a counterexample: the method raises ValueError for two tangent circles with small integer data."
  },
  {
   "property": "C137",
   "status": "proved",
   "theorems": [
    "C137_direction_offset",
    "C137_is_equal"
   ],
   "note": "The True answer for lines symmetric about the origin is part of the statement: it is the error shown in C04."
  },
  {
   "property": "C138",
   "status": "proved",
   "theorems": [
    "C138_orthogonal",
    "C138_angles",
    "C138_opposite_counterexample"
   ],
   "note": "For opposite points the documented diameter is not always returned: counterexample with the angles 7*pi/4 and 7*pi/4 + pi."
  },
  {
   "property": "C139",
   "status": "proved",
   "theorems": [
    "C139_contains",
    "C139_includes",
    "C139_integers",
    "C139_counterexample"
   ],
   "note": "Every operation rounded; cos and sin of the library within 4/2^53 (for the integer theorem: exact at zero). The square x**2 is the rounded square."
  },
  {
   "property": "C140",
   "status": "proved",
   "theorems": [
    "C140_scaling",
    "C140_center"
   ],
   "note": "Every operation rounded; atan2, cos and sin of the library within 4/2^53."
  },
  {
   "property": "C141",
   "status": "proved",
   "theorems": [
    "C141_path",
    "C141_included"
   ],
   "note": "Ellipse.path in double precision: each row is within 160 R/2^53 of the exact point, and accepted by includes in double precision for data up to 2. numpy functions N and math functions M are arbitrary within 4/2^53 of cos and sin. C139_counterexample shows that includes rejects points of large ellipses."
  },
  {
   "property": "C142",
   "status": "proved",
   "theorems": [
    "C142_path",
    "C142_ends",
    "C142_counterexample"
   ],
   "note": "Arc.path in double precision. C142_path gives the sweep and all rows, C142_ends the two ends; C142_counterexample is an arc whose path collapses to one point because its two angles in degrees become the same number of radians. Angles of more than one turn are not covered."
  },
  {
   "property": "C143",
   "status": "proved",
   "theorems": [
    "C143_equal",
    "C143_unequal"
   ],
   "note": "Inversion.from_swapping_two_circles in double precision, compared with the exact function (whose swapping property is proved separately): C143_equal is an equality, C143_unequal gives the same branches with error bounds on pole and power."
  },
  {
   "property": "C144",
   "status": "proved",
   "theorems": [
    "C144_mid_circles",
    "C144_equal"
   ],
   "note": "Integer data up to 32 with different radii, up to 2^11 with equal radii; square roots, sums and quotients correctly rounded, np.vdot with any fusing."
  },
  {
   "property": "C145",
   "status": "proved",
   "theorems": [
    "C145_fixing",
    "C145_sign"
   ],
   "note": "Integer data up to 2^17, sign of the power up to 100; np.vdot with any fusing, different in radical_center and power. Touching circles are excluded from the claim about the sign, where the exact power is 0."
  },
  {
   "property": "C146",
   "status": "proved",
   "theorems": [
    "C146_cross_ratio",
    "C146_concyclic",
    "C146_decides"
   ],
   "note": "Integer coordinates up to 2^25; complex division as in CPython (Smith's method), sums fused or not. np.unique on doubles is equality of the numbers. C146_decides: for coordinates up to 2^10 the computed value decides concyclicity, since an exact imaginary part that is not 0 is bounded below."
  },
  {
   "property": "C147",
   "status": "proved",
   "theorems": [
    "C147_compose",
    "C147_transform"
   ],
   "note": "Integer data in the stated bounds; np.matmul is any function meeting the contract of C126. The claim about points is for left=True; the other order is the same call with exchanged inversions."
  }
 ]
}