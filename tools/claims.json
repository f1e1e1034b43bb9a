{
 "C01": {
  "status": "proved",
  "note": "single refraction and whole traces"
 },
 "C02": {
  "status": "proved",
  "note": "for forward rays (u0.r>0); c02_backward_violation shows that the code bends backward rays to the wrong side"
 },
 "C03": {
  "status": "proved"
 },
 "C04": {
  "status": "proved"
 },
 "C05": {
  "status": "proved"
 },
 "C06": {
  "status": "proved"
 },
 "C07": {
  "status": "proved",
  "note": "c07_paraboloid_axial_missed: for a paraboloid the quadratic coefficient vanishes on axial rays and the code reports NaN although there is an intersection"
 },
 "C08": {
  "status": "proved"
 },
 "C09": {
  "status": "proved"
 },
 "C10": {
  "status": "proved"
 },
 "C11": {
  "status": "proved",
  "note": "exact when the direction is not within allclose tolerance of +-z, otherwise within 3e-8"
 },
 "C12": {
  "status": "proved"
 },
 "C13": {
  "status": "proved"
 },
 "C14": {
  "status": "proved"
 },
 "C15": {
  "status": "proved",
  "note": "systems with aspherics need a root finder whose result scales (shown for Newton's method with a fixed number of steps; scipy's absolute tolerance is not modelled)"
 },
 "C16": {
  "status": "proved"
 },
 "C17": {
  "status": "proved"
 },
 "C18": {
  "status": "proved",
  "note": "c18_roll_det: a surface rolled about its own axis by phi has determinant cos(2 phi)^4, so the property fails exactly when sin(2 phi) is not zero"
 },
 "C19": {
  "status": "proved",
  "note": "c19_refract, c19_mirror, c19_dummy (surface frames, any tilt in the y plane), c19_tilted, c19_tilted_mirror (with the code's rotations), c19_system (whole systems along the axis, folded by mirrors); the immersed mirror is c19_violated_immersed_mirror. Surfaces enter through NearHit, which c19_newton proves for conics and for every aspheric surface with the Newton search of the code (scipy's documented algorithm)"
 },
 "C20": {
  "status": "proved",
  "note": "c20_start_zero: a range starting at the object surface takes the index of the last element instead"
 },
 "C21": {
  "status": "proved",
  "note": "c21_geometric, c21_agree, c21_system (iff); the code violates the unguarded property: c21_violation"
 },
 "C22": {
  "status": "proved",
  "note": "c22_stop, c22_stop_violation: the stop number is not mirrored with the elements, so the stop moves to another surface unless it is in the middle. c22_places, c22_bend_violation: the elements stand where they should if all follow along one direction; with a bend the directions stay behind and the length changes."
 },
 "C23": {
  "status": "proved",
  "note": "for systems whose surfaces all carry a refracting material; c23_dummy_violation shows that a surface with material=None loses refraction on reversal"
 },
 "C24": {
  "status": "proved",
  "note": ""
 },
 "C25": {
  "status": "proved",
  "note": ""
 },
 "C26": {
  "status": "proved",
  "note": ""
 },
 "C27": {
  "status": "proved",
  "note": "values and paths are a tree of attributes and items; the effect of several pickups, frame and idempotence; witnesses that the guard is needed and that negative indices alias"
 },
 "C28": {
  "status": "proved",
  "note": "check, unchanged state and fixing for satisfiable separate constraints; violations: exclusive bounds and constraints on functions of the value are not fixed although validate returns"
 },
 "C29": {
  "status": "proved",
  "note": ""
 },
 "C30": {
  "status": "proved",
  "note": "Acceptance, bracket signs, root inside the bracket for continuous merit, parameters stay positive, success for the ideal quadratic merit within the iteration limit; c30_last_iteration and c30_cycle show valid brackets that are missed. scipy's brentq is external."
 },
 "C31": {
  "status": "proved",
  "note": "All three outcomes and the order of the probes. scipy's newton is external."
 },
 "C32": {
  "status": "proved",
  "note": "c32_once covers every query sequence and every solver, including one that raises. c32_clear proves that clear keeps the interpolator, so the first query after clear does get a guess, and that the guess argument is ignored; c32_kwargs that later keyword arguments of System.pupil are ignored. c32_any_once, c32_nearest and c32_linear are for NearestCacheND and LinearCacheND (and any other subclass) with scipy's interpolators by contract; c32_base_violation is the base class."
 },
 "C33": {
  "status": "proved",
  "note": "c33_exact, c33_segment and c33_affine hold for every stored set; c33_available: after the first success every query has a guess. c33_azimuth: the azimuth plays no role, no rotation normalisation happens."
 },
 "C34": {
  "status": "proved",
  "note": "scalars, rows and direction vectors; c34_backward_violation: for backward directions slopes and back flips the transverse part; c34_three_columns_violation: three-column input of sinarctan always raises IndexError"
 },
 "C35": {
  "status": "proved",
  "note": "the reference is along the axis as in every caller; c35_zero_violation for a zero reference"
 },
 "C36": {
  "status": "proved",
  "note": "random numbers and quadrature nodes are parameters in their documented ranges; c36_meridional_violation and c36_cross_violation prove the wrong reference rays, c36_triangular_violation the irregular triangular grid"
 },
 "C37": {
  "status": "proved",
  "note": "guarded form; c37_plane_violation and c37_virtual_violation prove where the code departs from the pupil plane and from the pupil circle"
 },
 "C38": {
  "status": "proved",
  "note": "c38_equidistant_violation, c38_orthographic_violation"
 },
 "C39": {
  "status": "proved",
  "note": ""
 },
 "C40": {
  "status": "proved",
  "note": "Air (equal unit indices) for focal points and nodal points, equal media for the focal length; c40_focal_points_media and c40_focal_length_media state exactly what the code returns otherwise, c40_immersed_violation is the witness that it is not the focal distance."
 },
 "C41": {
  "status": "proved",
  "note": "Guarded by a real focus; c41_virtual_violation: for a diverging last segment the stored distance becomes positive and the marginal height doubles instead of vanishing."
 },
 "C42": {
  "status": "proved",
  "note": "c42_stop closes the loop: with updated pupils the marginal ray meets the stop edge and the chief ray its centre; c42_wideangle_violation for wide-angle objects."
 },
 "C43": {
  "status": "proved",
  "note": ""
 },
 "C44": {
  "status": "proved",
  "note": "Enumeration, order and inverse tables for all d, n. Guard: the number of coefficients fits uint16 (d=3: n<=72); c44_wraps proves the tables collide beyond it, c44_empty that order 0 fails."
 },
 "C45": {
  "status": "proved",
  "note": "Product equals the MvPolynomial product coefficient by coefficient and as an explicit convolution sum; ring laws. Guard: the tables can be built, proved for d=3 and every order fitting uint16; c45_other_dimensions proves that building fails for d=1,2,4 at small orders."
 },
 "C46": {
  "status": "proved",
  "note": "c46_series gives the computed series for every a; the claim holds for a0=1 (c46_natural, c46_add for real exponents). c46_constant_term proves it fails whenever a0 differs from 1 and a non-constant coefficient is not 0; c46_repaired gives the scaled version that is right."
 },
 "C47": {
  "status": "proved",
  "note": "For all d, n>=2, points and coefficients (uint16 guard); c47_order_one proves that order 1 writes outside the power table."
 },
 "C48": {
  "status": "proved",
  "note": "GeometricTrace.refocus as written (finite rays only, unweighted means, weights in the sums). For non-negative weights the shift is the strict minimum of the rms the class computes (c48_min); end to end for traces in a system whose last surface is flat and across the axis (c48_refocus); bundles with equal slopes give a NaN distance (c48_collimated). Violations: c48_weighted_violation (the spot about its weighted centroid is not minimal), c48_turned_violation (an image plane turned by its angles is moved the wrong way)."
 },
 "C49": {
  "status": "proved",
  "note": "rms as written, any reference index, with and without weights. Zero iff all rays coincide needs positive weights (c49_zero); rays of weight zero are not seen (c49_zero_weight)."
 },
 "C50": {
  "status": "proved",
  "note": "angle_sum and both directions of polar_sum, arrays as functions with a shape, exact reals, np.bincount as its definition. Totals for all shapes, centres, aspect ratios and bin sizes (rays: up to the full circle); what each bin collects; documented special angles. Violations: c50_radial_large_violation (bin size above 2 pi loses the total), c50_radial_partial_violation (values other than at pi in the first bin), c50_radial_direction_violation (documented sense of azimuth is reversed)."
 },
 "C51": {
  "status": "proved",
  "note": "c51_definition at the material's own lines. c51_other_lines proves that the property vd, which always uses the F, d, C lines, differs from v for a material defined at other lines; c51_default: n=1 reports an infinite Abbe number."
 },
 "C52": {
  "status": "proved",
  "note": "Closed forms for lists of any length. c52_rii_6, c52_rii_8 and c52_agf prove the formulas that are evaluated differently from their source's documentation."
 },
 "C53": {
  "status": "proved",
  "note": "All registration histories over an abstract set of classes, plus the table of the package. The type inherited by a subclass and the dictionary consumed by make are violations."
 },
 "C54": {
  "status": "proved",
  "note": "Obfuscation never fails, works byte by byte with a key below 1000 that depends on position and parameters only, and is an involution for every length. Reading a catalogue gives back the entries written; other versions and texts cut off are refused. Reals instead of doubles; the decoding of doubles is a parameter."
 },
 "C55": {
  "status": "proved",
  "note": "SQLAlchemy sessions as two copies of the list of catalogues; what a reader finds in a file is a parameter, what it records of the file is modelled. One catalogue for one file holds for Zemax and CODE V files; OSLO and refractiveindex.info: c55_oslo_violation, c55_shelves_violation."
 },
 "C56": {
  "status": "proved",
  "note": "For operands whose equal bounds are zero; c56_equality_violation: other equal bounds are never feasible. The optimiser itself is any sequence of evaluations. Positive scales; infinite bounds are absent bounds."
 },
 "C57": {
  "status": "proved",
  "note": "Python versions of the functions (the compiled extension replaces them when present). numpy.linalg.eigh enters as: a unit eigenvector of the largest eigenvalue. math.atan2 is Complex.arg."
 },
 "C58": {
  "status": "proved"
 },
 "C59": {
  "status": "proved",
  "note": "Substitution and evaluation for all d, n, matrices and coefficient vectors, including termination of the odometer loop. Guard: multinomial coefficients below the order fit uint16 (d=3: n<=13, c59_order_13); c59_wraps proves it fails at n=14. finite_object_fast: the polynomials after the change of variables for every order fitting uint16 tables (c59_finite_object, c59_finite_object_value) and the same numbers as simplex_transform (c59_finite_object_transform)."
 },
 "C60": {
  "status": "proved",
  "note": "For Zemax files, OSLO catalogue lenses, OSLO lens files and tables: count of elements, every attribute as the last value in its own record, distance as the last thickness before; success characterised line by line; texts made of lines are read as these. Unit, name and wavelengths of Zemax files and unit and name of OSLO files are characterised as well (c60_zmx_header, c60_len_header). Deviations are theorems named _violation: extra first element and unread stop and lost glasses (Zemax), missing thickness and AST (OSLO catalogues), thicknesses above 100 and zero radii (OSLO files), zero radii of tables. float, int and Material.make are parameters."
 },
 "C61": {
  "status": "proved",
  "note": "c61_at_element_violation: exactly at an element the beam before it is returned"
 },
 "C62": {
  "status": "proved",
  "note": "np.roots is modelled by the set of roots of its polynomial; allclose tests are exact equalities c62_bounded, c62_escape, c62_marginal, c62_beam, c62_beam_escape: rays and beams over many passes. c62_guide: the trace through repeated elements."
 },
 "C63": {
  "status": "proved",
  "note": "for a non-negative new distance; c63_negative_violation proves the failure otherwise"
 },
 "C64": {
  "status": "proved",
  "note": "interval nodes and weights are parameters"
 },
 "C65": {
  "status": "proved"
 },
 "C66": {
  "status": "proved",
  "note": "c66_old_solve_violation: the older _focal_length_solve, marked not exact in the source, gives a thin plano-convex lens 3/2 of the focal length asked for."
 },
 "C67": {
  "status": "proved",
  "note": "The ray curve is any curve of real rays whose heights and slopes have the given expansion to third order; near3_start gives one for every pupil and field coordinate. Surfaces: those the axial ray hits to second order (CloseHit): conics other than paraboloids (excluded by the intersection formula) and, by c67_newton_element, all aspheric surfaces with the Newton search of the code. The chromatic part is proved for systems in which every surface between dispersive media has a material."
 },
 "C68": {
  "status": "proved",
  "note": "Proved for all placements reachable by the setters. Guards: the bend can be attained by Snell's law, and none of the tolerance comparisons (poles, small turns, gimbal lock) takes a small turn for none; surfaces meet the axis at the vertex. Violations: align with mu=-1 aims a mirror the wrong way; an element that does not bend the axis is turned edge on when the next direction differs."
 },
 "C69": {
  "status": "proved",
  "note": "Guards: distance not zero for curved surfaces, conic zero, not both curvature and aspheric terms, order at most one more than the number of aspheric coefficients. c69_zero_distance, c69_conic, c69_one_pass and c69_curved_asphere show that the code violates the property without each guard."
 },
 "C70": {
  "status": "proved",
  "note": "Ray and skew invariant for all traces through surfaces that are not both curved and aspheric; paraxial agreement for centred refracting surfaces at positive distance."
 },
 "C71": {
  "status": "proved",
  "note": "Guard: telecentric flag only with the larger pupil slope (c71_flag shows the violation). c71_angle: for objects at infinity the angle is used instead of its tangent. Order at most 13 through c59."
 },
 "C72": {
  "status": "proved",
  "note": "c72_formula; c72_default_wavelength and c72_agf_swapped are the violations."
 },
 "C73": {
  "status": "proved",
  "note": "Python's float(text) and the glass library are parameters."
 },
 "C74": {
  "status": "proved",
  "note": "c74_pure for any call sequence; c74_stale and c74_abbe prove that assigning attributes leaves old answers in place."
 },
 "C75": {
  "status": "proved",
  "note": "Aimed rays meet the stop, given that the external root finders return points whose merit is within eps; c75_marginal_explicit and c75_violated_stop show the off-by-one for an explicit stop."
 },
 "C76": {
  "status": "proved",
  "note": "the root finder is an arbitrary choice of trial points depending on its starting point and the values seen; get/set solves with plain pickups; c76_order_violation shows the need of the guard for several solves"
 },
 "C77": {
  "status": "proved",
  "note": "opd with the default after=-2, image=-1; the rows come from propagating through the last element. c77_after_last_violation: after=-1 ignores the whole path."
 },
 "C78": {
  "status": "proved",
  "note": "resize(fn=max over rays) of all elements but the first, on a bundle traced without clipping; c78_nan: one missing ray makes the radius NaN."
 },
 "C79": {
  "status": "proved",
  "note": "psf from the resampled optical path differences (a grid, NaN outside of the pupil); np.fft.fft2 with zero padding by its definition; griddata is not modelled."
 },
 "C80": {
  "status": "proved",
  "note": "Keys are an enumeration with a case for any other name; values of unexpected types are outside of the model. Pickups, validators and solves are kept as opaque lists."
 },
 "C81": {
  "status": "proved",
  "note": "Texts as lists of characters; float and int are parameters. Wavelength limits, prices and chemical data are read from single characters (c81_ld_violation, c81_od_violation); CODE V identifiers not of two characters: c81_codev_violation."
 },
 "C82": {
  "status": "proved",
  "note": "arctan2 is Complex.arg; the branch of angle for complex matrices has no caller and is not modelled; sqrt of negative numbers and divisions by zero are none"
 },
 "C83": {
  "status": "proved",
  "note": "elements along the axis without zero-distance curved surfaces, conics or curved aspheres (where c69_* show that the polynomials are wrong). Surfaces enter through Fitted: the intersection is exact without aspheric terms and good to order 2m with them. c83_newton_element proves it for the Newton search of the code up to truncation order 3, the default; beyond that it is an assumption on the solver, as one step of the search leaves an error of order six on the axis"
 },
 "C84": {
  "status": "proved",
  "note": "one side at a time for working f-number, Airy radius and Rayleigh range; violations: the numerical aperture of finite-finite systems can exceed the index, the Rayleigh range lacks the index, number_of_points ignores the length unit"
 },
 "C85": {
  "status": "proved",
  "note": "elements without roll; the value after update_conjugates is given in closed form for both ends; violation for the image end when the image medium is not air or the image is infinite"
 },
 "C86": {
  "status": "proved",
  "note": "violations: in cemented groups a convex first surface can stay too small, a stop inside of glass is enlarged, a strongly curved surface gets a radius where it does not exist"
 },
 "C87": {
  "status": "proved",
  "note": "square grids as made by opd; frequencies up to n (pad - 1); violation: the encircled energy is plotted one pixel too far inside"
 },
 "C88": {
  "status": "proved",
  "note": "the pupil z, p is the argument (found by the solvers of C75); violations: arrays are not resized with the system, the filter moves the reference, rays_paraxial in media, rays_clipping of vignetted finite objects"
 },
 "C89": {
  "status": "proved",
  "note": "one ray at a time; the drawing is not modelled; violations: curved objects (pupil coordinate), upright images (distortion -2)"
 },
 "C90": {
  "status": "proved",
  "note": "spheres, planes and plane aspheres along the axis, plane image where the marginal ray crosses the axis; violations: the sign of m9, buchdahl never returns, seidel raises for kmax = 2"
 },
 "C91": {
  "status": "proved",
  "note": "c91_stigmatic_violation: is_stigmatic compares the two axes only and accepts a matrix that mixes them"
 },
 "C92": {
  "status": "proved",
  "note": "violations: c92_paraxial_violation (paraxial rays cross the axis at a mirror), c92_beam_violation (first point of a beam on the wrong side)"
 },
 "C93": {
  "status": "proved",
  "note": "Hamilton's optics of traced bundles: change of the optical path (c93_step, c93_path), rays perpendicular to wavefronts (c93_malus), equal paths between conjugate points (c93_fermat), the symplectic invariant of two neighbouring rays (c93_symplectic), differentiability near a crossing ray for conics (c93_smooth), slope of the wavefront of opd and transverse aberration (c93_opd)."
 },
 "C94": {
  "status": "proved",
  "note": "Exact reals; zero normals and directions (NaN in the code) excluded by hypothesis. numpy.linalg.inv is not modelled."
 },
 "C95": {
  "status": "proved",
  "note": "Exact reals; NaN as none; the initial orientation is a quaternion (a matrix goes through quaternion_from_matrix, C57)."
 },
 "C96": {
  "status": "proved",
  "note": "decompose_matrix and compose_matrix over the exact reals; the perspective threshold is a recorded violation"
 },
 "C97": {
  "status": "proved",
  "note": "three dimensions; svd, eigh and pinv of numpy by contract; scaling and coplanar points are recorded violations"
 },
 "C98": {
  "status": "proved",
  "note": "the five *_from_matrix functions over the exact reals with numpy.linalg.eig by contract (eigenpairs of length one, real vectors for real eigenvalues, spanning); the thresholds, planes through the origin, eyes at the distance one, the order of pseudo projections and out of plane shears are recorded violations"
 },
 "C99": {
  "status": "proved",
  "note": "dictionaries of the four material classes and the constructors that read them; thermal data and empty names are recorded violations; that Material.make refuses dictionaries is part of C73"
 },
 "C100": {
  "status": "proved",
  "note": "the file system is a function from paths to contents, opening a database records its address"
 },
 "C101": {
  "status": "proved",
  "note": "options, order of adjustments, texts and figures, and which cell shows which field and wavelength; the curves themselves are in C78, C89; three violations: run=True, stale paraxial text, more than seven wavelengths"
 },
 "C102": {
  "status": "proved",
  "note": "the values of a line, not the digits they are rounded to nor the padding; the texts of pupils, conjugates and systems are Props/Describe.lean"
 },
 "C103": {
  "status": "proved",
  "note": "Skew invariant and meridional rays of centred systems (c103_skew, c103_meridional), conservation of etendue between vertex planes (c103_etendue), the cosine law for sharp images of neighbouring points with Abbe's sine condition and its converse (c103_cosine, c103_sine, c103_coma). Example: a plane mirror."
 },
 "C104": {
  "status": "proved",
  "note": "Real rays near a chief ray in a plane with the axis: c104_transfer (path between elements), c104_surface (both equations, as equivalences, for refraction and reflection, any sheet of any shape with the curvatures of its section), c104_dummy, c104_point, c104_system. c104_conic computes the curvatures of conic surfaces. c104_focus ties the vergences to the points where neighbouring rays meet. c104_drawn and c104_astigmatism: the values that Analysis.longitudinal plots tend to the foci. Limits of exact rays; the finite pupil step eps of rays_line is not bounded."
 },
 "C105": {
  "status": "proved",
  "note": "np.poly1d.roots is a parameter by its contract (all roots with multiplicity, needed only for polynomials whose roots are all real, which is proved); the Legendre polynomials of scipy are defined by Bonnet's recursion and characterised by c105_legendre; c105_half_violation proves the restriction to functions even in x"
 },
 "C106": {
  "status": "proved",
  "note": "Agreement of each matrix function of the C extension with the model of its Python function, with the exact inputs for which it raises; the 24 axis names on machines of both byte orders; update and align of the elements. Differences that change results are violations: scale_matrix does not normalise its direction, names of axes in upper case are refused, names spelled backwards accepted."
 },
 "C107": {
  "status": "proved",
  "note": "Agreement with the Python functions away from the thresholds, the precise conversion recovers every unit quaternion up to sign; the caller's array that quaternion_matrix normalises, the missing sign, the end of the process for a zero last entry, and the fraction -1 of quaternion_slerp are violations."
 },
 "C108": {
  "status": "proved",
  "note": "Sizes up to four by the cofactors, larger ones by an invariant of the elimination with exchanged lines (product of the two factors) and the two substitutions. The missing test of the last pivot, the absolute thresholds, and the array of an array-like argument that is overwritten are the violations."
 },
 "C109": {
  "status": "proved",
  "note": "Householder steps as an orthogonal matrix, the bisection by the signs of the pivots of an LDL factorisation (Sylvester), the vector as a column of the adjugate. Bounds hold in exact arithmetic with the thresholds of the code. The replacement of a small pivot by +eps whatever its sign makes the lower bound conditional (hypothesis Clean: no replaced pivot was negative); the two violations show that the condition is needed."
 },
 "C110": {
  "status": "proved",
  "note": "The import as a fold over the attributes of the extension; the trackball functions agree but for the side of the plane of the window (violation); vector_norm accepts output arrays of any size (violation)."
 },
 "C111": {
  "status": "proved",
  "note": "Whatever matrix is returned is a rotation times the factor of the Python function taking centroid to centroid; its misfit is within an explicit error of the best (hypothesis Clean as in C109, c109_determinant bounds the determinant). Refusals of collinear, coincident, small and large sets and NaN for empty sets are the violations."
 },
 "C112": {
  "status": "proved",
  "note": "c112_backwards: centred conic refracting surfaces each with a medium of its own and an image surface without; rays that leave every surface forwards and not along an asymptote. c112_tilted: the same for surfaces of any tilt that follow one another along one direction. c112_mirror_violation: mirrors do not run backwards."
 },
 "C113": {
  "status": "proved",
  "note": "pickups and solves are arbitrary functions on the state (they run user code), validators an arbitrary predicate; the rest of update is the modelled code. Non-finite quantities that are used are none. Guards: idempotence needs pickups and solves that depend on the elements only, the cache needs pickups and solves that do not aim, a negative stop number must not be -1; the three violations show the need."
 },
 "C114": {
  "status": "proved",
  "note": "scipy's newton with fprime is modelled by its documented algorithm for this claim (elsewhere it is an arbitrary function); exact reals. The convergence theorem is a guarded one; the three violations show rays that cross the surface and are lost outside of the guard."
 },
 "C115": {
  "status": "proved",
  "note": "c115_rows, c115_fresh, c115_terms, c115_names, c115_trace, c115_all_elements, c115_trace_errors; violations c115_restart_violation, c115_stale_violation, c115_twice_violation. Rounding to the printed digits and padding are left out, start is at least one; c115_fresh and c115_stale_violation up to order 13 as C71"
 },
 "C116": {
  "status": "proved",
  "note": "memory as a map from addresses to numbers or NaN; arrays as address, shape and strides in doubles; numpy's IterNew and IterAllButAxis by the order of their indices; that an array without entries has no step in IterAllButAxis is numpy's source, not this project's"
 },
 "C117": {
  "status": "proved",
  "note": "The surface behind the gap is a plane or conic in the trace of real rays; the dummy surface has any shape the ray meets. Directions of the two elements agree, tilts are arbitrary in the real trace; in the paraxial and Gaussian traces the dummy surface is not rolled. Violation for a rolled one. c117_same_index, c117_same_matrix, c117_same_trace, c117_turned_violation: surfaces between media of the same index."
 },
 "C118": {
  "status": "proved",
  "note": "In the coordinates of the element (C10 takes them to those of the system), for intersections on the sheet of the vertex; refraction with the default root, mirrors with either. The light from infinity on a paraboloid is a violation, as C07 has for one ray."
 },
 "C119": {
  "status": "proved",
  "note": "Planes without mirrors, with positive indices and a common normal, which may be inclined to the axis and rolled; the ray runs along the normal. Paraxial part for planes that are not tilted."
 },
 "C120": {
  "status": "proved",
  "note": "Plane mirrors anywhere and at any tilt, taken in the order of the system; whether the path between two of them runs forward is not asked, as in the code. A ray lost by clipping has no direction."
 },
 "C121": {
  "status": "proved",
  "note": "normalize_z for one vector at a time; the function is exported but not called inside rayopt. Backward directions are turned forward (c121_backward_violation)."
 }
}