{"id": "C01", "title": "Refraction keeps the ray direction a unit vector", "statement": "Whenever Interface.refract returns a finite direction for a unit input direction and a non-zero surface normal, the returned direction has length exactly one, for every refraction ratio mu (including mirrors, mu=-1, and mu=1).", "quantifier": "all unit directions u0, all non-zero normals r, all real mu except 0 (for mu = 0 the code does not call refract); exact real arithmetic", "why_tests_cant": "a continuum of directions, normals and index ratios; tests sample a few rays", "anchors": ["rayopt/elements.py:Interface.refract"]}
{"id": "C02", "title": "Refraction obeys Snell's law in vector form", "statement": "For a forward ray (u0.r>0) and mu=n0/n>0 with n0,n>0, the refracted direction u satisfies u x r = mu (u0 x r), hence n sin(theta) = n0 sin(theta0), u lies in the plane of u0 and r, and u.r>0 (the ray crosses the surface). It is the only unit vector with these properties.", "quantifier": "all unit directions with u0.r>0, all normals, all positive index pairs without total internal reflection", "why_tests_cant": "uniqueness and the law itself range over a continuum", "anchors": ["rayopt/elements.py:Interface.refract", "rayopt/elements.py:Interface.get_n_mu"]}
{"id": "C03", "title": "Reflection law", "statement": "At a mirror the outgoing direction keeps the tangential component and negates the normal component of the incoming one, so applying it twice gives the incoming direction back.", "quantifier": "all directions and all non-zero normals", "why_tests_cant": "continuum of inputs", "anchors": ["rayopt/elements.py:Interface.refract"]}
{"id": "C04", "title": "Total internal reflection is reported as NaN exactly when Snell's law has no solution", "statement": "For mu>0, mu != 1, Interface.refract yields NaN if and only if no unit vector u satisfies u x r = mu (u0 x r), i.e. iff mu sin(theta0) > 1.", "quantifier": "all unit directions, normals and ratios", "why_tests_cant": "an iff over a continuum cannot be sampled", "anchors": ["rayopt/elements.py:Interface.refract"]}
{"id": "C05", "title": "Refraction is reversible", "statement": "If a forward ray refracts from index n0 to n into direction u, then the reversed ray -u with the reversed normal refracts from n to n0 into -u0 (principle of reversibility).", "quantifier": "all forward unit rays that are not totally reflected, all index pairs", "why_tests_cant": "continuum of inputs", "anchors": ["rayopt/elements.py:Interface.refract"]}
{"id": "C06", "title": "A traced ray lands on the surface", "statement": "For a spheroid without aspherics (any curvature, any conic, either root) when intercept returns a finite path length s for a unit ray, the point y+s u satisfies the quadric equation c(x^2+y^2+(1+k)z^2)=2z, and surface_sag vanishes at it whenever the point lies on the vertex sheet (1-(1+k)c z >= 0).", "quantifier": "all rays, curvatures, conics, both intersection choices", "why_tests_cant": "continuum; root formula has special branches (k=0, c=0)", "anchors": ["rayopt/elements.py:Spheroid.intercept", "rayopt/elements.py:Spheroid.surface_sag"]}
{"id": "C07", "title": "No intersection is reported only when there is none", "statement": "For a spheroid with c != 0 and a ray whose quadratic coefficient is non-zero, intercept returns NaN iff the ray's line does not meet the quadric; otherwise the normal and the alternate choice together return exactly the set of intersection parameters.", "quantifier": "all rays and quadrics", "why_tests_cant": "existential over the whole line; tests see only chosen rays", "anchors": ["rayopt/elements.py:Spheroid.intercept"]}
{"id": "C08", "title": "surface_normal is the gradient of surface_sag", "statement": "For every curvature, conic and aspheric coefficient list, at every point where the conic square root is positive, surface_normal equals the gradient of the implicit surface function surface_sag, and is never zero. It is defined at all these points, except that the code raises for a flat surface with an empty (not absent) coefficient list.", "quantifier": "all points, all coefficient lists of any length", "why_tests_cant": "derivative identity over a continuum and unbounded list lengths", "anchors": ["rayopt/elements.py:Spheroid.surface_sag", "rayopt/elements.py:Spheroid.surface_normal"]}
{"id": "C09", "title": "Apertures clip exactly the rays outside the radius", "statement": "With clip enabled a ray keeps its direction at a surface iff x^2+y^2 <= radius^2 at the intercept; a clipped ray has NaN positions on all later surfaces and never becomes valid again.", "quantifier": "all rays, all systems of any length, all radii", "why_tests_cant": "persistence is an invariant over sequences of arbitrary length", "anchors": ["rayopt/elements.py:Element.clip", "rayopt/system.py:System.propagate"]}
{"id": "C10", "title": "Element coordinate changes are isometries and inverse to each other", "statement": "from_normal(to_normal(v)) = v, to_normal(from_normal(v)) = v, the same for from_axis/to_axis, and all four preserve dot products and cross products (proper rotations), for every distance, direction and angles ever assigned to an element.", "quantifier": "all directions (including antiparallel), all Euler angles, all vectors", "why_tests_cant": "continuum and all update histories", "anchors": ["rayopt/elements.py:TransformMixin.update", "rayopt/elements.py:TransformMixin._do_rotate", "rayopt/transformations.py:rotation_matrix", "rayopt/transformations.py:euler_matrix"]}
{"id": "C11", "title": "The local axis is mapped to the element direction", "statement": "from_axis maps the local z axis (0,0,1) to the element's unit direction: exactly if the direction is not within the numerical tolerance of the poles +z and -z, exactly also at the two poles themselves (the antiparallel one included), and within 3e-8 in between, where the code treats the direction as the pole.", "quantifier": "all directions", "why_tests_cant": "continuum", "anchors": ["rayopt/elements.py:TransformMixin.update"]}
{"id": "C12", "title": "Element placement stays normalised under every sequence of assignments", "statement": "After any sequence of assignments to distance, direction, angles, offset on an element: distance >= 0, |direction| = 1 and offset = distance*direction. Assigning offset v makes offset read back as v; assigning a distance d makes the offset d times the old direction (also for negative d).", "quantifier": "all finite sequences of setter calls with arbitrary values", "why_tests_cant": "histories of unbounded length", "anchors": ["rayopt/elements.py:TransformMixin.update", "rayopt/elements.py:TransformMixin.offset"]}
{"id": "C13", "title": "Tracing can be split anywhere", "statement": "Propagating rays from start to stop gives the same ray data per surface as propagating from start to an intermediate surface and resuming from there; this holds for geometric, paraxial and gaussian propagation and a run yields exactly one result per traversed element.", "quantifier": "all systems of any length, all split points, all rays", "why_tests_cant": "unbounded lengths and all split indices", "anchors": ["rayopt/system.py:System.propagate", "rayopt/system.py:System.propagate_paraxial", "rayopt/system.py:System.propagate_gaussian"]}
{"id": "C14", "title": "Optical path is index times geometric distance travelled", "statement": "For unit directions the path reported by Element/Interface.propagate is n0 times the signed Euclidean distance between successive intercept points; its absolute value is n0 |y1-y0|.", "quantifier": "all rays and surfaces", "why_tests_cant": "continuum", "anchors": ["rayopt/elements.py:Element.propagate", "rayopt/elements.py:Interface.propagate"]}
{"id": "C15", "title": "Rescaling a system rescales every ray", "statement": "Rescaling a system (distances, radii, curvatures, aspherics) by s>0 and scaling ray positions by s gives at every surface positions scaled by s, identical directions, and optical paths scaled by s; clipping decisions are identical. Rescaling by s and then 1/s restores every element.", "quantifier": "all systems of analytic spheroids, all rays, all s>0", "why_tests_cant": "continuum and unbounded system length", "anchors": ["rayopt/elements.py:Spheroid.rescale", "rayopt/elements.py:Element.rescale", "rayopt/system.py:System.rescale"]}
{"id": "C16", "title": "Centred systems are rotationally symmetric", "statement": "For a system of unrotated elements, rotating the input ray about the optical axis rotates every position and direction of the trace by the same angle and leaves optical paths and clipping unchanged; in particular rays in a meridional plane stay in it.", "quantifier": "all centred systems of any length, all rays, all angles", "why_tests_cant": "continuum", "anchors": ["rayopt/elements.py:Spheroid.intercept", "rayopt/elements.py:Interface.refract", "rayopt/system.py:System.propagate"]}
{"id": "C17", "title": "The system paraxial matrix is the ordered product of element matrices and acts on every ray", "statement": "System.paraxial_matrix(l,start,stop) applied to (y,u) equals the last result of propagate_paraxial, and matrices over adjacent ranges multiply (for a non-empty first range that starts behind the object).", "quantifier": "all systems, wavelengths, ranges and paraxial rays", "why_tests_cant": "unbounded lengths", "anchors": ["rayopt/system.py:System.paraxial_matrix", "rayopt/system.py:System.propagate_paraxial"]}
{"id": "C18", "title": "Lagrange invariant", "statement": "For every system whose elements have angles[2]=0 (any tilt angles[0] with non-zero cosine, no total reflection) the paraxial matrix is symplectic: det = 1 and the optical invariant y1.u2 - y2.u1 of any two paraxial rays is the same at every surface. For angles[2] not a multiple of pi/2 the code violates this. The eigenrays of the system come out of it multiplied by their eigenvalue, and these eigenvalues are non-zero and come in reciprocal pairs.", "quantifier": "all systems of any length, all ray pairs", "why_tests_cant": "invariant over arbitrary-length systems; violation needs a specific parameter", "anchors": ["rayopt/elements.py:Spheroid.paraxial_matrix", "rayopt/system.py:System.paraxial_matrix", "rayopt/paraxial_trace.py:ParaxialTrace.eigenrays"]}
{"id": "C19", "title": "Paraxial rays are the first-order limit of real rays", "statement": "For a refracting surface (tilted or not, without total reflection of the chief ray), a mirror in air (tilted or not) and a surface without material, along every differentiable curve of unit rays through the chief ray the exact ray map is defined near the chief ray and its derivative (position and optical direction cosine across the chief ray after the surface) is the element's paraxial matrix times the derivative of the incoming curve. The same holds after every element of a system along the axis whose elements are turned over after every mirror. It fails for every curved mirror in a medium of index other than one. Aspheric surfaces are included with the Newton search as the code runs it.", "quantifier": "all curvatures, conics (except 1+k*cos^2=0 without aspheric terms), aspheric coefficients, distances, tilts, index pairs, all curves of rays, all systems along the axis", "why_tests_cant": "a limit statement", "anchors": ["rayopt/elements.py:Spheroid.paraxial_matrix", "rayopt/elements.py:Spheroid.intercept", "rayopt/elements.py:Interface.refract"]}
{"id": "C20", "title": "Refractive index of a space is that of the closest preceding surface with a material", "statement": "System.refractive_index(l,i) is the index of the last element at or before i that has one, and 1.0 if there is none; it depends only on elements at or before i. The n reported by propagate_paraxial and by paraxial_matrices agrees with it on every surface for every range that starts behind the object; a range that starts at the object begins, in the code, with the index behind the last element.", "quantifier": "all systems and indices", "why_tests_cant": "unbounded lengths", "anchors": ["rayopt/system.py:System.refractive_index", "rayopt/system.py:System.paraxial_matrices"]}
{"id": "C21", "title": "Immersed mirrors: paraxial and real trace agree on the index after the mirror", "statement": "The geometric trace keeps the index at a mirror; the paraxial trace continues with the nominal index of the mirror material. The two traces record the same index at every element of a system if and only if the nominal index of every mirror is the index of the medium in front of it; the code's mirror material (index one) in a medium of index 3/2 violates the agreement.", "quantifier": "all systems with mirrors, all media", "why_tests_cant": "holds only in air; a test in air passes", "anchors": ["rayopt/elements.py:Interface.get_n_mu", "rayopt/elements.py:Interface.paraxial_matrix"]}
{"id": "C22", "title": "Reversing a system", "statement": "System.reverse reverses the element order, negates every curvature and aspheric coefficient, and shifts gap distances and materials so that every gap keeps its thickness and glass; reversing twice restores the system except for the first distance, which becomes 0, and the last material, which becomes None. Object and image conjugates are exchanged. The stop number stays as it was, so the aperture becomes the turned element at the mirrored place; it stays with its surface if that is the middle one, and in general moves to another one. If all elements follow one another along one direction, whatever their tilts, each is as far from the first as it had been from the last; with a bend this is false, because the directions are not moved with the distances: the first and the last surface of one system are sqrt 45 apart and sqrt 49 after the reversal.", "quantifier": "all systems of any length", "why_tests_cant": "unbounded lengths", "anchors": ["rayopt/system.py:System.reverse", "rayopt/elements.py:Spheroid.reverse"]}
{"id": "C23", "title": "Paraxial matrix of the reversed system", "statement": "For a system of centred refracting surfaces the paraxial matrix of the reversed system is J M^-1 J with J=diag(1,1,-1,-1), i.e. light runs backwards.", "quantifier": "all centred refracting systems of any length", "why_tests_cant": "unbounded lengths", "anchors": ["rayopt/system.py:System.reverse", "rayopt/elements.py:Spheroid.paraxial_matrix"]}
{"id": "C24", "title": "Element groups partition", "statement": "System.groups yields disjoint, increasing runs of element indices; every surface with a solid material or a mirror is in exactly one group, and no group is empty.", "quantifier": "all systems", "why_tests_cant": "unbounded lengths and arbitrary material sequences", "anchors": ["rayopt/system.py:System.groups"]}
{"id": "C25", "title": "Origins, path, track are running sums and close() closes the loop", "statement": "origins[i] is the sum of the offsets of elements 0..i, path[i] the sum of distances, and after close() the last origin is 0 and no other element's offset is changed.", "quantifier": "all systems and indices", "why_tests_cant": "unbounded lengths", "anchors": ["rayopt/system.py:System.origins", "rayopt/system.py:System.close", "rayopt/system.py:System.path"]}
{"id": "C26", "title": "Edge thickness", "statement": "edge_thickness[i] equals the axial separation of surface i and i-1 measured at their own edge heights: distance + sag_i(r_i) - sag_{i-1}(r_{i-1}), with 0 sag for elements without a surface shape.", "quantifier": "all systems", "why_tests_cant": "unbounded lengths", "anchors": ["rayopt/system.py:System.edge_thickness", "rayopt/elements.py:Interface.edge_sag"]}
{"id": "C27", "title": "Pickups are applied in order and are last-writer-wins", "statement": "After System.pickup the value at the last pickup's target path is factor*source+offset with the source evaluated after all earlier pickups; paths apart from all targets are unchanged; applying pickup twice equals once when no target is a source of an earlier-or-same pickup and any two of the paths are equal or part at some key (negative and non-negative indices of the same item are different names of the same path).", "quantifier": "all lists of get/set/factor/offset pickups", "why_tests_cant": "unbounded lists; order sensitivity", "anchors": ["rayopt/system.py:System.pickup", "rayopt/system.py:System.get_path", "rayopt/system.py:System.set_path"]}
{"id": "C28", "title": "Validators: validate() returns normally iff all constraints hold", "statement": "For validators without exec, validate(fix=False) changes nothing when it returns, and when the checked values are numbers it raises ValueError iff some validator's minimum, maximum or equality constraint is violated. validate(fix=True) for validators of values at separate paths with satisfiable bounds leaves all constraints satisfied and values at other paths unchanged. (Without the guards it does not: with exclusive bounds, or when a function of the value is constrained, it returns normally with the constraint still violated.)", "quantifier": "all validator lists and system states", "why_tests_cant": "unbounded lists", "anchors": ["rayopt/system.py:System.validate"]}
{"id": "C29", "title": "mirrored parity", "statement": "mirrored[i] is -1 to the number of mirrors among elements 0..i.", "quantifier": "all systems", "why_tests_cant": "unbounded lengths", "anchors": ["rayopt/system.py:System.mirrored"]}
{"id": "C30", "title": "Bracketing solver returns only acceptable aims", "statement": "When System.solve_brentq returns by its own acceptance test the returned parameter has |merit| <= tol; whenever it calls the bracketing root finder, the bracket has merit(a) < -tol and tol < merit(b), so that a continuous merit has a root in it; otherwise it raises. From a nonnegative a and a positive b all parameters stay on that side, and for the merit (x/R)^2-1 of an ideal system the search succeeds if b*(3/2)^j >= 7R/10 with j+3 iterations. (A valid bracket found in the last iteration is rejected, and after a failed ray the search can alternate for ever between two points although a bracket exists.)", "quantifier": "all merit functions (including NaN regions), all start brackets, tolerances, iteration limits", "why_tests_cant": "arbitrary function argument", "anchors": ["rayopt/system.py:System.solve_brentq"]}
{"id": "C31", "title": "Newton start search returns a ray that traces", "statement": "System.solve_newton either raises, returns a starting point whose merit is a number with |merit| <= tol, or passes Newton's method a starting point whose merit is a number; the search probes start, start-1, start+1, start-2, ... and picks the first that traces.", "quantifier": "all merit functions", "why_tests_cant": "arbitrary function argument", "anchors": ["rayopt/system.py:System.solve_newton"]}
{"id": "C32", "title": "Aiming cache computes each field once and returns the first computed value", "statement": "CacheND calls a solver that does not raise at most once per distinct argument tuple between clears and returns the same value for every later query with these arguments; the guess passed to the solver is None for the first query of a new cache. (After clear the first query still gets a guess interpolated from the forgotten values, and the guess given to the constructor or clear is ignored. System.pupil ignores the keyword arguments of all but the first call for a wavelength and stop.) The same holds for every subclass, whatever its interpolation and even if building the interpolator raises; the nearest cache guesses the value of a nearest known argument, the linear cache guesses nothing for its first four arguments; the base class raises on every first query and answers the second.", "quantifier": "all query sequences of any length", "why_tests_cant": "histories", "anchors": ["rayopt/cachend.py:CacheND", "rayopt/cachend.py:NearestCacheND", "rayopt/cachend.py:LinearCacheND"]}
{"id": "C33", "title": "Polar interpolation guesses stay between known values", "statement": "PolarCacheND's guess at a radius equals the stored value at a known radius, is a convex combination of the two neighbouring stored values between known radii, and is the nearest stored value outside the range; affine data are reproduced. (The azimuth is ignored: field points at the same radius get the same guess.)", "quantifier": "all stored sets and query radii", "why_tests_cant": "all insertion histories and a continuum of radii", "anchors": ["rayopt/cachend.py:PolarCacheND"]}
{"id": "C34", "title": "Angle/slope conversions are mutually inverse", "statement": "sinarctan and tanarcsin are inverse: sinarctan(tanarcsin(u)) = u for |u|<1 and tanarcsin(sinarctan(v)) = v for all v, for numbers and two-component rows; with a sign for z the result is a unit vector with the requested slopes and side; forward unit vectors survive the round trip. (Violated by the code for backward unit vectors and for three-column input of sinarctan.)", "quantifier": "all real slopes and direction cosines", "why_tests_cant": "continuum", "anchors": ["rayopt/utils.py:sinarctan", "rayopt/utils.py:tanarcsin"]}
{"id": "C35", "title": "sagittal/meridional frame is orthonormal", "statement": "sagittal_meridional(u,z) returns unit vectors orthogonal to each other and to u whenever u is non-zero and the off-axis reference is non-zero.", "quantifier": "all vectors", "why_tests_cant": "continuum with singular branches", "anchors": ["rayopt/utils.py:sagittal_meridional"]}
{"id": "C36", "title": "Pupil sampling stays in the unit disc and names a centre ray", "statement": "pupil_distribution returns points with x^2+y^2 <= 1 and its reference index addresses a ray through the pupil centre; the points are exactly those of the named arrangement (equally spaced lines, square grid within the disc, rings of 6 i points, quadrature radii and angles) in the stated number; the hexapolar grid has the largest full number of rings within the requested ray count. (The reference is wrong for 'meridional' and for 'cross' with two or three rays, and the rows of the 'triangular' grid are shifted by 2/m instead of half their spacing, so that it is not a regular triangular grid.)", "quantifier": "all ray counts n>=1, all distributions, all random numbers and quadrature nodes in range", "why_tests_cant": "unbounded n", "anchors": ["rayopt/utils.py:pupil_distribution"]}
{"id": "C37", "title": "Aimed rays pass through the requested pupil point", "statement": "FiniteConjugate.aim starts on the object surface and returns a unit direction such that the ray passes through the point with the requested pupil coordinates, measured in an orthonormal sagittal/meridional frame across the chief ray at the pupil centre, travelling to the same side as the chief ray (towards +z also for virtual pupils). For axial objects this is the point on the pupil plane; the edge fractions map to the pupil edge; for real pupils a fraction is that fraction of the half angle of the pupil seen from the object, and rays that survive the filter stay inside the pupil circle. (Violated by the code for off-axis objects if the coordinates are read in the pupil plane, and for fractional coordinates of virtual pupils.)", "quantifier": "all object points, pupil coordinates, distances and pupil apertures", "why_tests_cant": "continuum", "anchors": ["rayopt/conjugates.py:FiniteConjugate.aim"]}
{"id": "C38", "title": "Infinite object projections give unit direction vectors", "statement": "For rectilinear, stereographic and equisolid projections the direction assigned to a field point is a unit vector, a fraction of the field is seen under the angle that defines the projection (tan, tan of half and sin of half the angle are proportional to the fraction), the field edge under the field angle; the chief ray passes the pupil centre and other rays the requested point of a frame across the ray at the pupil centre. (equidistant and orthographic violate this.)", "quantifier": "all field points in the projection's domain", "why_tests_cant": "continuum", "anchors": ["rayopt/conjugates.py:InfiniteConjugate.map", "rayopt/conjugates.py:InfiniteConjugate.aim"]}
{"id": "C39", "title": "Pupil size conversions are mutually consistent", "statement": "For aperture-radius, NA, slope and f-number pupils, setting the radius and reading it back gives the same radius, and all reported quantities satisfy their definitions for the stored distance and index: radius = slope * distance, na = n sin(arctan slope), fno = 1/(2 na). Setting works at every non-zero distance and index, except that an f-number pupil cannot represent a zero radius.", "quantifier": "all radii, distances, indices", "why_tests_cant": "continuum", "anchors": ["rayopt/pupils.py:NaPupil", "rayopt/pupils.py:SlopePupil", "rayopt/pupils.py:FnoPupil"]}
{"id": "C40", "title": "First-order quantities of the paraxial trace", "statement": "For systems with non-zero power: a ray that enters parallel to the axis crosses the axis at focal_distance behind the last surface and a ray through the front focal point leaves parallel (object and image in air); the focal length is the ratio of height to slope (equal media); principal planes have unit magnification and nodal points unit angular magnification. Between different media the code's focal distances carry a wrong index factor (proved with a witness).", "quantifier": "all systems with non-zero power", "why_tests_cant": "all parameter values", "anchors": ["rayopt/paraxial_trace.py:ParaxialTrace"]}
{"id": "C41", "title": "Paraxial refocus puts the image at the marginal focus", "statement": "ParaxialTrace.refocus changes only the last distance, and if the marginal ray converges after the last surface (real focus) the paraxial marginal ray afterwards has height zero on the image surface. For a virtual focus it does not (proved with a witness).", "quantifier": "all systems with converging or diverging last segment", "why_tests_cant": "all systems", "anchors": ["rayopt/paraxial_trace.py:ParaxialTrace.refocus"]}
{"id": "C42", "title": "Pupils are images of the stop", "statement": "After update_conjugates the entrance (exit) pupil distance and radius are those of the paraxial image of the stop surface formed by the elements before (after) it.", "quantifier": "all systems without rolled elements, every stop behind the object (for the exit pupil also before the image)", "why_tests_cant": "all systems", "anchors": ["rayopt/paraxial_trace.py:ParaxialTrace.update_conjugates"]}
{"id": "C43", "title": "Gaussian beams propagate by the matrix product", "statement": "propagating an astigmatic Gaussian beam through elements one by one gives the same inverse q as applying the system's paraxial matrix at once; symmetry of q^-1 and physicality (negative definite imaginary part) are preserved by every element with symplectic matrix.", "quantifier": "all systems with symplectic matrices, all physical beams", "why_tests_cant": "unbounded lengths, continuum", "anchors": ["rayopt/elements.py:Element.propagate_gaussian", "rayopt/gaussian_trace.py:GaussianTrace"]}
{"id": "C44", "title": "Monomial indexing is a bijection", "statement": "For every dimension d >= 1 and order n, the enumeration of exponent tuples lists every tuple with total degree below n exactly once, in order of degree, its length is binomial(n+d-1,d), and while that number fits uint16 the lookup table inverts it. (Beyond uint16 two monomials share a position.)", "quantifier": "all d and n", "why_tests_cant": "unbounded d, n", "anchors": ["rayopt/simplex.py:simplex_iter", "rayopt/simplex.py:simplex_idx"]}
{"id": "C45", "title": "Truncated polynomial multiplication", "statement": "Whenever the product table can be built, which it can for three variables and every order fitting uint16, simplex multiplication is multiplication of multivariate polynomials truncated at the order: every coefficient of the product of degree below the bound is exactly the convolution sum; it is commutative, associative, distributive and has a unit. (For one, two or four variables building the table fails at orders 3, 4 and 5.)", "quantifier": "all coefficient vectors, all d and n", "why_tests_cant": "unbounded", "anchors": ["rayopt/simplex_accel.pyx:simplex_mul", "rayopt/simplex.py:Simplex"]}
{"id": "C46", "title": "Polynomial powers", "statement": "Simplex power a**p with constant term a0 = 1 is the truncated binomial series of (1+x)^p for every real p: a**p * a**q = a**(p+q), and for natural p it equals repeated truncated multiplication. For a0 != 1 the code computes a0^p times the series of (1+x)^p, which is wrong: a**1 = a only if a0 = 1 or a is constant.", "quantifier": "all coefficient vectors with a0>0 and all exponents", "why_tests_cant": "the unit-constant case passes tests", "anchors": ["rayopt/simplex_accel.pyx:simplex_pow"]}
{"id": "C47", "title": "Polynomial evaluation", "statement": "For order n >= 2 simplex_eval evaluates the polynomial: sum of coefficient times monomial; it is linear, evaluation of shift(c) adds c, and the value of an untruncated product is the product of the values. (For order 1 it writes outside its power table.)", "quantifier": "all points, coefficient vectors, d, n", "why_tests_cant": "unbounded", "anchors": ["rayopt/simplex_accel.pyx:simplex_eval"]}
{"id": "C48", "title": "Geometric refocus minimises the spot", "statement": "GeometricTrace.refocus moves the last surface to the distance where the RMS transverse spot, as computed by GeometricTrace.rms (non-negative weights, centred at the unweighted mean of the rays), is minimal: for straight rays extended from the image surface every other shift gives a larger spot, and for a system that ends in a flat surface across the axis (not turned by angles) the spot traced after any other shift is larger. Rays that miss do not matter; bundles with equal slopes give a NaN distance. About the weighted centroid the spot is not minimal, and an image surface turned by angles is moved the wrong way (violations).", "quantifier": "all finite ray bundles", "why_tests_cant": "minimum over a continuum of shifts", "anchors": ["rayopt/geometric_trace.py:GeometricTrace.refocus"]}
{"id": "C49", "title": "RMS spot size is shift invariant and zero iff all rays coincide", "statement": "GeometricTrace.rms is the root of the mean (with weights: the weighted sum) of the squared distances from the mean position or the reference ray; it is non-negative, unchanged by translating all ray positions, scales with scaling, and, for positive weights or without weights, is zero iff all rays hit the same point.", "quantifier": "all finite bundles", "why_tests_cant": "unbounded bundle size", "anchors": ["rayopt/geometric_trace.py:GeometricTrace.rms"]}
{"id": "C50", "title": "Binned sums conserve energy", "statement": "angle_sum and polar_sum distribute every pixel to exactly one bin: the bins' total equals the array's total (for radial sums up to a bin size of the full circle; above it the result is empty). A bin of angle_sum collects the pixels of one strip across the axis at the given angle, the first strip being centred on the first pixel along it; azimuthal bins are the pixels of one ring; radial bins the pixels of one sector, the first also those behind the last complete bin, and azimuths count towards the positive first index (the documentation says otherwise for both: violations). angle_sum at 0, pi/2, pi and 3 pi/2 gives the sums of columns or rows, and between 0 and pi/2 the first and last pixel fall in the first and last bin.", "quantifier": "all array shapes, centres, bin sizes up to the documented limit", "why_tests_cant": "unbounded sizes", "anchors": ["rayopt/special_sums.py:angle_sum", "rayopt/special_sums.py:polar_sum"]}
{"id": "C51", "title": "Abbe-number materials reproduce their definition", "statement": "An AbbeMaterial(n, v) with n != 1 has index n at its reference line and the Abbe number (n_ref-1)/(n_short-n_long) at its own lines is v; the index falls with the wavelength for n > 1, v > 0. (The reported vd uses the F, d and C lines and is not v for materials defined at other lines; for n = 1 it is infinite.)", "quantifier": "all n, v != 0, reference lines", "why_tests_cant": "continuum", "anchors": ["rayopt/material.py:AbbeMaterial"]}
{"id": "C52", "title": "Dispersion formula consistency", "statement": "The dispersion formula evaluators compute the textbook closed forms for coefficient lists of any length; equivalent parametrisations give equal indices; padding with zeros changes nothing; air has an index between 1 and 1.001. (Not so for refractiveindex.info formulas 6 with several terms and 8, and Zemax formula 9.)", "quantifier": "all coefficient lists and wavelengths", "why_tests_cant": "unbounded list lengths", "anchors": ["rayopt/material.py"]}
{"id": "C53", "title": "Registered names round-trip", "statement": "The registry keeps every class under its base class and type (its _type, else its name in lower case): no later registration replaces one, a second class of the same base and type is refused, and nothing else is found. make selects the class registered for the type in the dict, or the default type, hands it all other entries, and raises KeyError for unknown types; an object made from the dict of another has the same class. Violations: a subclass of a registered class inherits its type and cannot be registered; make removes the type from the caller's dict, so using the dict twice gives another class or a TypeError.", "quantifier": "all registries and dicts", "why_tests_cant": "all registration histories", "anchors": ["rayopt/name_mixin.py:NameMixin.register", "rayopt/name_mixin.py:NameMixin.make"]}
{"id": "C54", "title": "ZMF obfuscation is an involution and catalogues are read as written", "statement": "De-obfuscating an obfuscated Zemax lens text with the same key parameters gives the original bytes, for every length; each byte is changed by itself. Reading a catalogue file gives exactly the lenses that were written, in order, with all their fields; a file of another version or cut off inside a text is refused, and up to 143 bytes after the last lens are ignored.", "quantifier": "all byte strings, key parameters and lists of lenses", "why_tests_cant": "unbounded lengths", "anchors": ["rayopt/zemax.py:zmf_obfuscate", "rayopt/zemax.py:zmf_read"]}
{"id": "C55", "title": "Library loading is transactional", "statement": "Loading a catalogue file either adds all its entries or none; a failed load, or a crash at any point, leaves the library as it was (or as after the load); nothing stays pending between loads. Whatever files are loaded, refreshed or reloaded, one Zemax or CODE V file has at most one catalogue, and reloading gives exactly its current entries; refreshing does so if a changed file is newer and of another size (OSLO catalogues are added again each time, reloading refractiveindex.info adds its shelves again, a file of the same size is not refreshed). get(type,name,catalog,source) returns an entry as asked, the first by name without case, iff one exists, and KeyError otherwise. At most one reader fits a file name. Every catalogue carries the name of the program its file is from.", "quantifier": "all library histories and crash points", "why_tests_cant": "histories and failures", "anchors": ["rayopt/library.py:Library"]}
{"id": "C56", "title": "The functions handed to the optimiser describe operands and variables", "statement": "A point is feasible for the (in)equality functions handed to the optimiser iff every operand value less its offset lies within its min/max, provided equal bounds are zero (otherwise no point is feasible: the code drops the bound value). The objective is the weighted sum of squared distances to the offsets. Whatever the order of evaluations, the memoised answers are those of the system at the points asked (the system itself may be elsewhere after a cached answer). Rejecting restores, accepting sets the variables; scaled bounds are the bounds for positive scales.", "quantifier": "all operands, variables, states, points and sequences of evaluations", "why_tests_cant": "all values and all sequences of evaluations of an external optimiser", "anchors": ["rayopt/optimize.py"]}
{"id": "C57", "title": "Quaternion algebra and Euler angles", "statement": "quaternion_multiply is associative with unit [1,0,0,0] and norm-multiplicative; quaternion_inverse is a two-sided inverse of every non-zero quaternion; quaternion_matrix(q) is the rotation v -> q v q^-1 and a homomorphism onto the rotations with kernel {1,-1}, for quaternions whose squared length is at least 4 eps (smaller ones give the identity: violation); quaternion_about_axis agrees with rotation_matrix, which is Rodrigues' rotation; euler_matrix and quaternion_from_euler compose, for all 24 axis sequences, the three rotations that the name spells out; euler_from_matrix inverts euler_matrix for every rotation that is in an exact gimbal lock or further than 4 eps from one (in between it changes the matrix: violation); quaternion_from_matrix returns the unit quaternion of every rotation with non-negative real part, with isprecise=True only if the trace is positive (otherwise it raises or returns uninitialised memory: violation); quaternion_slerp with even spin stays on the unit sphere at the given fraction of the angle (with odd spin it does not: violation). random_quaternion and random_rotation_matrix map the numbers between 0 and 1 onto all unit quaternions and all rotations.", "quantifier": "all quaternions, rotations, angles, axes, axis sequences and fractions", "why_tests_cant": "continuum", "anchors": ["rayopt/transformations.py:quaternion_multiply", "rayopt/transformations.py:quaternion_matrix", "rayopt/transformations.py:quaternion_from_matrix", "rayopt/transformations.py:quaternion_slerp", "rayopt/transformations.py:euler_matrix", "rayopt/transformations.py:euler_from_matrix", "rayopt/transformations.py:quaternion_from_euler", "rayopt/transformations.py:random_rotation_matrix"]}
{"id": "C58", "title": "Rotation and Euler matrices are rotations", "statement": "rotation_matrix(angle,dir) is orthogonal with determinant one, fixes dir, is the identity for angle 0, and composes additively in the angle; euler_matrix is a rotation for all 24 axis conventions.", "quantifier": "all angles and axes", "why_tests_cant": "continuum", "anchors": ["rayopt/transformations.py:rotation_matrix", "rayopt/transformations.py:euler_matrix"]}
{"id": "C59", "title": "Multinomial coefficients and linear substitution", "statement": "simplex_transform(x,t) computes the coefficients of the polynomial x(t.v): evaluating the result at v equals evaluating x at t.v, as long as every multinomial coefficient of degree below the order fits uint16 (three variables: order at most 13; at order 14 it fails). finite_object_fast(r,u,w,s,t) computes the coefficients of r s - u t and -w t after the linear change of variables (r^2 x, u^2 x + w^2 y + 2uw z, -r(u x + w z)): the same numbers as simplex_transform with that matrix.", "quantifier": "all linear maps, all coefficient vectors, d, n", "why_tests_cant": "unbounded", "anchors": ["rayopt/simplex_accel.pyx:simplex_transform"]}
{"id": "C60", "title": "Prescription parsers assign thickness to the following gap", "statement": "Reading a Zemax/OSLO style prescription or a table yields one element per surface record (Zemax: plus one extra first element) whose distance is the last thickness given before the record, with curvature, radius, conic, glass and aspheric coefficients being the last ones given in the record itself. Unit of length, name and wavelengths are those of the last line of their kind anywhere in the file, with millimetres, no name and the default wavelengths without one. Exceptions: OSLO lens files turn thicknesses above 100 into infinity and raise for zero radii, OSLO catalogue lenses raise for a record without any thickness before it, a table may leave out any of its columns and give roc for curvature or diameter for radius, and uses the distance of the row itself unless it is shifted, unknown glasses of Zemax files leave air, and stops other than those of tables are not taken over.", "quantifier": "all record sequences", "why_tests_cant": "unbounded file lengths", "anchors": ["rayopt/zemax.py:zmx_to_system", "rayopt/oslo.py:olc_to_system", "rayopt/oslo.py:len_to_system", "rayopt/formats.py:system_from_array", "rayopt/formats.py:system_from_text"]}
{"id": "C61", "title": "Gaussian beam between elements", "statement": "The beam GaussianTrace.qin_at reports at a path length z strictly behind element i and not beyond element i+1 is the beam behind element i propagated through free space over the remaining distance in the medium behind element i, and stays physical. (At z exactly equal to an element's position the code reports the beam before that element, contrary to its comment.)", "quantifier": "all traced beams with symmetric inverse q, all non-decreasing path arrays, all z", "why_tests_cant": "The closed 2x2 formula must agree with the general matrix propagation for every complex symmetric q and every z", "anchors": ["rayopt/gaussian_trace.py:GaussianTrace.qin_at"]}
{"id": "C62", "title": "Resonator eigenmodes and stability", "statement": "For systems without rolled surfaces is_proper never raises; for simple astigmatic systems a beam aligned with the axes reproduces itself after one pass iff its complex beam parameters are roots of the polynomials solved by eigenmodes; stable along an axis means exactly one root with positive Rayleigh range, and unstable means no confined mode. eigenvalues returns exactly the eigenvalues of each axis block; they lie on the unit circle off the real axis exactly when the axis is stable. Along a stable axis the height and angle of every paraxial ray stay bounded over any number of passes; along an axis whose half trace exceeds one in size some ray grows by the same factor with every pass. Any beam aligned with the axes survives any number of passes through a resonator stable along an axis, and its radius along that axis stays bounded. Along an axis whose half trace exceeds one in size, and whose heights after a pass depend on the angles before it, the radius of every such beam grows beyond any bound. If the elements of a system that ends in the medium it starts in are repeated any number of times and the system is stable along an axis, the rows of propagate_paraxial along that axis stay bounded at every element.", "quantifier": "all system matrices without rolled surfaces, all complex beam parameters", "why_tests_cant": "Equivalence over all complex beam parameters and all system matrices", "anchors": ["rayopt/gaussian_trace.py:GaussianTrace.eigenmodes", "rayopt/gaussian_trace.py:GaussianTrace.is_proper", "rayopt/gaussian_trace.py:GaussianTrace.stable", "rayopt/gaussian_trace.py:GaussianTrace.eigenvalues", "rayopt/system.py:System.propagate_paraxial"]}
{"id": "C63", "title": "Gaussian refocus puts the waist on the last element", "statement": "GaussianTrace.refocus(axis) changes only the last distance; after it the beam at all earlier elements is unchanged and the waist along axis lies exactly on the last element. (Violated when the waist lies in front of the previous element: the distance setter stores the absolute value.)", "quantifier": "all systems ending in a plane without refraction, all physical beams aligned with the axes", "why_tests_cant": "Holds for every beam and every system; the failing case needs a negative distance", "anchors": ["rayopt/gaussian_trace.py:GaussianTrace.refocus", "rayopt/elements.py:TransformMixin.update"]}
{"id": "C64", "title": "Disc quadrature preserves interval quadrature", "statement": "interval_to_circle turns interval nodes and weights into disc nodes whose weighted sum of any rotationally symmetric function equals half the interval sum after x = 2r^2-1; so the weights sum to one exactly if the interval weights sum to two, and the number of points is as documented with and without a centre node.", "quantifier": "all node and weight lists, all radial integrands", "why_tests_cant": "unbounded number of nodes and arbitrary integrands", "anchors": ["rayopt/utils.py:interval_to_circle"]}
{"id": "C65", "title": "Every traced surface obeys the laws of optics with the materials' indices", "statement": "In every ray trace through every system: the ray arriving at element k, in lab coordinates, is the ray that left element k-1, moved along itself; its end point lies on the surface of element k (aspheric ones, which are met by scipy's Newton method: as close as the roots of the solver are to roots); an element without material or shape passes direction and index on; a mirror keeps the index and reflects the direction about the surface normal at that point; a refracting surface obeys Snell's law with the index recorded for the previous space and the material's index at the traced wavelength, which becomes the recorded index.", "quantifier": "all systems, all rays that meet the surfaces going forward, all wavelengths", "why_tests_cant": "arbitrary long systems, continuous ray and index parameters", "anchors": ["rayopt/elements.py:Interface.refract", "rayopt/elements.py:Interface.propagate", "rayopt/system.py:System.propagate", "rayopt/geometric_trace.py:GeometricTrace.propagate"]}
{"id": "C66", "title": "Curvature solve and resize", "statement": "After focal_length_solve(f) a new paraxial trace of an object at infinity leaves the last surface with slope -y0/f and its back focal length is f, and only the curvature of the last surface changed. resize gives each surface the smallest radius that passes every ray between the extreme combinations of marginal and chief ray and changes nothing else. (The older _focal_length_solve does not give the focal length asked for: it changes the curvature so that the product of the matrices in the reverse order has the power -1/(n f).)", "quantifier": "all systems of upright surfaces, focal lengths and traces", "why_tests_cant": "unbounded systems and a continuum of parameters", "anchors": ["rayopt/paraxial_trace.py:ParaxialTrace.focal_length_solve", "rayopt/paraxial_trace.py:ParaxialTrace.resize", "rayopt/paraxial_trace.py:ParaxialTrace._focal_length_solve"]}
{"id": "C69", "title": "Polynomial surface step satisfies intersection and Snell identities", "statement": "One step of the polynomial trace, modulo terms of the truncation order, gives a transfer along the ray to a point that satisfies the surface equation (sphere u(r+f^2)=2f, or flat asphere f = sum a_i r^(i+1) up to order len(a)+1) on the branch through the vertex, and a direction obeying Snell's law with the surface normal of slope df/dr; the optical path grows by n times the distance times sqrt(1+p); equal indices or no material leave the direction unchanged. Guards: nonzero distance for curved surfaces, conic zero, no mix of curvature and aspheric terms; without any of them the code's result violates the identity.", "quantifier": "all truncation orders, all on-axis polynomial states, all curvatures, aspheric coefficients, distances, indices and mirrors", "why_tests_cant": "arbitrary expansion order and continuous parameters; identities between whole polynomials", "anchors": ["rayopt/elements.py:Element.transfer_poly", "rayopt/elements.py:Spheroid.intercept_poly", "rayopt/elements.py:Interface.propagate_poly"]}
{"id": "C70", "title": "Polynomial trace carries one consistent ray with skew invariant and paraxial limit", "statement": "Along a polynomial trace through any list of surfaces (none both curved and aspheric), r, k, p are the squared height, height times slope and squared slope of the ray s x + t U, v x + w U modulo the truncation order; n (s w - t v)/sqrt(1+p) is conserved up to a sign per mirror; and the constant terms of s, t, v, w equal the paraxial trace of the same centred refracting surfaces.", "quantifier": "all truncation orders, all lists of surfaces, all wavelengths and start planes", "why_tests_cant": "unbounded systems and expansion orders", "anchors": ["rayopt/poly_trace.py:PolyTrace.rays", "rayopt/poly_trace.py:PolyTrace.propagate", "rayopt/elements.py:Interface.propagate_poly", "rayopt/elements.py:Spheroid.paraxial_matrix"]}
{"id": "C71", "title": "Polynomial evaluation in field and pupil coordinates", "statement": "For a finite object, evaluating the transformed polynomials at normalised pupil and field coordinates equals evaluating the traced ones at one ray, and that ray, started in the plane chosen by rays(), leaves the object point -radius*ab and meets the pupil plane at pupil radius*xy. Guards: order at most 13; a pupil flagged telecentric has a larger slope than the object (otherwise the rays of one field point leave different object points). For an object at infinity the ray has height pupil radius*xy and slope angle*ab, which is not the slope tan(angle) of the conjugate.", "quantifier": "all orders up to 13, all polynomials, all conjugate parameters, all field and pupil coordinates", "why_tests_cant": "continuous coordinates and parameters, whole polynomials", "anchors": ["rayopt/poly_trace.py:PolyTrace.transform", "rayopt/poly_trace.py:PolyTrace.evaluate", "rayopt/poly_trace.py:PolyTrace.rays", "rayopt/poly_trace.py:PolyTrace.telecentric"]}
{"id": "C72", "title": "Thermal index change follows the Schott formula", "statement": "The thermal change of the index is (n^2-1)/(2n) (D0 T + D1 T^2 + D2 T^3 + (E0 T + E1 T^2)/(l^2 - ltk^2)) with the temperature difference T, and vanishes at the reference temperature. (Without an explicit wavelength the code divides by zero. For Zemax data reference temperature and wavelength are swapped.)", "quantifier": "all coefficients, temperatures, indices and wavelengths", "why_tests_cant": "continuum; a test at one temperature with a hand-written object misses the reader's order", "anchors": ["rayopt/material.py:Thermal", "rayopt/zemax.py:agf_to_material"]}
{"id": "C74", "title": "Memoised methods answer like the methods themselves", "statement": "In any sequence of calls, of any length, a memoised method returns what it would compute, and the cache holds at most maxsize entries with distinct keys, as long as no attribute is assigned. (After an assignment a key asked before keeps its old answer until maxsize other calls have been made, e.g. the index of an AbbeMaterial after changing n.)", "quantifier": "all call and assignment histories, all methods and cache sizes", "why_tests_cant": "histories; depends on the interleaving of calls and assignments", "anchors": ["rayopt/material.py:AbbeMaterial.refractive_index", "rayopt/material.py:CoefficientsMaterial.refractive_index"]}
{"id": "C75", "title": "Aimed rays meet the stop", "statement": "When aim_chief returns, the ray launched towards the returned pupil distance traces to the stop and crosses it within eps radii of the centre along the field; when aim_marginal returns, the ray with the returned pupil radius meets the rim of the stop within 1 +- eps in the squared radius, or with stop=-1 passes all inner elements and reaches the rim of one; the returned radius is a positive multiple of the guess, so that the four pupil radii of _aim_pupil have the signs of their directions, and its pupil distance is the start value on axis and the aimed one off axis. eps bounds the merit at points returned by the external root finders. (With an explicit stop index k aim_marginal looks at element k-1, aim_chief at element k.)", "quantifier": "all systems, launch functions, root finders, tolerances and guesses", "why_tests_cant": "arbitrary systems and launch functions; continuum of rays", "anchors": ["rayopt/system.py:System.aim_chief", "rayopt/system.py:System.aim_marginal", "rayopt/system.py:System._aim_pupil"]}
{"id": "C76", "title": "Solves leave no trace of their trial evaluations", "statement": "System.solve evaluates its function at points chosen by the root finder and once more at the point returned. The final state is the one obtained from the original state by setting the returned value once and applying the pickups, independent of the trial points; each value seen by the root finder is that of one evaluation in the original state; the quantity read in the final state is the target plus the residual at the returned point; paths that neither the solve nor a pickup writes are unchanged. Guard: get/set solve, pickups with get/set/factor/offset of which none writes the source of itself or of an earlier one, and any two of the paths equal or parting at some key. With several solves all targets are met so, if no later solve and no pickup writes a path that meets one an earlier solve reads (they run once each, so that otherwise the earlier target is missed). The search starts at the number stored in the solve or else at the present value; init_current stores the point returned.", "quantifier": "all system trees, pickup lists, solves and root finders (any adaptive choice of trial points)", "why_tests_cant": "the trial points are adaptive and unbounded in number; the state is any tree", "anchors": ["rayopt/system.py:System.solve", "rayopt/system.py:System.pickup", "rayopt/system.py:System.set_path"]}
{"id": "C77", "title": "Optical path difference is measured on the reference sphere", "statement": "With the default after and image surfaces, GeometricTrace.opd returns, up to sign and in waves, the difference between the optical paths of a ray and of the reference ray from the object (for infinite objects from a plane perpendicular to the reference ray) to a sphere of the given radius around the image of the reference ray; rays that hit the same image point with equal paths have zero optical path difference, and so has the reference ray. With after=-1 the path up to the last surface is ignored (violation).", "quantifier": "all systems, rays and radii", "why_tests_cant": "continuum of rays and systems", "anchors": ["rayopt/geometric_trace.py:GeometricTrace.opd"]}
{"id": "C78", "title": "Resized apertures pass exactly the traced bundle", "statement": "After GeometricTrace.resize on a bundle of which every ray reaches every surface, tracing the same bundle with clipping gives the same rays as without clipping, and each aperture is touched by some ray. A single ray missing a surface makes its new radius NaN.", "quantifier": "all systems and bundles", "why_tests_cant": "unbounded bundles and systems", "anchors": ["rayopt/geometric_trace.py:GeometricTrace.resize", "rayopt/elements.py:Element.clip"]}
{"id": "C79", "title": "Point spread function is normalised", "statement": "GeometricTrace.psf is non-negative and its values sum to one for every wavefront of which a point is reached; a constant optical path difference does not change it; no value exceeds the number of pupil points over the array size, and the central value reaches this bound (Strehl ratio one) exactly if all optical path differences agree up to whole waves.", "quantifier": "all grid sizes, paddings and wavefronts", "why_tests_cant": "continuum of wavefronts, unbounded grids", "anchors": ["rayopt/geometric_trace.py:GeometricTrace.psf"]}
{"id": "C73", "title": "Making materials from names", "statement": "Material.make returns None and materials as they are, a float as a material of that index, 'n/v' as an Abbe material of index n and Abbe number v, the names vacuum, air and mirror in any case (alone or behind 'basic/') as those materials, and looks up any other 'name', 'catalog/name' or 'source/catalog/name' in lower case in the library. Violations: dictionaries, pairs and integers raise, and the text of a single number is looked up in the library.", "quantifier": "all names, number parsers and libraries", "why_tests_cant": "unbounded texts and library contents", "anchors": ["rayopt/material.py:Material.make", "rayopt/material.py:AbbeMaterial.from_string"]}
{"id": "C80", "title": "Systems survive the round trip through dictionaries", "statement": "Making a pupil, conjugate, element or system from the dictionary of another gives an object with the same attributes (elements in the same order), and writing it again gives the same dictionary, provided no part has a nickname, the radii fit the curvatures, and the materials are found again under their printed names (true for basic and library materials). Left out of the dictionaries, hence lost: fields, update_radius of conjugates, directions and angles within the tolerance of straight, index and Abbe materials; nicknames and too large radii make the dictionary unreadable (violations).", "quantifier": "all systems, number parsers and libraries", "why_tests_cant": "all attribute combinations and lists of elements", "anchors": ["rayopt/system.py:System.dict", "rayopt/system.py:System.__init__", "rayopt/elements.py:Spheroid.dict", "rayopt/conjugates.py:Conjugate.dict", "rayopt/pupils.py:Pupil.dict"]}
{"id": "C81", "title": "Glass catalogues are read as written", "statement": "Reading a Zemax glass catalogue gives one entry for each NM line, with exactly the text and the values of the lines up to the next one; it succeeds iff the first line is NM and NM, ED lines have their words. The material made from an entry has the name, code, expansion and density of the entry, the formula of its NM line and the coefficients, thermal and transmission data of its lines (wavelength limits, prices and chemical data are wrong: single characters are read). OSLO: one entry per line, coefficients as counted. CODE V: names agree iff the identifier has two characters. refractiveindex.info: the last formula with its range and coefficients.", "quantifier": "all catalogue texts, all float and int conversions", "why_tests_cant": "all texts", "anchors": ["rayopt/zemax.py:agf_read", "rayopt/zemax.py:agf_to_material", "rayopt/oslo.py:glc_read", "rayopt/oslo.py:glc_to_material", "rayopt/codev.py", "rayopt/rii.py:rii_to_material"]}
{"id": "C67", "title": "Third-order coefficients are the aberrations of real rays", "statement": "In a system on one axis (with or without mirrors), a real ray of pupil coordinates rho*t and field coordinates tau*t from a point object meets the paraxial image plane at t*tau times the image height plus t^3 times the image height times the sum over the surfaces of tsc|rho|^2 rho + cc(2(rho.tau)rho+|rho|^2 tau) + 2 tac(rho.tau)tau + (tac+tpc)|tau|^2 rho + dc|tau|^2 tau, plus o(t^3). At every surface the coefficients equal the textbook Seidel terms and obey the stop-shift formulas, the fourth-order figure is that of the surface, and surfaces that are concentric or aplanatic for the marginal ray have no spherical aberration and coma. The sums of tachc and tchc are the derivatives of the image heights by the dispersion. Guards: at least two aspheric coefficients or none; for colour, every surface in a dispersive medium has a material. transverse3 has these signs only for upright images (violation). Aspheric surfaces are included with the Newton search as the code runs it.", "quantifier": "all systems, surfaces, pupil and field coordinates, and curves of rays", "why_tests_cant": "a limit for all directions in pupil and field and all systems; tests compare single lenses with tables", "anchors": ["rayopt/elements.py:Spheroid.aberration", "rayopt/elements.py:Interface.dispersion", "rayopt/paraxial_trace.py:ParaxialTrace.aberrations", "rayopt/paraxial_trace.py:ParaxialTrace.transverse3"]}
{"id": "C68", "title": "Aligned systems send the axis along the stated directions", "statement": "excidence(mu) is what refraction at the vertex makes of the optical axis and obeys Snell's law. After align(direction, mu) with mu > 0, mu != 1, the axis refracted at the element leaves along direction, provided some surface normal can do so (and if the bend is not attainable, none can); place and direction of the element are unchanged. For a mirror (equal indices) the reflected axis leaves along direction. After System.align(n), the ray from the object vertex along the second element's direction passes through the vertex of every element and from each to the next along the next direction, and the last element is normal to the axis. Guard: turns are not below the tolerances of allclose and of the gimbal lock test. Violations: align with mu = -1 sends the reflected axis to the opposite direction; an element that does not bend the axis but is followed by a different direction is turned to contain the mean of both.", "quantifier": "all placements, directions, index ratios, and systems of refracting, reflecting and passive elements of any length", "why_tests_cant": "every direction in space and every system; the test suite does not trace a ray through an aligned system", "anchors": ["rayopt/elements.py:TransformMixin.align", "rayopt/elements.py:TransformMixin.excidence", "rayopt/elements.py:TransformMixin.incidence", "rayopt/system.py:System.align"]}
{"id": "C82", "title": "Principal axes, spot radii and wavefronts of beams", "statement": "The angle of a symmetric matrix is that of an eigenvector within 45 degrees of the first coordinate axis. At the spot radius along a coordinate axis the intensity of a physical beam is 1/e^2 of that in the centre; for beams along the coordinate axes the normal spot radii are those and describe the whole intensity, and resize gives every element but the object the stated number of the larger spot radius. The curvature radius is that of a spherical wave in the medium and is positive exactly when the waist lies before the element. make_qi(angle) has its first axis at minus the angle. Violation: normal raises for every beam with turned axes (off-diagonal above 1e-8), and with it resize.", "quantifier": "all beams, wavelengths, scales, media, angles and transverse positions", "why_tests_cant": "continuum of beams; the tests have no beam with turned axes", "anchors": ["rayopt/gaussian_trace.py:GaussianTrace.angle", "rayopt/gaussian_trace.py:GaussianTrace.normal", "rayopt/gaussian_trace.py:GaussianTrace.spot_radius_at", "rayopt/gaussian_trace.py:GaussianTrace.curvature_radius_at", "rayopt/gaussian_trace.py:GaussianTrace.resize"]}
{"id": "C83", "title": "Polynomial trace is the Taylor expansion of the real trace", "statement": "For systems along the axis, also folded by mirrors, of spheres, planes, and planes with at least order minus one aspheric coefficients, a ray with height t x in the start plane and slope t U, traced through the surfaces by GeometricTrace, meets every surface where the polynomials s x + t U of PolyTrace say, up to an error O(t^(2m+1)) for truncation order m; likewise its slope (v, w), its sag f up to O(t^(2m)), and, without mirrors, its optical path o measured from the start plane. Planes with aspheric coefficients are included with the Newton search as the code runs it up to the default order three, beyond it with a solver good to order 2m. Violation: behind a mirror the path polynomial o decreases by index times distance while the path lengths of GeometricTrace increase.", "quantifier": "all truncation orders, all such systems, wavelengths, start planes and rays", "why_tests_cant": "asymptotic statement about a continuum of rays, orders and systems; the tests compare a few rays numerically", "anchors": ["rayopt/poly_trace.py:PolyTrace.rays", "rayopt/poly_trace.py:PolyTrace.propagate", "rayopt/elements.py:Interface.propagate_poly", "rayopt/elements.py:Spheroid.intercept_poly", "rayopt/geometric_trace.py:GeometricTrace.propagate"]}
{"id": "C84", "title": "Resolution figures of the paraxial trace and their scaling", "statement": "Unless both conjugates are finite, each numerical aperture of ParaxialTrace is index times the sine of the angle of the marginal ray, hence below the index; if both are finite the image value fulfils the Abbe sine condition NA y = NA' y' between object and image heights. For a collimated object the f-number times twice the slope of the marginal ray at the image is one and the squares of working f-number and f-number differ by 1/4; the Airy radius is 0.61 wavelength / NA = 1.22 (wavelength / n) times the working f-number. Rescaling system and conjugates by a positive factor multiplies all heights of the paraxial trace, the rays it starts with, and lengths by the factor and leaves slopes, apertures and f-numbers. The track length is the distance along the axis from first to last surface. Violations: with two finite conjugates the image NA can exceed the index; the Rayleigh range is too small by the index for an immersed focus; number_of_points is multiplied by the square of the factor under a mere change of the length unit.", "quantifier": "all systems, wavelengths, conjugates, positive factors", "why_tests_cant": "the tests only print these figures for a few lenses; relations hold for a continuum of systems", "anchors": ["rayopt/paraxial_trace.py:ParaxialTrace.numerical_aperture", "rayopt/paraxial_trace.py:ParaxialTrace.f_number", "rayopt/paraxial_trace.py:ParaxialTrace.working_f_number", "rayopt/paraxial_trace.py:ParaxialTrace.airy_radius", "rayopt/paraxial_trace.py:ParaxialTrace.rayleigh_range", "rayopt/paraxial_trace.py:ParaxialTrace.number_of_points", "rayopt/paraxial_trace.py:ParaxialTrace.track_length", "rayopt/system.py:System.rescale"]}
{"id": "C85", "title": "Radius of the stop recovered from the conjugates", "statement": "After update_conjugates has fitted the pupil of the object to the stop of radius r, update_stop(end='object') sets the radius of the stop to r up to sign and, for a finite object, divided by the index of the object space; likewise from the image: up to sign r, divided by the index of the image space for a finite image. In air both ends therefore give back the size of the stop. Violation: for an immersed finite image the size is wrong by the index, and the radius can become negative.", "quantifier": "all systems without roll, stops, wavelengths, conjugates of either kind", "why_tests_cant": "no test calls update_stop (marked TODO: verify); the identity involves the inverse of arbitrary system matrices", "anchors": ["rayopt/paraxial_trace.py:ParaxialTrace.update_stop", "rayopt/paraxial_trace.py:ParaxialTrace.update_conjugates", "rayopt/conjugates.py:FiniteConjugate.aim", "rayopt/conjugates.py:InfiniteConjugate.aim"]}
{"id": "C86", "title": "Convex surfaces and drawn outlines", "statement": "resize_convex changes nothing but radii, makes no element smaller, gives each the radius of some element, and leaves object and image. Afterwards, where two surfaces close a piece of glass, the second is at least as large as the first if it is plane or convex, and the first at least as large as the second if it is convex, unless the second is cemented and convex towards the next piece. surface_cut gives points of the surface inside of its aperture from the lower to the upper rim. surfaces_cut draws every element; the space between a surface followed by glass and the next surface is drawn as a closed outline over both surfaces, with rims parallel and perpendicular to the axis through the larger height; nothing else is drawn. Violations: a cemented group keeps a too small convex surface; a stop between two surfaces of a lens is enlarged; a hemisphere before a larger plane gets a radius at which its sag is NaN.", "quantifier": "all systems, axes and numbers of points", "why_tests_cant": "loop with state over arbitrary sequences of surfaces and materials; no test looks at the radii or outlines", "anchors": ["rayopt/system.py:System.resize_convex", "rayopt/system.py:System.surfaces_cut", "rayopt/elements.py:Element.surface_cut", "rayopt/elements.py:Interface.surface_cut"]}
{"id": "C87", "title": "Transfer function and encircled energy", "statement": "The optical transfer function that Analysis.opds computes from the point spread function is, along each axis, the autocorrelation of the amplitude in the pupil up to frequency n(pad-1): it is one at frequency zero, its modulus is at most one and at most the common part of the pupil and its shifted copy divided by the pupil, with equality for a wavefront without error, and it vanishes beyond the cut-off at n. The centre of the encircled energy is the centroid of the point spread function (even grids); the encircled energy at index k is the energy in pixels nearer than k+1 pixels to it, never decreases and ends with one. Violation: it is plotted over the radius of k pixels, so at radius zero the curve can already be one.", "quantifier": "all square grids, pads, optical path differences, frequencies", "why_tests_cant": "identities of Fourier transforms for all wavefronts; the plots are not tested", "anchors": ["rayopt/analysis.py:Analysis.opds", "rayopt/geometric_trace.py:GeometricTrace.psf", "rayopt/special_sums.py:polar_sum"]}
{"id": "C88", "title": "Rays that geometric traces are started with", "statement": "rays_given and propagate give for every ray, in the order given, the ray itself at the object and what the system makes of it behind; nothing depends on what the trace held before if the system had the same length (violation: after removing an element the last row is that of the old trace, after adding one IndexError). Two columns are completed to forward unit vectors. rays_paraxial starts the marginal and chief ray at the paraxial heights and slopes if the object space has index one (violation: n u is used as slope). rays_point traces one ray per point of the distribution, aimed through it, with one weight each, and the reference is the chief ray, without filter or for round pupils (violation: with filter the reference and the weights are those of the unfiltered list). rays_clipping traces the chief ray and the two rays that touch the rims, for infinite objects and unvignetted real pupils (violation: vignetted finite objects). rays_line traces the chief, meridional and sagittal rays of all fields in this order, each through the pupil found from the field before.", "quantifier": "all systems, objects, fields, pupils, distributions, numbers of rays", "why_tests_cant": "state kept between calls, indices into filtered arrays, non-linear pupil maps: only visible for particular systems and orders of calls", "anchors": ["rayopt/geometric_trace.py:GeometricTrace.rays_given", "rayopt/geometric_trace.py:GeometricTrace.rays_paraxial", "rayopt/geometric_trace.py:GeometricTrace.rays", "rayopt/geometric_trace.py:GeometricTrace.rays_point", "rayopt/geometric_trace.py:GeometricTrace.rays_clipping", "rayopt/geometric_trace.py:GeometricTrace.rays_line"]}
{"id": "C89", "title": "Ray aberration figures", "statement": "The fan plots of Analysis.transverse show for every ray where it crosses the pupil plane relative to the reference ray, against the difference of the image positions, the rays before the reference being the meridional and the others the sagittal fan; for rays that start in the vertex plane (violation: curved objects). The spot diagrams show where the rays cross planes one Rayleigh range apart around a flat image plane, relative to the reference ray at the image plane. Astigmatism is the distance behind the flat image at which the chief ray crosses the meridional or the sagittal ray of the same field, defined iff their slopes differ; lateral colour is the height of the image above the image at the first wavelength; spherical aberration and axial colour are the distances at which the ray crosses the axis. The distortion is zero for every field of an ideal inverting system (violation: it is -2 for an ideal system with upright image).", "quantifier": "all rays, fields, numbers of rays, pupil distances, image radii", "why_tests_cant": "plots are not checked by tests; the numbers are right for one sign of the magnification and one shape of the object only", "anchors": ["rayopt/analysis.py:Analysis.transverse", "rayopt/analysis.py:Analysis.spots", "rayopt/analysis.py:Analysis.longitudinal"]}
{"id": "C90", "title": "Named aberration coefficients of the polynomial trace", "statement": "At the plane image of a point the third-order coefficients of the polynomial trace are the sums of the coefficients of ParaxialTrace.aberrations over the elements, times the image height: those that PolyTrace.seidel calls s1 to s5 are spherical aberration, minus coma, astigmatism, Petzval curvature and minus distortion, for finite objects after transform, for objects at infinity after scaling with pupil radius and field slope. All named coefficients are those of the expansion of Buchdahl to fifth order with an error of seventh order (violation: m9 has the wrong sign). PolyTrace.buchdahl never returns (violation), seidel raises with kmax = 2.", "quantifier": "all systems of spheres, planes and plane aspheres along the axis, all orders, objects, pupils, pupil and field coordinates", "why_tests_cant": "one sign of one fifth-order coefficient and the agreement of two independent computations for all lenses cannot be seen from a few examples", "anchors": ["rayopt/poly_trace.py:PolyTrace.seidel", "rayopt/poly_trace.py:PolyTrace.buchdahl", "rayopt/poly_trace.py:PolyTrace.transform", "rayopt/paraxial_trace.py:ParaxialTrace.aberrations"]}
{"id": "C91", "title": "Gaussian beams and paraxial rays", "statement": "In a system without rolled surfaces the beam of a Gaussian trace that starts with waists w_k is described at every element by the paraxial rays from the edges of the waists along the axis and from their middle with slope lambda/(pi w_k): the spot radius in each direction is the root of the sum of the squares of their two heights, and the curvature radius is the index times that sum over the sum of the products of height and slope (infinite if that is zero). A trace starts by default with a round beam whose waist is the object, or the entrance pupil for an object at infinity; the beam is physical and confined at every element and stays round if no surface is tilted. A curved wavefront diverges exactly if the waist lies before the element. A matrix that is stigmatic and simple astigmatic keeps round beams round (violation: is_stigmatic alone is not enough).", "quantifier": "all systems without rolled surfaces, tilts, mirrors, waists, positions, wavelengths, scales, elements", "why_tests_cant": "the tests propagate a beam through a few systems and do not compare it with rays", "anchors": ["rayopt/gaussian_trace.py:GaussianTrace.rays", "rayopt/gaussian_trace.py:GaussianTrace.spot_radius_at", "rayopt/gaussian_trace.py:GaussianTrace.curvature_radius_at", "rayopt/gaussian_trace.py:GaussianTrace.is_stigmatic", "rayopt/elements.py:Element.propagate_gaussian"]}
{"id": "C92", "title": "Drawings of traces", "statement": "Trace.from_axis keeps the rows and places a point at path length z between elements j-1 and j on the straight line from vertex j-1 in the direction of element j, z minus the path of j-1 behind the vertex, and as far beside that line as the point is beside the axis; points behind the last element are drawn with it. Paraxial traces are drawn with their heights at the vertices, perpendicular to the axis behind each (violation: behind a mirror the height is drawn with the other sign than before it). In a system folded by its mirrors the meridional cut of a Gaussian beam stays on its side of the axis (violation: the first point with an odd number of mirrors). Successive points of a traced ray are joined along the direction of the ray.", "quantifier": "all systems with directions on or away from the axis, all rows of points with ascending path length, all traced rays", "why_tests_cant": "plots are not checked by tests", "anchors": ["rayopt/raytrace.py:Trace.from_axis", "rayopt/paraxial_trace.py:ParaxialTrace.plot", "rayopt/gaussian_trace.py:GaussianTrace.plot", "rayopt/geometric_trace.py:GeometricTrace.plot"]}
{"id": "C93", "title": "Hamilton's optics of traced rays", "statement": "In a differentiable family of rays traced by System.propagate the optical path up to an element changes by n u . dy there less the same at the start. So a family that starts from a point or perpendicular to a surface is perpendicular to its wavefronts behind every element (Malus, Dupin), and rays from one point that meet again in a point have equal optical paths there. Two families through one ray keep the invariant n (du . dy' - du' . dy) from element to element, for refraction, reflection, tilted and decentred elements, conics and aspheres. Near a ray that meets the vertex sheet of all (conic) surfaces without grazing, arriving or leaving, all rays of a differentiable start are traced and depend differentiably on it. The optical path difference and the image points of such a family fit: with X the points on the reference sphere, sigma their distances from the image points y along the rays and yr the image of the reference ray, wavelength * d opd * sigma = n (y - yr) . dX.", "quantifier": "all systems, transforms, shapes, materials, mirrors, all differentiable families of rays, finite objects and objects at infinity, any reference ray and sphere", "why_tests_cant": "derivatives over families of rays; tests trace single rays", "anchors": ["rayopt/system.py:System.propagate", "rayopt/elements.py:Interface.propagate", "rayopt/elements.py:Interface.refract", "rayopt/elements.py:Spheroid.surface_normal", "rayopt/geometric_trace.py:GeometricTrace.opd"]}
{"id": "C94", "title": "Homogeneous transformation matrices", "statement": "The homogeneous matrices do what their names say on every point: concatenation applies the last matrix first; translations add up and move no directions; reflections mirror in the plane, are involutions and change handedness; rotations about a point fix the axis, keep distances and add angles; scaling is by the factor about the origin, in all directions or one; projections put every point into the plane along the normal (the nearest point), along the direction, or on the line from the eye; the pseudo-perspective projection followed by the orthogonal one is the perspective one and keeps the order of depth; the clip matrices put exactly the box or the frustum into the cube [-1, 1]^3 and are refused iff the bounds are out of order; shears move along the direction by the tangent times the distance and, for exactly orthogonal vectors, keep volume (violation: vectors orthogonal within the tolerance can give a singular matrix); the orthogonalization matrix has columns of the given lengths and angles and is refused iff no such cell exists; the angle between vectors has the cosine of the scalar product; multiples of a matrix are the same transform if the last entry is not zero (violation: a perspective clip matrix is not the same transform as itself).", "quantifier": "all points, planes, axes, angles, factors, bounds, cells, matrices and lists of matrices", "why_tests_cant": "the doctests draw a few random vectors; the conditions on the frustum and the cell, and the depth order, are statements about all points", "anchors": ["rayopt/transformations.py:translation_matrix", "rayopt/transformations.py:reflection_matrix", "rayopt/transformations.py:rotation_matrix", "rayopt/transformations.py:scale_matrix", "rayopt/transformations.py:projection_matrix", "rayopt/transformations.py:clip_matrix", "rayopt/transformations.py:shear_matrix", "rayopt/transformations.py:orthogonalization_matrix", "rayopt/transformations.py:angle_between_vectors", "rayopt/transformations.py:concatenate_matrices", "rayopt/transformations.py:is_same_transform"]}
{"id": "C95", "title": "The virtual trackball", "statement": "The pointer is mapped to the unit sphere: straight up inside of the ball's circle and to the nearest point of the rim outside; it fails only for radius zero. A point constrained to an axis is on the great circle of the axis, not behind the window, and no point of that circle is nearer to the line of the point; the axis picked is the one whose circle is nearest. After every sequence of placing, setting axes, pressing, dragging and continuing the orientation is a unit quaternion and the matrix a rotation, never NaN unless an axis away from the viewer was set (violation: then a press at the centre raises and a drag gives NaN). Pressing does not change the orientation and raises only for radius zero or if no axis can be picked (violation: setaxes() cannot take the axes away). Dragging turns the orientation at the press by twice the angle between the two points about the common perpendicular, or about the axis if constrained; it depends on the first and the last position only, and strokes along a path give the same as one stroke from its start to its end (none for a closed path). next repeats the last rotation, and with an acceleration goes on about the same axis by 1 + acceleration times the angle if the last rotation was at most a half turn (violation: after a larger one it turns back).", "quantifier": "all orientations, centres, radii, axes, pointer positions, accelerations and sequences of operations", "why_tests_cant": "the doctests compare the sum of a matrix after one drag; path independence and the invariants quantify over sequences of operations", "anchors": ["rayopt/transformations.py:Arcball", "rayopt/transformations.py:arcball_map_to_sphere", "rayopt/transformations.py:arcball_constrain_to_axis", "rayopt/transformations.py:arcball_nearest_axis"]}
{"id": "C96", "title": "Taking transformation matrices apart", "statement": "decompose_matrix raises exactly for a last entry below the threshold or a singular upper left block. Otherwise compose_matrix of its result is the matrix divided by its last entry, if its perspective is zero or above the threshold (violation: a smaller perspective is dropped, which moves far points by half their distance), and the parts are normal: scales of one sign, which is that of the determinant, with the determinant as product, and angles in their principal ranges. Conversely decompose_matrix of compose_matrix of normal parts gives the parts back, with scale, translation and the last entry of the perspective divided by the last entry of the matrix. compose_matrix of one part is the matrix of that part.", "quantifier": "all 4x4 matrices and all parts", "why_tests_cant": "the doctests take single matrices apart; the uniqueness of the factors, mirrored matrices and the pitch of a right angle are cases no random matrix meets", "anchors": ["rayopt/transformations.py:decompose_matrix", "rayopt/transformations.py:compose_matrix"]}
{"id": "C97", "title": "Fitting motions to point sets", "statement": "superimposition_matrix without scaling returns a rotation and translation, and no rigid motion has a smaller sum of squared distances, by the singular value decomposition (also for mirrored sets) and by quaternions. With scaling it takes centroid to centroid, the first set to one of the size of the second, and is the best motion with this factor (violation: another factor can be better, contrary to the documentation). Targets that are a rigid motion (with scaling: a similarity) away are met exactly. It raises exactly for less than three points and is NaN exactly with scaling and points that are all the same. affine_matrix_from_points finds an affine map exactly if the points are not all in one plane (violation: three points are accepted, but their result need not fit).", "quantifier": "all lists of pairs of points, all decompositions meeting numpy's contract", "why_tests_cant": "minimality is a statement about all other motions; mirrored and degenerate sets have decompositions a random test does not produce", "anchors": ["rayopt/transformations.py:affine_matrix_from_points", "rayopt/transformations.py:superimposition_matrix"]}
{"id": "C98", "title": "The arguments of a transformation from its matrix", "statement": "For every admissible answer of numpy.linalg.eig: reflection_from_matrix gives the mirror plane of a reflection; rotation_from_matrix the axis, up to the sign, and the angle of a rotation whose cosine is not within 1e-8 of one (violation: smaller rotations can come back as the identity, because the real part of a complex eigenvector is taken for the axis); scale_from_matrix the factor, the origin and the direction of a scaling by a factor not within 1e-8 of one (violation: uniform scalings near one come back as directional ones); shear_from_matrix the plane, angle and direction of a shear along its plane (violations: the zero angle gives no direction, and a direction slightly out of the plane, accepted by shear_matrix, makes an IndexError); projection_from_matrix the plane and direction of a parallel or orthogonal projection, and the plane and eye of a perspective projection onto a plane not through the origin from a distance other than zero and one (violations: at the distance one it is not recognised, for planes through the origin the eye is lost, and a pseudo projection is found only if its eigenvalue -1 is not listed last). If the point found is finite the matrix of the arguments found is the matrix given.", "quantifier": "all reflections, rotations, scalings, shears and projections, all orders and choices of eigenvectors", "why_tests_cant": "the doctests check random matrices with the one order and choice of eigenvectors that the installed LAPACK makes; the thresholds and the special planes are of measure zero", "anchors": ["rayopt/transformations.py:reflection_from_matrix", "rayopt/transformations.py:rotation_from_matrix", "rayopt/transformations.py:scale_from_matrix", "rayopt/transformations.py:projection_from_matrix", "rayopt/transformations.py:shear_from_matrix"]}
{"id": "C99", "title": "Dictionaries of materials", "statement": "Calling the class of a material with the dictionary of the material gives back the same material (for materials without thermal data, with a name and without an empty catalogue name), and different such materials have different dictionaries although the class is not named in them. The dictionary of a ModelMaterial is also accepted by AbbeMaterial, with the same index at every wavelength. (Thermal data come back as a dictionary, so that the copy cannot be turned into a dictionary again; an empty name comes back as \"-\".)", "quantifier": "all materials of the four classes", "why_tests_cant": "unbounded set of names, coefficients and wavelengths", "anchors": ["rayopt/material.py:Material.dict", "rayopt/material.py:ModelMaterial", "rayopt/material.py:AbbeMaterial", "rayopt/material.py:CoefficientsMaterial", "rayopt/material.py:Thermal"]}
{"id": "C100", "title": "Opening the library", "statement": "find_db never changes an existing file: a database of the user is used as it is, otherwise a copy of the packaged one (or of the one beside the source) is made, and it fails exactly if there is nothing to copy. Looking again finds the same database and writes nothing. All calls of Library.one give the instance of the first call, which opens one database, whatever their arguments.", "quantifier": "all file systems and all sequences of openings", "why_tests_cant": "histories and all states of the file system", "anchors": ["rayopt/library.py:Library.one", "rayopt/library.py:Library.__init__", "rayopt/library.py:Library.find_db"]}
{"id": "C101", "title": "Analysis draws what is asked for", "statement": "Analysis rejects an option that does not exist by its name before doing anything; with run=False it does nothing (run=True raises: violation). Otherwise, for at least one field and fair options, it makes the drawing of the system with the rays of the smallest and largest field, then exactly the figures asked for in a fixed order, and exactly the texts asked for, all about the adjusted system except the paraxial text, which is that of the system before resizing and refocusing (violation; they agree if neither is done). In the fan and spot figures field i of n is in row n-1-i, in every column, with one curve for every wavelength as long as there are at most seven (further ones are dropped: violation). trace_gaussian and plot_rays have no effect.", "quantifier": "all option lists, fields, wavelengths and systems", "why_tests_cant": "all combinations of options, all numbers of fields and wavelengths; figures are looked at by eye", "anchors": ["rayopt/analysis.py:Analysis.__init__", "rayopt/analysis.py:Analysis.run"]}
{"id": "C102", "title": "Printed tables and the stop", "statement": "print_coeffs prints one line per row with the number, the letter of the element and exactly the values of the row, and the sums of the columns in the last line if asked for; it raises if a row has not as many values as there are labels or if there are more rows than elements. The printed paraxial and geometric traces and third-order aberrations have, for every element and every ray, the values of that element under their labels; the printed Gaussian trace has those of the beam at the element and of its waists, if its axes are the coordinate axes (with turned axes at any element printing raises instead); the list of elements has the inverse curvature (infinite for planes), twice the radius and the index of the material at the first wavelength. Setting the aperture to an element makes it the aperture and is refused exactly if it is not in the system. The text of a pupil, of a conjugate and the lines of a system before its elements show exactly the settings that are not the usual ones; two systems have the same such lines exactly if description, scale, wavelengths, fields, stop and all settings of conjugates and pupils but their nicknames agree. (The dictionary that is saved tells less: it omits whether a conjugate updates its radius.)", "quantifier": "all systems, traces and numbers of rays", "why_tests_cant": "printed output is looked at by eye; all lengths", "anchors": ["rayopt/raytrace.py:Trace.print_coeffs", "rayopt/paraxial_trace.py:ParaxialTrace.print_trace", "rayopt/geometric_trace.py:GeometricTrace.print_trace", "rayopt/system.py:System.base_text", "rayopt/system.py:System.aperture", "rayopt/pupils.py:Pupil.text", "rayopt/conjugates.py:Conjugate.text", "rayopt/gaussian_trace.py:GaussianTrace.print_trace"]}
{"id": "C103", "title": "Skew invariant, etendue and the sine condition", "statement": "In a system along the z axis (with turned-over elements) every real ray that System.propagate traces keeps n (x v - y u), its skewness; so a ray in a plane with the axis stays in one. In any system the etendue n^2 dx dy dL dM of the bundles around a ray is the same on all elements where the points move in the vertex plane. If the rays of a fan from an object point meet in an image point and the point moved by v is imaged sharply to one moved by w, n u . v - n' u' . w is the same for all rays of the fan: Abbe's sine condition n sin U dy = n' sin U' dy' for transverse, Herschel's condition for axial shifts. If the sine condition holds, the image of the moved point has no tangential coma.", "quantifier": "all systems, shapes, materials, mirrors and rays (skew invariant: centred systems); all differentiable families of rays around every ray", "why_tests_cant": "holds for all real rays of all systems; derivatives over families of rays", "anchors": ["rayopt/system.py:System.propagate", "rayopt/elements.py:Interface.propagate", "rayopt/elements.py:Interface.refract", "rayopt/elements.py:Spheroid.surface_normal"]}
{"id": "C104", "title": "Astigmatism curves obey Coddington's equations", "statement": "For the real rays that System.propagate traces near a ray in a plane with the axis of a centred system, the sagittal and tangential foci follow Coddington's equations at every surface: n'/s' = n/s + cS (n' cos I' - n cos I) and n' cos^2 I'/t' = n cos^2 I/t + cT (n' cos I' - n cos I), with cT the curvature of the section of the surface and 1/cS the distance from the axis along the normal (c/w^3 and c/w with w^2 = 1 - k c^2 y^2 for conics, from the first two derivatives of the sag for aspheres), also for mirrors; between elements the distances shorten by the path of the ray; an object point is the focus of its rays. The crossing points -(b-a)/(q-p) that the astigmatism plot of Analysis.longitudinal draws tend, as the neighbouring ray approaches the chief ray, to the axial distance of these foci from a flat image.", "quantifier": "all centred systems (with turned elements) of any length, shapes with a normal, materials, mirrors; all rays in a meridional plane and all differentiable families of rays around them", "why_tests_cant": "derivatives of the traced rays over families of rays; all systems", "anchors": ["rayopt/analysis.py:Analysis.longitudinal", "rayopt/geometric_trace.py:GeometricTrace.rays_line", "rayopt/elements.py:Spheroid.surface_normal", "rayopt/elements.py:Interface.refract", "rayopt/system.py:System.propagate"]}
{"id": "C105", "title": "Gauss-Lobatto and Gauss-Radau pupil quadrature is exact", "statement": "gl_roots(n) (n >= 2) and gr_roots(n) (n >= 1) return n different nodes in [-1, 1], the first one -1 (and for Lobatto the last one 1), and positive weights; their weighted sum of every polynomial up to the degree 2n-3 (Lobatto) or 2n-2 (Radau) is its integral over [-1, 1], and for the next degree it is not. The points and weights that pupil_distribution returns for 'radau' and 'lobatto' average every polynomial of degree up to 2m-2 (m = int(sqrt(nrays)+1)) that is even in x over the unit disc, their weights sum to one, as asserted, and there are m(m-1)+1 of them. (They lie in one half of the disc, so averages of functions that are not even in x are wrong.)", "quantifier": "all n, all polynomials, all orders in which the roots are returned", "why_tests_cant": "all n and a vector space of integrands; the roots are only known numerically", "anchors": ["rayopt/utils.py:gl_roots", "rayopt/utils.py:gr_roots", "rayopt/utils.py:interval_to_circle", "rayopt/utils.py:pupil_distribution"]}
{"id": "C106", "title": "The compiled matrix functions are the Python ones", "statement": "The C functions rotation_matrix, reflection_matrix, projection_matrix, shear_matrix, translation_matrix, euler_matrix, euler_from_matrix return what the functions of transformations.py that they replace return, and raise ValueError exactly for vectors shorter than 2^-50 (projection also for a direction within 2^-50 of the plane); clip_matrix differs at most for a near plane at exactly 2^-50, is_same_transform at most for matrices whose last entry is between 0 and 2^-50, orthogonalization_matrix where it raises; scale_matrix agrees for unit directions (it does not normalise them, so others give a wrong scale). euler_matrix writes every entry. The numbers by which the names of axes are recognised are those of the 24 names on machines of both byte orders, and only these names and the names spelled backwards are accepted (the latter are no names, and names in upper case, which the Python module takes, are refused). Elements are therefore placed and aligned the same with and without the extension, which never raises for them.", "quantifier": "all angles, vectors, points, matrices, axis sequences, strings of bytes, elements", "why_tests_cant": "tests run with or without the extension, on one machine; thresholds and uninitialised entries are not hit by samples", "anchors": ["rayopt/_transformations.c:py_rotation_matrix", "rayopt/_transformations.c:py_euler_matrix", "rayopt/_transformations.c:axis2tuple", "rayopt/elements.py:TransformMixin.update"]}
{"id": "C107", "title": "The compiled quaternion functions", "statement": "The C functions for product, conjugate, rotation about an axis, Euler angles and random numbers return what those of transformations.py return; the inverse too, raising for |q|^2 < 2^-50; quaternion_matrix too for |q|^2 >= 2^-50, and for shorter ones not below |q| = 2^-50 the matrix of the normalised quaternion (the array of the caller is overwritten with the normalised quaternion). quaternion_from_matrix with isprecise returns q or -q for the matrix of any unit quaternion q, half turns included (its real part can be negative, and a last entry of zero ends the process). quaternion_slerp agrees with the Python function for quaternions not shorter than 2^-50 and fractions that are 0, 1 or not within 2^-50 of 0, 1 and -1 (fraction -1 is taken for 1). Random numbers are multiples of 2^-53 in [0, 1), random rotation matrices those of the Python module.", "quantifier": "all quaternions, angles, axes, fractions, spins, random words", "why_tests_cant": "the docstring tests of the module run the Python functions or the C functions, not both; half turns and thresholds have measure zero", "anchors": ["rayopt/_transformations.c:py_quaternion_matrix", "rayopt/_transformations.c:quaternion_from_matrix", "rayopt/_transformations.c:py_quaternion_slerp", "rayopt/_transformations.c:random_doubles"]}
{"id": "C110", "title": "How the extension replaces the Python functions", "statement": "After _import_module each public name of the extension is bound to its function, the Python function it replaces is kept under the name with prefix _py_, every other name is unchanged, and the names warned about are the public ones without a Python function, of which the extension has none; without the extension nothing changes. arcball_map_to_sphere is the Python function, arcball_constrain_to_axis too up to the sign of points behind the window (which it does not flip). vector_norm is the root of the sum of squares, unit_vector has norm one, zero vectors give NaN; the output array of vector_norm is accepted whatever its sizes, so results are written past its end.", "quantifier": "all modules with different names, all points, axes, vectors, shapes", "why_tests_cant": "all modules and shapes; writing past an array does not show", "anchors": ["rayopt/transformations.py:_import_module", "rayopt/_transformations.c:py_arcball_constrain_to_axis", "rayopt/_transformations.c:py_vector_norm"]}
{"id": "C109", "title": "The compiled eigenvector search and quaternion_from_matrix", "statement": "tridiagonalize_symmetric_44 of the extension turns a symmetric 4x4 matrix M into Q M Q^T up to 2^-50 in each entry, exactly if no off-diagonal part is shorter than 2^-50 without being zero. max_eigenvalue_of_tridiag_44 ends after at most 50 halvings inside Gerschgorin's bounds, its result exceeds the largest eigenvalue by at most half the precision 2^-50 (|lower| + |upper|), and falls below it by no more provided no negative pivot was replaced (a pivot between -eps and 0 is replaced by +eps, so that without this condition the result can be a third of the largest eigenvalue). eigenvector_of_symmetric_44 fails exactly if all columns of the adjugate are shorter than its limit, and otherwise returns a unit vector that the matrix takes to a multiple of a basis vector no longer than 2^25 |det|, where |det| is at most 24 E^3 times the error of the eigenvalue for entries at most E. quaternion_from_matrix of the extension returns under the same condition, for the rotation matrix of a unit quaternion q, a unit quaternion p with non-negative real part and 1 - (p.q)^2 <= 2^-42 (for a turn of slightly less than 90 degrees about the first axis the condition fails and p turns the other way).", "quantifier": "all symmetric 4x4 matrices, all tridiagonal matrices, all unit quaternions, all numbers of turns >= 50", "why_tests_cant": "the replaced pivot is hit only if a midpoint lies within 2^-50 above a diagonal entry; tests use a few rotations", "anchors": ["rayopt/_transformations.c:tridiagonalize_symmetric_44", "rayopt/_transformations.c:max_eigenvalue_of_tridiag_44", "rayopt/_transformations.c:eigenvector_of_symmetric_44", "rayopt/_transformations.c:py_quaternion_from_matrix"]}
{"id": "C111", "title": "The compiled superimposition_matrix", "statement": "If superimposition_matrix of the extension returns a matrix of numbers, it is a rotation times a factor >= 0 with a translation that takes the centroid of the first set to that of the second; the factor is one without scaling, and with scaling the image has the size of the second set. Its sum of squared distances exceeds that of no other rotation and translation with this factor by more than twice the factor times (half the precision of the eigenvalue + 2^-49 + 2^25 |det|), provided no negative pivot was replaced (C109). NaN is returned exactly for empty sets. It raises ValueError though a motion fits exactly: for sets one of which is a single point, for three points on a line, for all sets whose squared distances from the centroids add up to at most 1/10000, and for six points a thousand from the centroid to be turned by a right angle.", "quantifier": "all lists of pairs of points, both values of scaling, all numbers of turns >= 50", "why_tests_cant": "all sets of points; absolute thresholds show only for sizes no test uses", "anchors": ["rayopt/_transformations.c:py_superimposition_matrix", "rayopt/transformations.py:superimposition_matrix"]}
{"id": "C108", "title": "The compiled inverse_matrix", "statement": "inverse_matrix of the extension, for matrices of up to four rows, raises ValueError exactly if |det| < 2^-50 and otherwise returns the inverse (so 10^-4 times the identity of four rows is refused). For five rows and more whatever matrix of numbers it returns is the inverse, on both sides; it raises ValueError only for matrices within 10^-14 of a singular one in every entry (so 10^-15 times the identity is refused), and a matrix that is not as near to a singular one gets its inverse. It returns an array without finite entries only for singular matrices (the last pivot is not tested, so for the identity with the last one replaced by zero it does so rather than raise). The argument keeps its entries if it is an array of doubles itself or has at most four rows (the memory of an array-like object, lent without a copy, is overwritten).", "quantifier": "all sizes, all square matrices", "why_tests_cant": "all sizes and all orders of exchanged lines; singular matrices and thresholds have measure zero; the docstring tests sizes 1 to 6 with random entries", "anchors": ["rayopt/_transformations.c:invert_matrix22", "rayopt/_transformations.c:invert_matrix33", "rayopt/_transformations.c:invert_matrix44", "rayopt/_transformations.c:invert_matrix", "rayopt/_transformations.c:py_inverse_matrix"]}
{"id": "C112", "title": "Real rays run backwards through the reversed system", "statement": "In a system of centred refracting conic surfaces, each with a medium of its own and an image surface without one, a ray traced from the object that leaves every surface forwards, traced back from its last point through System.reverse, meets every surface in the same point (seen from the other side), takes the same optical path between any two surfaces, arrives in the direction in which the first ray left and leaves in the direction from which it came, has the same indices, and ends at the starting point; the total optical paths are equal. With clipping too. The same holds for surfaces of any tilt that follow one another along one direction, seen through the inversion of space. For mirrors this is false: the reversed system moves the mirror to the next surface and the ray is not reflected.", "quantifier": "all systems of any length of conic surfaces, centred or tilted in a line, all rays that get through, both values of clip, all wavelengths", "why_tests_cant": "any curvatures, conics, distances, indices and skew rays; choice of intersection and the sign of the square root on the way back", "anchors": ["rayopt/system.py:System.reverse", "rayopt/system.py:System.propagate", "rayopt/elements.py:Spheroid.intercept", "rayopt/elements.py:Interface.refract"]}
{"id": "C113", "title": "System.update brings the system up to date", "statement": "After System.update (also when a validator raises at its end) the stored paraxial trace is the trace of the elements as the pickups and solves left them from the conjugates of the system, the aberration coefficients are those of this trace, and the pupils have the indices of the object and image space. If the object pupil follows the stop, the stored marginal ray meets the stop at its edge and the chief ray at its centre; if the image pupil follows it too, the chief ray continued from the last surface crosses the axis at the image pupil and the marginal ray has its radius there. A second update changes nothing if the pickups and solves depend on the elements only and are settled after one run; the pupil cache is empty if none of them aims. A stop number counted from the end gives the same as the one counted from the start, except -1. The conditions are needed: a pickup of the pupil distance uses the pupil of the update before, a solve that aims leaves pupils of its trials in the cache, and a stop of -1 puts the entrance pupil at the first surface.", "quantifier": "all systems, conjugates, flags, wavelengths and stop numbers, all pickups, solves and validators as functions on the state", "why_tests_cant": "any user code in pickups and solves, any number of updates; the order of the steps shows only for special dependencies", "anchors": ["rayopt/system.py:System.update", "rayopt/paraxial_trace.py:ParaxialTrace.update", "rayopt/paraxial_trace.py:ParaxialTrace.update_conjugates", "rayopt/conjugates.py:FiniteConjugate.update"]}
{"id": "C114", "title": "Rays meet aspheric surfaces", "statement": "For a surface with aspheric terms, the derivative given to the Newton search of Interface.intercept is the derivative of the surface function along the ray wherever the normal is defined. A path length that the search returns is on the surface or within 1e-7 of a point whose tangent vanishes there, so that the surface function is at most 1e-14 times the rate at which its slope along the ray changes in between. If the ray meets the surface at r, its slope is at least m and changes by at most M per length up to the distance e of r from the plane z = 0 along the ray, and q = M e / m is at most 1/2 with 2 e q^15 <= 1e-7, then a path length is returned and it is within 4e-14 M/m of r. The conditions are needed: five steps are too few for some rays that cross the surface properly (NaN), a ray that meets the plane z = 0 outside of the domain of the conic is lost although it meets the surface, and alternate_intersection is without effect.", "quantifier": "all curvatures, conics, lists of aspheric coefficients, ray points and directions", "why_tests_cant": "convergence of an iteration for all surfaces and rays within explicit bounds", "anchors": ["rayopt/elements.py:Interface.intercept", "rayopt/elements.py:Spheroid.intercept", "rayopt/elements.py:Spheroid.surface_sag", "rayopt/elements.py:Spheroid.surface_normal"]}
{"id": "C115", "title": "Arrays and printed coefficients of the polynomial trace", "statement": "PolyTrace.propagate fills every row of stvwof and n with the polynomials and the index behind that element. PolyTrace.print_names prints every third- and fifth-order term of s and t exactly once, with its position, exponents and coefficient, and the names tell the powers of pupil and field coordinates in the term. PolyTrace.print_trace prints for every component a title, the element numbers and one line per term of degree below the cutoff, each with the position, the exponents and the coefficients at the elements; unknown components and elements raise. For a finite object st(i) and evaluate use the polynomials of the element i when the trace has just been made. Violations: after propagating again, st() still returns the polynomials of the old last element; propagate(start) with start above one begins again at the object instead of going on, and two different fifth-order terms of s, and two of t, carry the same name.", "quantifier": "all systems of surfaces, start positions, orders from three on, coefficient arrays, lists of components and elements, cutoffs", "why_tests_cant": "the tests print no polynomial trace and never start one in the middle; position and exponent bookkeeping depends on the order and on all arguments", "anchors": ["rayopt/poly_trace.py:PolyTrace.propagate", "rayopt/poly_trace.py:PolyTrace.print_names", "rayopt/poly_trace.py:PolyTrace.print_trace", "rayopt/system.py:System.propagate_poly", "rayopt/poly_trace.py:PolyTrace.st"]}
{"id": "C116", "title": "Norms and unit vectors along an axis, compiled and in Python", "statement": "For an array anywhere in memory with any shape and strides, the compiled vector_norm along an axis, counted from the front or the back, writes for every index into the other axes the root of the sum of the squares along the axis into a new array or a given one of the right shape, and unit_vector writes every entry divided by the norm of its line (NaN if that is zero) into an array of distinct entries that are not data, or in place, and no other memory. Axes that do not exist, output arrays with a wrong number of axes and, for unit_vector, of wrong shape are refused. For two or more axes the Python functions give the same norms and unit vectors and refuse the same axes; without an axis they take all entries together. (Violated by the compiled vector_norm for output arrays of wrong shape with the right number of axes: the shape of the data is compared with itself, so that too small an array is written behind its end and too large a one accepted; and for axes without entries, where it returns uninitialised memory instead of zeros. Violated by the Python unit_vector of a vector with an axis into a given array, which raises, and by the Python vector_norm of a vector, which takes no notice of an axis that does not exist.)", "quantifier": "all shapes, strides, addresses, axes and entries", "why_tests_cant": "shapes and strides are unbounded, and a write behind the end of an array goes unnoticed in most runs", "anchors": ["rayopt/_transformations.c:py_vector_norm", "rayopt/_transformations.c:py_unit_vector", "rayopt/transformations.py:vector_norm", "rayopt/transformations.py:unit_vector"]}
{"id": "C117", "title": "A surface without material in a gap changes nothing", "statement": "A surface or plane without material, of any shape and tilt, is put into a gap, and the element behind it moved closer by its distance. Then every other row of the trace of a ray is what it was (points, directions, indices), the ray leaves the dummy surface in the direction in which it came, and the optical paths of the two parts of the gap add up to the path over the gap, wherever the ray meets the dummy surface. If the dummy surface is not rolled about the axis, the same holds for the rows of the traces of a paraxial ray and of a Gaussian beam. (Violated for a dummy surface rolled by 45 degrees: the paraxial trace moves the ray, for the matrix of the rotation is not orthogonal.) A surface whose material is no mirror and has the index of the medium before it acts on real rays, paraxial rays and Gaussian beams as if it had no material. (Violated in the paraxial and Gaussian traces by surfaces tilted by more than a right angle: turned over, they act as a lens although the index does not change.)", "quantifier": "all systems, positions of the gap, dummy surfaces, rays, paraxial rays and beams", "why_tests_cant": "systems, places and rays are unbounded, and tests compare single lenses", "anchors": ["rayopt/system.py:System.propagate", "rayopt/system.py:System.propagate_paraxial", "rayopt/system.py:System.propagate_gaussian", "rayopt/elements.py:Element.propagate", "rayopt/elements.py:Spheroid.intercept", "rayopt/elements.py:Spheroid.paraxial_matrix"]}
{"id": "C118", "title": "The classical surfaces with sharp images", "statement": "Every ray that a surface of conic section lets pass behaves as the closed-form solutions of geometrical optics demand: a refracting conic with the constant -(n/n')^2 unites all rays parallel to its axis in the point 1/(c(1-n/n')), and one with -(n'/n)^2 sends the rays from that point along the axis; a conic mirror sends each ray through a focus through the other focus; a paraboloid mirror sends the rays from its focus along the axis; a refracting sphere sends each ray towards the aplanatic point at n'/n radii from its centre through the one at n/n' radii. The optical paths between the conjugate points, or from the plane of the vertex, are equal for all rays. (Violated by the light from infinity on a paraboloid: no ray along the axis is found to meet the surface, so that the commonest telescope mirror cannot be traced.) A ray through the centre of a refracting sphere goes straight on whatever the indices, and one through the centre of a spherical mirror is sent back along itself. A ray through the common centre of any number of refracting spheres, in whatever order, tilt and media, goes straight through all of them.", "quantifier": "all curvatures, indices, eccentricities, rays, apertures", "why_tests_cant": "the statement is about every ray at any aperture; a test samples a few rays and compares with a tolerance", "anchors": ["rayopt/elements.py:Interface.propagate", "rayopt/elements.py:Interface.refract", "rayopt/elements.py:Spheroid.intercept", "rayopt/elements.py:Spheroid.surface_normal"]}
{"id": "C119", "title": "Parallel plates do not turn rays", "statement": "Through any number of parallel plane surfaces between arbitrary media, at any inclination to the axis, the direction of a ray times the index changes along the common normal only; so at each surface behind which the index is that of the first medium the ray has its first direction again, and the media between have no influence on the last direction. For paraxial rays any number of upright planes never fails and acts at each surface as a gap whose length is the sum of the distances, each divided by the index of its medium. Real rays stay in their plane of incidence, so that plates shift them within it only.", "quantifier": "all numbers of plates, media, inclinations, distances and rays", "why_tests_cant": "numbers of plates, media and angles are unbounded", "anchors": ["rayopt/system.py:System.propagate", "rayopt/system.py:System.propagate_paraxial", "rayopt/elements.py:Interface.refract", "rayopt/elements.py:Spheroid.paraxial_matrix"]}
{"id": "C120", "title": "Plane mirrors reflect one after the other", "statement": "Behind any number of plane mirrors, placed and tilted anyhow, a ray that is not lost has in system coordinates the direction that comes of reflecting the first direction in the normal of one mirror after the other, wherever it meets them, and the index of the medium is unchanged. Every point is imaged sharply: all rays from it lie behind each mirror on lines through its image in one mirror after the other, at the distance from the image times the index that is the optical path the code sums up. Three mirrors at right angles send every ray back against its first direction; two mirrors turn every ray across their edge by twice the angle between their normals. The angle between any two rays is kept, and the sense of any three rays is reversed once per mirror, so that an odd number of mirrors shows a mirror image.", "quantifier": "all numbers of mirrors, positions, tilts and rays", "why_tests_cant": "numbers, positions and tilts of mirrors are unbounded", "anchors": ["rayopt/system.py:System.propagate", "rayopt/elements.py:Interface.refract", "rayopt/elements.py:Interface.get_n_mu", "rayopt/elements.py:TransformMixin.from_normal"]}
{"id": "C121", "title": "normalize_z completes two cosines to a unit vector", "statement": "normalize_z overwrites the third entry such that the result is the only unit vector with the same first two entries that does not point backwards; it fails for exactly the vectors whose first two entries are longer than one; what was in the third entry does not matter and a second call changes nothing; on the sines of slopes it agrees with sinarctan with a positive sign. It does not keep unit vectors that run backwards, as behind a mirror: those are turned forward.", "quantifier": "all vectors", "why_tests_cant": "the vectors are continuous", "anchors": ["rayopt/utils.py:normalize_z", "rayopt/utils.py:sinarctan"]}
