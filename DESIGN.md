# Formal model of rayopt in Lean 4

## Trusted base

* Lean 4.33.0 kernel.  Every theorem depends on at most the three standard
  axioms `propext`, `Classical.choice`, `Quot.sound`
  (`lean/Verif/Audit.lean` prints them for every claimed theorem).
* Mathlib's definitions of the real numbers, square root, trigonometric
  functions, matrices and finite sums.
* The reading of the Python/Cython source: the code is not executed.  Every
  model definition cites file and lines in `/repo`.

### Numbers

* IEEE doubles are modelled by exact real numbers (`ℝ`).  Rounding, overflow and
  signed zeros are **not** modelled.
* A non-finite result (NaN, or the infinities that come from a division by
  zero) is modelled by `Option.none` where the code can produce it and the
  property depends on it (ray tracing, aiming, intercepts).  NaN and infinity
  are not distinguished there.
* `numpy.allclose(a, b)` is the exact predicate `|a-b| <= 1e-8 + 1e-5*|b|`.
* `numpy` broadcasting over a bundle of rays is modelled one ray at a time: all
  modelled ray operations are row-wise in the code.
* Exceptions are values (`Option`/`Except`).

### Layout

* `lean/Verif/Model/*`  definitions mirroring the code, with citations.
* `lean/Verif/Lemmas/*` helper lemmas.
* `lean/Verif/Props/*`  property theorems (names start with the property id in
  lower case, e.g. `c01_...`), each with an `example` meeting its hypotheses.
* `lean/Verif/Audit.lean` `#print axioms` for every claimed theorem.

## Plan per property

| id | what is modelled | how it is proved |
|----|------------------|------------------|
| C01-C05 | `Interface.refract` branch by branch on 3-vectors, NaN as `none` | vector algebra over ℝ; `g` is a root of `g²+2ag+b=0` |
| C06-C07 | `Spheroid.intercept` (flat, sphere, conic, alternate), `surface_sag` | quadratic formula, sheet condition |
| C08 | `surface_sag`, `surface_normal` with Horner loops over lists | induction over the list; `HasDerivAt` |
| C09 | `Element.clip`, per-surface step and `System.propagate` | invariant by induction over elements |
| C10-C12, C58 | `TransformMixin.update`, `_do_rotate`, `rotation_matrix`, `euler_matrix` | orthogonality by trigonometric identities; state machine of setters |
| C13 | `System.propagate*` as folds with outputs | induction over list append |
| C14 | `propagate` path output | norm of scaled unit vector |
| C15-C16 | whole trace step | equivariance of intercept/normal/refract, induction |
| C17-C18, C20-C21, C23 | `paraxial_matrix` of elements and systems as 4x4 matrices | matrix algebra, induction |
| C19 | exact ray map of a surface (also tilted) and of systems along the axis | derivatives along curves of rays; the intersection enters through `NearHit`, proved for conics and for the Newton search on aspheres (`Props/LimitNewton.lean`) |
| C22, C24-C26, C29 | `System` list methods | induction over lists |
| C27, C28, C76 | the system as a tree of attributes and items; `get_path`, `set_path`, `pickup`, `validate`, `solve` | path algebra, induction over writes |
| C30-C31 | `solve_brentq`, `find_start` loops with fuel; scipy's root finders are parameters | loop invariants |
| C75 | `aim_chief`, `aim_marginal`, `_aim_pupil` for any launch function | C30, C31 and the prefix of the trace up to the stop |
| C32-C33 | `CacheND`, `PolarCacheND` | state machine, induction over query histories |
| C34-C39 | `utils`, `conjugates`, `pupils` | real algebra |
| C40-C42 | `ParaxialTrace` | linear algebra of the 2x2 meridional block |
| C43 | `propagate_gaussian` | Möbius action of block matrices over ℂ |
| C44-C47, C59 | `simplex*` | combinatorics, induction |
| C48-C49 | `GeometricTrace.refocus`, `rms` | least squares |
| C77, C78 | `GeometricTrace.opd`, `resize` | intersection of the image ray with the reference sphere; induction over surfaces |
| C79 | `GeometricTrace.psf`; `fft2` by its definition | orthogonality of roots of unity (Parseval), triangle inequality |
| C50 | `angle_sum`, `polar_sum`; `np.bincount` by its definition, `arctan2` as `Complex.arg` | finite sums, floor |
| C51-C52 | `material` | real algebra, induction over coefficient lists |
| C53 | `NameMixin.register`, `make` with an association list for `_types` | induction over registrations |
| C73 | `Material.make`, `AbbeMaterial.from_string`; `float` and the library are parameters | splitting of joined names |
| C80 | `dict` and the constructors of pupils, conjugates, elements and systems; keys are an enumeration with a case for other names | look-up in concatenated dictionaries |
| C54 | `zmf_read`, `zmf_obfuscate`; decoding of doubles and the text of the exponent are parameters, `uint8` wraps as in numpy 1 | digits of a rounded number, induction over records |
| C60 | `zmx_to_system`, `olc_to_system`, `len_to_system`, `system_from_array`, `system_from_text` on texts; `float`, `int`, `Material.make` are parameters; distances are the arguments of the constructors | state machines over lines, last value of a list |
| C81 | `agf_read`, `agf_to_material`, `glc_read`, `glc_to_material`, `codevxml_read`, `codevxml_to_material`, `rii_to_material`; `float` and `int` are parameters, lines end with a line feed, XML and YAML are given as trees | state machines over lines, last value of a list |
| C55 | `Library.load`, `load_all`, `get`, `get_all`, `Catalog.parse`, `LoaderParser.parse`; database and session are two lists of catalogues, what a reader finds in a file is a parameter, rows come in the order of ids | state machine, induction over histories |
| C56 | `Variable`, `Operand`, the functions and the memoised evaluation of `optimize`; `scipy.optimize.minimize` is any sequence of evaluations | induction over evaluations |
| C57 | quaternion functions, `euler_matrix`, `euler_from_matrix`; `eigh` by its contract, `atan2` as `Complex.arg` | ring identities modulo orthogonality; Euler angles by composing elementary rotations |
| C61-C63 | Gaussian beams between elements, `GaussianTrace.eigenmodes`, `stable`, `refocus` of beams | Möbius action over ℂ; many passes through a resonator: a quadratic form no pass changes, a beam as two real rays |
| C82 | `GaussianTrace.angle`, `normal`, `spot_radius_at`, `curvature_radius_at`, `diverging`, `make_qi`, `resize`, `eigenvalues` | the field of a beam `exp(-i k/2 x^T Q x)` is the specification; axes of a symmetric real matrix |
| C83 | `PolyTrace.propagate` against `GeometricTrace.propagate` | Taylor relation between functions of the aperture and classes of truncated polynomials, closed under roots of quadratics with simple root; one surface, then induction; the intersection enters through `Fitted`, proved for spheres, planes and the Newton search up to order three (`Props/PolyNewton.lean`) |
| C84 | resolution figures of `ParaxialTrace`, `System.rescale` on the paraxial trace | trigonometry; conjugation of the system matrix with the change of unit |
| C85 | `update_stop` after `update_conjugates` | the marginal ray that `aim` starts reaches the edge of the stop |
| C86 | `resize_convex`, `surface_cut`, `surfaces_cut` | loop invariant over indices; induction over the elements for the generator |
| C87 | the transfer function and encircled energy of `Analysis.opds`; plotting left out | orthogonality of roots of unity; binned sums of C50 |
| C88 | the `rays_*` methods of `GeometricTrace`; `System.pupil` is an argument | reduction to the aiming of C37, C38 and the trace of C13 |
| C89 | the numbers drawn by `Analysis.transverse`, `spots`, `longitudinal`, ray by ray; not the drawing | lines and planes, slopes |
| C90 | `PolyTrace.seidel`, the names of `PolyTrace.buchdahl` | C83 and C67 describe the same rays, uniqueness of third-order terms; Buchdahl's expansion in polar coordinates |
| C91 | `GaussianTrace.rays` and the beam along a system, `diverging`, `confined`, `is_stigmatic` | the two real rays of Arnaud's complex ray per axis, propagated with the matrices of C17; matrices of unrolled surfaces keep the axes apart |
| C92 | `Trace.from_axis`, the points drawn by the `plot` methods | pieces between sorted indices; `from_axis` maps the z axis to the direction (C11); sign of mirrors (C29); C14 for rays |
| C93 | families of rays through `System.propagate`, `opd` | a row is a curve in V3; each step: segment = n (i . (q - y)), change of direction is normal to the surface (c08), surface point moves in the tangent plane; normal field symmetric for the invariant; conic intercept and refraction differentiable where the roots are positive; sphere of C77 for the aberration |
| C94 | `translation_matrix` .. `is_same_transform` (transformations.py 205-884, 1796-1872) | a 4x4 matrix is its blocks `H4`; the unit vector of a normal is replaced by `n` with `n.n = 1` and `normal = l n`, then polynomial identities; clip: one coordinate at a time; cell: Gram determinant = triple product squared |
| C95 | `Arcball` (transformations.py 1504-1655) | invariant over all sequences of operations (unit quaternions, axes of length one, the pressed point on the great circle of the axis); a stroke is multiplication by the quotient of two unit vectors as quaternions, so strokes along a path telescope; `next` by the closed form of the interpolation |
| C96 | `decompose_matrix`, `compose_matrix` (transformations.py 722-857) | Gram-Schmidt of the columns: existence and uniqueness of the factors scale, shear, frame; the angles by the two cases of the pitch; both compositions of the two functions |
| C97 | `affine_matrix_from_points`, `superimposition_matrix` (transformations.py 887-1044), three dimensions | numpy's `svd`, `eigh` and `pinv` enter by contract; the misfit in terms of the covariance; Kabsch by the trace of orthogonal matrices, Horn by the quadratic form of the quaternion; exact targets from minimality; the affine branch by the graph spanned by the singular vectors |
| C98 | `reflection_from_matrix`, `rotation_from_matrix`, `scale_from_matrix`, `projection_from_matrix`, `shear_from_matrix` (transformations.py 271-297, 344-381, 418-456, 520-591, 677-719) | `numpy.linalg.eig` enters by contract, in any order and with any choice of vectors; every matrix but the rotation satisfies a quadratic equation with real roots, which gives its eigenvalues; the rotation is split along its axis |
| C99 | `dict` and the constructors of the four material classes, `Thermal.dict` (material.py 54-87, 123-135, 160-227, 324-328) | look-up in an appended dictionary: the part of the base class and the own part do not share keys |
| C100 | `Library.one`, `Library.__init__`, `Library.find_db` (library.py 50-80) | cases on what exists; induction on the sequence of openings |
| C101 | `Analysis.__init__`, `Analysis.run` (analysis.py 40-143), which cells the loops of `transverse`, `spots`, `opds` fill; adjustments of the system and texts as parameters | look-up in lists of options, `List.zip` |
| C102 | `Trace.print_coeffs`, `print_trace` of the paraxial, geometric and Gaussian trace, `print_transverse3`, `System.base_text`, `Pupil.text`, `Conjugate.text`, `System.aperture`, `NameMixin.typeletter`; values without their rounding | induction on rows, look-up of labels |
| C103 | `System.propagate` for centred systems; families of rays of C93 | moment about the axis: straight lines keep it, the change of `n u` is along a normal that meets the axis; etendue: determinant of four displacements = Pfaffian of the invariants of pairs (c93_symplectic); sine condition: one family from a sharp image, the other shifts the object point |
| C104 | families of rays of C93 around a ray in the plane `x = 0` of a centred system; `Figures.sagittal`, `Figures.tangential` | the law of refraction is differentiated (`Bundle.bend`); the change of the normal is expressed by the two curvatures (`curvature_profile`, from C08's gradient along the section); components along `x` and across the ray in the plane give the two equations; limits of difference quotients for the plots |
| C105 | `gl_roots`, `gr_roots`, `pupil_distribution` for `radau` and `lobatto`; Legendre polynomials by Bonnet's recursion (characterised by `c105_legendre`), `roots` of `np.poly1d` by the contract `RootsOk` | differential equation and orthogonality; a factor of an orthogonal polynomial without change of sign is constant, so its roots are real, simple and inside; weights from one test polynomial; sums of cosines over equally spaced angles telescope |
| C106 | matrix functions of `_transformations.c` (1015-2417), `axis2tuple`; `TransformMixin.update`, `align` with them | entry by entry against the models of the Python functions; finite table of names, digits of a number to base 256 |
| C107 | quaternion functions of `_transformations.c` (102-140, 621-719, 2425-3129) | entry by entry; the precise conversion by cases on the largest component |
| C110 | `_import_module` (transformations.py 1875-1905), trackball and norm functions of `_transformations.c` (3239-3655) | fold over the attributes; lists of numbers |
| C108 | `invert_matrix22`, `33`, `44`, `invert_matrix`, `inverse_matrix` (`_transformations.c` 386-615, 3131-3230) | cofactors; invariant of the elimination, both substitutions, null vector for a zero column |
| C109 | `tridiagonalize_symmetric_44`, `max_eigenvalue_of_tridiag_44`, `eigenvector_of_symmetric_44`, `quaternion_from_matrix` (`_transformations.c` 142-387, 2575-2699) | orthogonal matrix from two reflections; signs of pivots against the quadratic form; adjugate columns |
| C111 | `superimposition_matrix` (`_transformations.c` 1724-2033) | quaternion form of the misfit, slack of the eigenvector; explicit point sets for the refusals |
| C112 | `System.reverse` against `System.propagate` (`system.py` 249-261, 459-464), `System.aperture` | induction over the surfaces with the last point as the start of the way back; the returned root is the one crossed along the normal; for tilted surfaces the same in the coordinates of each surface, with the inversion of space for the mirror image |
| C113 | `System.update` as a sequence (`system.py` 201-211) with `update_conjugates` for any integer stop and `ParaxialTrace.update`; several solves for C76 (`system.py` 152-191) | state with trace and cache, pickups and solves arbitrary; C42 carried through the sequence; three planes for the violations |
| C114 | Newton search for aspheric surfaces (`elements.py` 333-349) with scipy's documented `newton` as a recursion (`Model/Raphson.lean`) | derivative from C08; mean value inequality for the tangent remainder; quadratic convergence by induction on the remaining steps |
| C115 | `PolyTrace.__init__`, `propagate` with its arrays, `st`, `print_names`, `print_trace` (`Model/PolyPrint.lean`) | induction over the elements; the first ten exponents of the table; blocks of equal length |
| C116 | `vector_norm` and `unit_vector` along an axis in `_transformations.c`, with pointers and strides in a memory (`Model/CompiledAxis.lean`); numpy's iterators by their order of indices; both functions of `transformations.py` on arrays as a shape and its entries (`Model/PyAxis.lean`) | induction over the axes and along a line; frame argument over the lines |
| C117 | `System.propagate`, `propagate_paraxial`, `propagate_gaussian` of lists with one more element | intersection counted from another point of the ray; transfers add; induction over the scan |
| C118 | `Interface.propagate` at a conic, in its own coordinates | the distance from a focus is linear along the axis; the direction found obeys Snell's law, which has one solution; for concentric spheres the invariant of the loop is the line through the centre |
| C119 | `System.propagate` and `propagate_paraxial` of lists of planes | invariant of the loop: index times direction changes along the normal only; transfers add |
| C120 | `System.propagate` of lists of plane mirrors | invariant of the loop: one reflection per mirror; three orthogonal normals are a basis |
| C121 | `utils.normalize_z` | direct; uniqueness of the forward unit vector |
| C64 | pupil quadrature (`pupil_distribution`, `interval_to_circle`) | finite sums |
| C65 | whole geometric trace | law of reflection / refraction at each row, induction |
| C66 | `focal_length_solve`, `_focal_length_solve`, `resize` | prefix invariance of the trace |
| C67 | `ParaxialTrace.aberrations`, `transverse3`, `aberration`, `dispersion`; surfaces with an elliptic, hyperbolic or aspheric figure (paraboloids excluded) in systems on one axis, possibly folded by mirrors | real rays expanded to third order in a curve parameter; each surface adds its coefficient to the Wronskian of the ray with the marginal ray; the intersection enters through `CloseHit`, proved for conics and the Newton search |
| C68 | `TransformMixin.incidence`, `excidence`, `align`, `System.align` | `excidence` is the refraction of the axis at the vertex; after `align` the refracted (or reflected) axis leaves along the wanted direction; after `System.align` the ray along the axis passes every vertex in the stated directions; elements are turned, not moved. Guards: the wanted direction can be attained, no comparison with a tolerance takes a small turn for none (`Sharp`), surfaces are met at the vertex (`MeetsVertex`; a Newton iteration started at a root stays there) |
| C69 | `transfer_poly`, `intercept_poly`, `propagate_poly` over truncated polynomials | quotient ring modulo terms of the truncation order; the roots are unique there |
| C70 | `PolyTrace.rays`, `propagate` | induction over the surfaces; coefficients along a line for the paraxial part |
| C72 | `Thermal`, the thermal part of `agf_to_material` | real algebra |
| C74 | `clru_cache` on methods of mutable objects | list state machine, position of a key in the cache |
| C71 | `PolyTrace.telecentric`, `transform`, `evaluate`, `st` | C59 and real algebra |

When the code violates a property the violation is proved with a concrete
witness, the guard under which the property holds is part of the statement in
`properties.jsonl`, and both theorems are listed for the claim.  A claim is
`partial` when part of the statement is neither proved nor refuted.

## Violations found in the code (each one a theorem)

| theorem | what goes wrong |
|---------|-----------------|
| `c02_backward_violation` | a ray travelling against the surface normal is bent to the wrong side |
| `c07_paraboloid_axial_missed` | an axial ray on a paraboloid gives 0/0 and is reported as missing the surface |
| `c12_negative_distance_not_readback` | a negative distance flips the direction and reads back positive |
| `c18_roll_det` | a surface rolled by phi has determinant cos(2 phi)^4: `r1` of the code is not a rotation |
| `c19_violated_immersed_mirror` | the paraxial matrix of a curved mirror in a medium lacks the factor of the index |
| `c20_start_zero` | `paraxial_matrices(start=0)` starts with the index behind the last element |
| `c21_violation` | behind an immersed mirror the paraxial trace has the mirror's nominal index |
| `c23_dummy_violation` | `reverse` of a system with material-less surfaces moves the materials to wrong surfaces |
| `c28_fix_unsatisfiable`, `c28_fix_function` | `validate(fix=True)` returns normally with constraints still violated |
| `c34_backward_violation` | sines to tangents and back flips transverse components of backward rays |
| `c34_three_columns_violation` | `sinarctan` of three-column arrays raises IndexError |
| `c35_zero_violation` | sagittal/meridional vectors are not orthogonal to the direction for a zero reference |
| `c36_meridional_violation`, `c36_cross_violation` | the reference ray of these distributions is not the pupil centre |
| `c36_triangular_violation` | the rows of the triangular grid are shifted by 2/m instead of half their spacing 1/(m-1): the grid is not regular |
| `c37_virtual_violation`, `c37_plane_violation` | pupil coordinates wrong for virtual pupils and off-axis objects |
| `c38_equidistant_violation`, `c38_orthographic_violation` | projection not normalised / always failing |
| `c30_last_iteration`, `c30_cycle` | a bracket found in the last iteration is rejected; the search can alternate between two points for ever |
| `c75_marginal_explicit`, `c75_violated_stop` | an explicit stop index: the marginal ray is aimed at the element before it |
| `c32_clear`, `c32_kwargs` | clearing the aiming cache keeps its interpolator; later keyword arguments are ignored |
| `c33_azimuth` | the aiming guess ignores the azimuth of the field point |
| `c40_immersed_violation` | focal distances carry a wrong index factor between different media |
| `c41_virtual_violation` | refocus at a virtual focus doubles the marginal height |
| `c42_wideangle_violation` | wide-angle objects start the chief ray at the wrong height |
| `c44_wraps` | with more than 65536 coefficients two monomials share one `uint16` position |
| `c45_other_dimensions` | the product table has room only for three variables; building it fails for other numbers |
| `c46_constant_term` | powers of a polynomial are wrong unless its constant term is one |
| `c47_order_one` | order-one polynomials fail to evaluate |
| `c48_weighted_violation`, `c48_turned_violation` | `refocus` centres weighted rays with the unweighted mean; a plane turned by its angles is moved the wrong way |
| `c50_radial_large_violation`, `c50_radial_partial_violation`, `c50_radial_direction_violation` | radial sums: empty for bins above 2 pi, partial last bin merged into the first, azimuth sense reversed |
| `c51_other_lines` | `vd` of an Abbe material defined at other lines is not its `v` |
| `c52_rii_6`, `c52_rii_8` | two refractiveindex.info formulas are evaluated wrongly |
| `c52_agf` | Zemax formula 9 has one added, 4, 10, 11 are missing, 0 is the last |
| `c53_inherited_violation` | a subclass of a registered class inherits its type and cannot be registered |
| `c53_twice_violation` | `make` removes the type from the caller's dictionary: a second use gives another class or TypeError |
| `c55_same_size_violation` | a catalogue file rewritten with the same length is not refreshed |
| `c55_oslo_violation` | OSLO catalogues are added again by every load |
| `c55_shelves_violation` | reloading the index of refractiveindex.info removes one record and adds all shelves again |
| `c56_equality_violation` | an operand with equal non-zero bounds makes every point infeasible: the equality drops the value of the bound |
| `c56_negative_scale_violation` | a negative scale of a variable exchanges its bounds |
| `c56_stale_violation` | after an evaluation answered by the cache the system is still at another point |
| `c57_matrix_small_violation` | short quaternions give the identity matrix |
| `c57_precise_raise_violation`, `c57_precise_junk_violation` | `quaternion_from_matrix(isprecise=True)` of half turns raises or returns uninitialised memory |
| `c57_euler_near_violation` | close to a gimbal lock `euler_from_matrix` drops an angle |
| `c57_slerp_spin_violation` | spherical interpolation with odd spin leaves the unit sphere |
| `c59_wraps` | multinomial coefficients overflow above order 13 |
| `c60_zmx_extra_violation`, `c60_zmx_stop_violation`, `c60_zmx_glass_violation` | Zemax files: one element too many, the stop is not taken over, glasses that are not in the library become air although index and Abbe number are given |
| `c60_olc_unbound_violation`, `c60_olc_stop_violation` | OSLO catalogue lenses: a surface without thickness before it and the command `AST` raise |
| `c60_len_far_violation`, `c60_len_plane_violation` | OSLO files: distances above 100 become infinite, a radius zero raises |
| `c60_array_radius_violation` | tables without diameters give elements of radius zero |
| `c61_at_element_violation` | `qin_at` at an element returns the beam before it |
| `c63_negative_violation` | beam refocus to a waist before the previous element loses the sign |
| `c69_zero_distance` | two curved surfaces at the same vertex: the polynomial intercept ignores the current height |
| `c69_conic` | the polynomial intercept ignores the conic constant |
| `c83_path_violation` | behind a mirror (negative offset) the path polynomial `o` decreases, the path lengths of the real trace increase |
| `c84_na_violation` | with two finite conjugates the numerical aperture in the image space can exceed the index |
| `c84_rayleigh` | the Rayleigh range of an immersed focus is too small by the index |
| `c84_points_violation` | the number of resolvable points depends on the unit of length |
| `c85_image_violation` | `update_stop(end="image")` divides by the index of the image space, and makes the radius negative |
| `c86_cement_violation`, `c86_stop_violation`, `c86_rim_violation` | `resize_convex` leaves a convex surface of a cemented group too small, enlarges a stop inside of glass, and can give a surface a radius where it does not exist |
| `c87_radius_violation` | the encircled energy is plotted one pixel too far inside |
| `c88_stale_violation` | a trace reused after elements were removed keeps rows of the old trace; after elements were added it raises |
| `c88_paraxial_violation` | `rays_paraxial` takes `n u` for the slope |
| `c88_filter_violation` | `rays` with filter: the reference index and the weights belong to the unfiltered rays |
| `c88_clipping_violation` | `rays_clipping` of a vignetted finite object misses the rims |
| `c89_curved_violation` | the pupil coordinate of the fan plots ignores the sag of a curved object |
| `c89_upright_violation` | the distortion of an ideal system with upright image is drawn as -2 |
| `c90_m9_violation` | `m9` of `PolyTrace.seidel` has the wrong sign |
| `c90_buchdahl_violation` | `PolyTrace.buchdahl` extends the list of names while reading it and never returns |
| `c91_stigmatic_violation` | `is_stigmatic` accepts matrices that mix the two axes |
| `c92_paraxial_violation` | `ParaxialTrace.plot` flips the height at a mirror (no `mirrored` sign as in the Gaussian trace) |
| `c92_beam_violation` | `GaussianTrace.plot` takes the sign of the last element for its first point |
| `c69_one_pass` | an asphere with few coefficients is not iterated to the truncation order |
| `c69_curved_asphere` | curvature and aspheric terms together give a wrong intercept |
| `c71_flag` | a telecentric flag with a smaller pupil slope makes one field point leave different object points |
| `c71_angle` | for infinite objects the angle is used where its tangent is meant |
| `c72_default_wavelength` | thermal change without a wavelength divides by zero |
| `c72_agf_swapped` | Zemax thermal data: reference temperature and wavelength swapped |
| `c74_stale`, `c74_abbe` | the memoised index is stale after assigning attributes |
| `c81_ld_violation`, `c81_ld_example`, `c81_od_violation` | Zemax glass data: wavelength limits, price and chemical data are read from single characters |
| `c81_codev_violation` | CODE V glasses: the material loses two characters of the name whatever the length of the identifier |
| `c67_transverse_violation` | `transverse3` has the wrong sign when the image is upside down |
| `c67_colour_violation` | an element without material in dispersive glass adds to the chromatic sums |
| `c67_one_coefficient_violation` | `aberration` raises for a list of one aspheric coefficient |
| `c68_mirror_violation` | `align(direction, -1)` sends the reflected axis opposite to `direction` (`excidence` and `get_n_mu` use -1 for mirrors) |
| `c68_object_violation` | an element that does not bend the axis, such as the object, is turned to contain the mean of both directions when the next direction differs |
| `c82_turned_violation`, `c82_resize_violation`, `c102_gaussian_violation` | `normal` rotates with the same matrix from both sides: its assertion fails for every beam whose axes are turned, so `resize`, `print_trace` and `spot_radius_at(normal=True)` raise |
| `c77_after_last_violation` | `opd(after=-1)` sums an empty slice |
| `c78_nan` | one ray missing a surface makes its radius NaN on `resize` |
| `c73_violation` | `Material.make` of a dictionary, a pair or an integer raises; the text of one number is not an index |
| `c80_pupil_nickname_violation`, `c80_element_nickname_violation` | dictionaries with a nickname cannot be read |
| `c80_update_violation`, `c80_fields_violation` | `update_radius` and the fields are not written |
| `c80_straight_violation`, `c80_element_assert_violation` | small directions are lost; too large radii are written but not read |
| `c80_material_violation` | index materials are written as `-` |
| `c94_shear_violation` | vectors orthogonal only within 1e-6 are accepted and can give a singular shear matrix |
| `c94_same_violation` | `is_same_transform` is false for a perspective clip matrix and itself (0/0) |
| `c95_next_violation` | the trackball's `next(acceleration)` passes `False` as `spin`, not as `shortestpath`: after a drag by more than a half turn it turns back |
| `c95_axes_violation` | `setaxes()` cannot take the axes away (a tuple of arguments is never `None`); the next press raises IndexError |
| `c95_away_violation` | with an axis away from the viewer, a press at the centre raises and a drag over the centre makes the orientation NaN |
| `c96_perspective_violation` | `decompose_matrix` drops a perspective below the rounding threshold although it moves far points by half their distance |
| `c97_scale_violation` | with scaling the sum of squared distances is not minimal, as the documentation says: the factor is the ratio of sizes, not the least-squares factor |
| `c97_affine_violation` | three points are accepted for the affine fit, but the result need not fit them |
| `c98_rotation_violation` | the rotation by 1.2e-4 about x comes back as the identity: the complex eigenvalues pass the test for one |
| `c98_scale_violation` | a uniform scaling by 1 + 2^-28 comes back as a scaling along some direction |
| `c98_shear_zero_violation` | the shear by the angle zero comes back with a direction that is not a number |
| `c98_shear_index_violation` | a shear accepted by `shear_matrix`, with its direction 5e-7 out of the plane, makes `shear_from_matrix` raise an IndexError |
| `c98_unit_distance_violation` | a perspective projection from the distance one is never returned as a perspective projection |
| `c98_origin_violation` | the eye of a perspective projection onto a plane through the origin is not a number |
| `c98_pseudo_violation` | a pseudo perspective projection comes back with another eye if the eigenvalue -1 is listed last |
| `c66_old_solve_violation` | `_focal_length_solve` gives a thin plano-convex lens 3/2 of the focal length asked for |
| `c32_base_violation` | the base class `CacheND` raises on every first query and answers the second |
| `c99_thermal_violation` | a material made from the dictionary of a material with thermal data holds a dictionary instead of them and cannot make its own dictionary |
| `c99_empty_violation` | an empty name of a material comes back as "-", an empty name of its catalogue as none |
| `c101_run_violation` | `Analysis(system, run=True)` raises: the option has the name of the method, which is then called as the value `True` |
| `c101_stale_violation` | `Analysis` prints the paraxial trace of the system before it is refocused |
| `c101_wavelength_violation` | wavelengths after the seventh are not drawn: there are seven colours |
| `c105_half_violation` | the points of the `radau` and `lobatto` distributions lie in one half of the disc: averages of functions odd in `x` are wrong |
| `c106_scaling_violation` | the compiled `scale_matrix` does not normalise its direction: asked to double lengths along (0, 0, 2) it multiplies by five |
| `c106_axes_violation`, `c106_axes_reversed_violation` | the compiled functions refuse names of axes in upper case and take `zyxs` for `sxyz` |
| `c107_matrix_violation` | the compiled `quaternion_matrix` overwrites the quaternion of the caller with the normalised one |
| `c107_short_violation` | the matrix of a quaternion of length 2^-26 is a half turn in C and the identity in Python |
| `c107_precise_violation`, `c107_precise_fatal` | the compiled `quaternion_from_matrix(isprecise=True)` can return a negative real part and ends the process for `M[3, 3] = 0` |
| `c107_slerp_violation` | the compiled `quaternion_slerp` takes fraction -1 for 1 |
| `c110_constrain_violation` | the compiled `arcball_constrain_to_axis` returns points behind the window |
| `c110_output_violation` | the compiled `vector_norm` accepts output arrays of any size and writes past their end |
| `c108_infinite_violation` | the compiled `inverse_matrix` does not test the last pivot: it returns infinities for the identity of five or more rows with the last one replaced by zero |
| `c108_small_violation` | it refuses 10^-4 times the identity of four rows and 10^-15 times that of five or more |
| `c108_memory_violation` | it overwrites the memory of an array-like argument of five or more rows that lends its array |
| `c109_eigenvalue_violation` | `max_eigenvalue_of_tridiag_44` replaces pivots between -eps and 0 by +eps, so that the next pivot has the wrong sign: the result is at most 1/3 for a matrix with the eigenvalue 1 |
| `c109_quaternion_violation` | therefore the compiled `quaternion_from_matrix` returns a turn the other way for a turn of slightly less than 90 degrees about the first axis |
| `c111_small_violation`, `c111_large_violation` | the compiled `superimposition_matrix` raises `ValueError` for all sets of a size below 1/100, and for points a thousand from the centroid to be turned by a right angle: its limits are not relative |
| `c111_collinear_violation`, `c111_coincident_violation` | it refuses points on a line, and sets one of which is a single point, which the Python function fits |
| `c111_nan` | it returns NaN for sets without points |
| `c22_stop_violation` | `System.reverse` does not mirror the stop number: the stop moves to another surface |
| `c22_bend_violation` | `System.reverse` moves the distances but not the directions: a bent system changes its length |
| `c117_roll_violation` | `Spheroid.paraxial_matrix` of a plane without material rolled by 45° moves a paraxial ray: `rot` times its transpose is not one |
| `c117_turned_violation` | `Spheroid.paraxial_matrix` takes the positive root for the cosine behind the surface: one that is turned over (tilt of 180°) acts as a lens between media of the same index |
| `c118_paraboloid_violation` | `Spheroid.intercept` divides by zero for every ray along the axis of a paraboloid: light from infinity is lost |
| `c121_backward_violation` | `normalize_z` turns a unit vector that runs backwards forward |
| `c112_mirror_violation` | `System.reverse` moves a mirror's material to the next surface: rays are not reflected on the way back |
| `c113_lag_violation` | pickups and solves run before the conjugates and the paraxial trace are brought up to date: one that reads them uses those of the update before, so that a second `update` gives another system |
| `c113_cache_violation` | the pupil cache is cleared before the solves: a solve that aims leaves the pupils of its trials in it |
| `c113_last_stop_violation` | with `stop = -1` `update_conjugates` takes the slice up to `stop + 1 = 0`, which is empty: the entrance pupil is at the first surface for every system |
| `c76_order_violation` | the solves run once, one after the other: a later one that moves what an earlier one adjusted leaves the earlier target missed |
| `c114_steps_violation` | five Newton steps are not enough for a ray that crosses a paraboloid at two points: it becomes NaN |
| `c114_start_violation` | with aspheric terms (even zero) the search starts on the plane `z = 0`; a ray that meets it outside of the domain of the conic is lost, though the closed form finds its intersection |
| `c114_alternate_violation` | `alternate_intersection` is ignored when there are aspheric terms |
| `c102_dict_violation` | two conjugates with the same dictionary print different texts: `update_radius` is printed but not saved |
| `c115_restart_violation` | `PolyTrace.propagate(start)` with `start > 1` overwrites the row before with the start state and begins again at the object |
| `c115_stale_violation` | after `PolyTrace.propagate` is called again for a finite object, `st()` and `evaluate` still use the last element as it was when the trace was made |
| `c115_twice_violation` | `print_names` gives the same name to two different fifth-order terms |
| `c116_overrun_violation`, `c116_larger_violation` | compiled `vector_norm(data, axis, out)` compares the shape of the data with itself instead of with that of `out`: too small an array is written behind its end, too large a one is accepted |
| `c116_empty_violation` | compiled `vector_norm` along an axis without entries returns uninitialised memory instead of zeros: numpy's iterator takes no step |
| `c116_vector_violation` | `transformations.unit_vector(v, axis, out)` raises for a vector: `atleast_1d` and `expand_dims` give its length two axes |
| `c116_ignored_violation` | `transformations.vector_norm(v, axis)` of a vector ignores an axis that does not exist; the compiled one raises |

Also visible from the code but not a theorem: `Simplex.transform` hands a one-dimensional array to a
two-dimensional parameter and always raises; `PolyTrace.rays` with `kmax=1`
raises IndexError.

## Not modelled

Every other function in `rayopt/` is cited by a definition of the model.

* Calls of matplotlib and everything that only sets up axes: `CenteredFormatter`,
  `Analysis.setup_axes`, `post_setup_axes`, `pre_setup_xyplot`, `System.plot`,
  `ParaxialTrace.plot_yybar` (the curves that are drawn are modelled).
* Text: the digits numbers are rounded to when printed,
  `ParaxialTrace.print_params`,
  `PolyTrace.print_params`, `print_seidel` (the quantities printed are modelled), `NameMixin.nickname`
  and `__str__`.
* The YAML and JSON libraries behind `system_from_yaml`, `system_to_yaml`,
  `system_from_json`, `system_to_json`; the dictionaries they write and read are
  modelled (C80).
* sqlalchemy, sqlite, the file system and the network: `set_sqlite_pragma`,
  `Library.db_get`, `Catalog.load`, `Tablename`, `codev.main`, and the self tests
  `_test`, `_test_nd` of the library.
* Constructors and updates that only call modelled functions in order
  (`Trace.__init__`, `Trace.propagate`, `Trace.align`, `ParaxialTrace.__init__`), accessors without content
  (`GaussianTrace.curvature_radius`, `spot_radius`, `real`, `System.edge_x`, `edge_y`,
  `DefaultGlass`), `utils.public`, `random_vector` and `vector_product` of
  `transformations.py` (a call of numpy each).
* `GaussianTrace.intensity_max` is a property with an argument and raises
  whenever it is read.
* `Conjugate.aim` is abstract.
* The branch of `GaussianTrace.angle` for complex matrices has no caller; it would raise, because numpy
  has no remainder of complex numbers.
* In `_transformations.c`: conversion of arguments to arrays, allocation, reference counts, `random_vector`,
  the module initialisation.
* Overflow of C integers in `simplex_accel` beyond what the `*_wraps` theorems
  state.
* Rounding of floating point numbers everywhere: all arithmetic is exact, NaN and
  infinity are `none`.
