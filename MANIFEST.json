{
 "claims": [
  {
   "property": "C01",
   "status": "proved",
   "theorems": [
    "RayOpt.c01_refract_unit",
    "RayOpt.c01_trace_unit"
   ],
   "note": "single refraction and whole traces"
  },
  {
   "property": "C02",
   "status": "proved",
   "theorems": [
    "RayOpt.c02_snell",
    "RayOpt.c02_snell_sine",
    "RayOpt.c02_coplanar",
    "RayOpt.c02_backward_violation"
   ],
   "note": "for forward rays (u0.r>0); c02_backward_violation shows that the code bends backward rays to the wrong side"
  },
  {
   "property": "C03",
   "status": "proved",
   "theorems": [
    "RayOpt.c03_reflect",
    "RayOpt.c03_reflect_involution"
   ],
   "note": ""
  },
  {
   "property": "C04",
   "status": "proved",
   "theorems": [
    "RayOpt.c04_tir"
   ],
   "note": ""
  },
  {
   "property": "C05",
   "status": "proved",
   "theorems": [
    "RayOpt.c05_reversible"
   ],
   "note": ""
  },
  {
   "property": "C06",
   "status": "proved",
   "theorems": [
    "RayOpt.c06_on_quadric",
    "RayOpt.c06_sag_zero_iff",
    "RayOpt.c06_on_surface",
    "RayOpt.c06_root_side",
    "RayOpt.c06_forward_incidence"
   ],
   "note": ""
  },
  {
   "property": "C07",
   "status": "proved",
   "theorems": [
    "RayOpt.c07_none_iff",
    "RayOpt.c07_roots",
    "RayOpt.c07_flat",
    "RayOpt.c07_paraboloid_axial_missed"
   ],
   "note": "c07_paraboloid_axial_missed: for a paraboloid the quadratic coefficient vanishes on axial rays and the code reports NaN although there is an intersection"
  },
  {
   "property": "C08",
   "status": "proved",
   "theorems": [
    "RayOpt.c08_gradient",
    "RayOpt.c08_defined",
    "RayOpt.c08_sag_value"
   ],
   "note": ""
  },
  {
   "property": "C09",
   "status": "proved",
   "theorems": [
    "RayOpt.c09_clip_iff",
    "RayOpt.c09_persistent"
   ],
   "note": ""
  },
  {
   "property": "C10",
   "status": "proved",
   "theorems": [
    "RayOpt.c10_inverse",
    "RayOpt.c10_dot",
    "RayOpt.c10_cross",
    "RayOpt.c10_normal_eq_axis",
    "RayOpt.c10_normal_angles"
   ],
   "note": ""
  },
  {
   "property": "C11",
   "status": "proved",
   "theorems": [
    "RayOpt.c11_axis_exact",
    "RayOpt.c11_axis"
   ],
   "note": "exact when the direction is not within allclose tolerance of +-z, otherwise within 3e-8"
  },
  {
   "property": "C12",
   "status": "proved",
   "theorems": [
    "RayOpt.c12_invariant",
    "RayOpt.c12_offset_readback",
    "RayOpt.c12_distance",
    "RayOpt.c12_direction",
    "RayOpt.c12_angles",
    "RayOpt.c12_negative_distance_not_readback"
   ],
   "note": ""
  },
  {
   "property": "C13",
   "status": "proved",
   "theorems": [
    "RayOpt.c13_paraxial_split",
    "RayOpt.c13_gaussian_split",
    "RayOpt.c13_paraxial_count",
    "RayOpt.c13_geometric_split",
    "RayOpt.c13_geometric_count",
    "RayOpt.c13_range"
   ],
   "note": ""
  },
  {
   "property": "C14",
   "status": "proved",
   "theorems": [
    "RayOpt.c14_path"
   ],
   "note": ""
  },
  {
   "property": "C15",
   "status": "proved",
   "theorems": [
    "RayOpt.c15_trace",
    "RayOpt.c15_geometry",
    "RayOpt.c15_restore"
   ],
   "note": "systems with aspherics need a root finder whose result scales (shown for Newton's method with a fixed number of steps; scipy's absolute tolerance is not modelled)"
  },
  {
   "property": "C16",
   "status": "proved",
   "theorems": [
    "RayOpt.c16_trace",
    "RayOpt.c16_rotation",
    "RayOpt.c16_meridional"
   ],
   "note": ""
  },
  {
   "property": "C17",
   "status": "proved",
   "theorems": [
    "RayOpt.c17_defined",
    "RayOpt.c17_action",
    "RayOpt.c17_split"
   ],
   "note": ""
  },
  {
   "property": "C18",
   "status": "proved",
   "theorems": [
    "RayOpt.c18_eigenray",
    "RayOpt.c18_eigen_pairs",
    "RayOpt.c18_symplectic",
    "RayOpt.c18_invariant",
    "RayOpt.c18_roll_det"
   ],
   "note": "c18_roll_det: a surface rolled about its own axis by phi has determinant cos(2 phi)^4, so the property fails exactly when sin(2 phi) is not zero"
  },
  {
   "property": "C19",
   "status": "proved",
   "theorems": [
    "RayOpt.c19_refract",
    "RayOpt.c19_mirror",
    "RayOpt.c19_dummy",
    "RayOpt.c19_newton",
    "RayOpt.c19_newton_element",
    "RayOpt.c19_system",
    "RayOpt.c19_violated_immersed_mirror",
    "RayOpt.c19_tilted",
    "RayOpt.c19_tilted_mirror"
   ],
   "note": "c19_refract, c19_mirror, c19_dummy (surface frames, any tilt in the y plane), c19_tilted, c19_tilted_mirror (with the code's rotations), c19_system (whole systems along the axis, folded by mirrors); the immersed mirror is c19_violated_immersed_mirror. Surfaces enter through NearHit, which c19_newton proves for conics and for every aspheric surface with the Newton search of the code (scipy's documented algorithm)"
  },
  {
   "property": "C20",
   "status": "proved",
   "theorems": [
    "RayOpt.c20_closest",
    "RayOpt.c20_prefix",
    "RayOpt.c20_paraxial",
    "RayOpt.c20_start_zero"
   ],
   "note": "c20_start_zero: a range starting at the object surface takes the index of the last element instead"
  },
  {
   "property": "C21",
   "status": "proved",
   "theorems": [
    "RayOpt.c21_system",
    "RayOpt.c21_geometric",
    "RayOpt.c21_agree",
    "RayOpt.c21_violation"
   ],
   "note": "c21_geometric, c21_agree, c21_system (iff); the code violates the unguarded property: c21_violation"
  },
  {
   "property": "C22",
   "status": "proved",
   "theorems": [
    "RayOpt.c22_conjugates",
    "RayOpt.c22_stop",
    "RayOpt.c22_stop_middle",
    "RayOpt.c22_stop_violation",
    "RayOpt.c22_places",
    "RayOpt.c22_bend_violation",
    "RayOpt.c22_reverse",
    "RayOpt.c22_involution"
   ],
   "note": "c22_stop, c22_stop_violation: the stop number is not mirrored with the elements, so the stop moves to another surface unless it is in the middle. c22_places, c22_bend_violation: the elements stand where they should if all follow along one direction; with a bend the directions stay behind and the length changes."
  },
  {
   "property": "C23",
   "status": "proved",
   "theorems": [
    "RayOpt.c23_matrix",
    "RayOpt.c23_backwards",
    "RayOpt.c23_dummy_violation"
   ],
   "note": "for systems whose surfaces all carry a refracting material; c23_dummy_violation shows that a surface with material=None loses refraction on reversal"
  },
  {
   "property": "C24",
   "status": "proved",
   "theorems": [
    "RayOpt.c24_groups",
    "RayOpt.c24_unique"
   ],
   "note": ""
  },
  {
   "property": "C25",
   "status": "proved",
   "theorems": [
    "RayOpt.c25_origins",
    "RayOpt.c25_path",
    "RayOpt.c25_straight",
    "RayOpt.c25_close",
    "RayOpt.c25_close_error"
   ],
   "note": ""
  },
  {
   "property": "C26",
   "status": "proved",
   "theorems": [
    "RayOpt.c26_edge",
    "RayOpt.c26_first"
   ],
   "note": ""
  },
  {
   "property": "C27",
   "status": "proved",
   "theorems": [
    "RayOpt.Paths.c27_value",
    "RayOpt.Paths.c27_plain",
    "RayOpt.Paths.c27_frame",
    "RayOpt.Paths.c27_twice",
    "RayOpt.Paths.c27_self_source",
    "RayOpt.Paths.c27_negative_index"
   ],
   "note": "values and paths are a tree of attributes and items; the effect of several pickups, frame and idempotence; witnesses that the guard is needed and that negative indices alias"
  },
  {
   "property": "C28",
   "status": "proved",
   "theorems": [
    "RayOpt.Paths.c28_validate",
    "RayOpt.Paths.c28_unchanged",
    "RayOpt.Paths.c28_fix",
    "RayOpt.Paths.c28_fix_unsatisfiable",
    "RayOpt.Paths.c28_fix_function"
   ],
   "note": "check, unchanged state and fixing for satisfiable separate constraints; violations: exclusive bounds and constraints on functions of the value are not fixed although validate returns"
  },
  {
   "property": "C29",
   "status": "proved",
   "theorems": [
    "RayOpt.c29_parity",
    "RayOpt.c29_step"
   ],
   "note": ""
  },
  {
   "property": "C30",
   "status": "proved",
   "theorems": [
    "RayOpt.c30_outcome",
    "RayOpt.c30_root",
    "RayOpt.c30_positive",
    "RayOpt.c30_ideal",
    "RayOpt.c30_last_iteration",
    "RayOpt.c30_cycle"
   ],
   "note": "Acceptance, bracket signs, root inside the bracket for continuous merit, parameters stay positive, success for the ideal quadratic merit within the iteration limit; c30_last_iteration and c30_cycle show valid brackets that are missed. scipy's brentq is external."
  },
  {
   "property": "C31",
   "status": "proved",
   "theorems": [
    "RayOpt.c31_outcome",
    "RayOpt.c31_nearest"
   ],
   "note": "All three outcomes and the order of the probes. scipy's newton is external."
  },
  {
   "property": "C32",
   "status": "proved",
   "theorems": [
    "RayOpt.Cache.c32_once",
    "RayOpt.Cache.c32_clear",
    "RayOpt.Cache.c32_kwargs",
    "RayOpt.Cache.c32_keys",
    "RayOpt.Cache.Any.c32_any_once",
    "RayOpt.Cache.Any.c32_base_violation",
    "RayOpt.Cache.Any.c32_nearest",
    "RayOpt.Cache.Any.c32_linear"
   ],
   "note": "c32_once covers every query sequence and every solver, including one that raises. c32_clear proves that clear keeps the interpolator, so the first query after clear does get a guess, and that the guess argument is ignored; c32_kwargs that later keyword arguments of System.pupil are ignored. c32_any_once, c32_nearest and c32_linear are for NearestCacheND and LinearCacheND (and any other subclass) with scipy's interpolators by contract; c32_base_violation is the base class."
  },
  {
   "property": "C33",
   "status": "proved",
   "theorems": [
    "RayOpt.Cache.c33_exact",
    "RayOpt.Cache.c33_segment",
    "RayOpt.Cache.c33_affine",
    "RayOpt.Cache.c33_azimuth",
    "RayOpt.Cache.c33_available"
   ],
   "note": "c33_exact, c33_segment and c33_affine hold for every stored set; c33_available: after the first success every query has a guess. c33_azimuth: the azimuth plays no role, no rotation normalisation happens."
  },
  {
   "property": "C34",
   "status": "proved",
   "theorems": [
    "RayOpt.c34_meaning",
    "RayOpt.c34_inverse",
    "RayOpt.c34_inverse_rows",
    "RayOpt.c34_unit",
    "RayOpt.c34_forward",
    "RayOpt.c34_backward_violation",
    "RayOpt.c34_three_columns_violation"
   ],
   "note": "scalars, rows and direction vectors; c34_backward_violation: for backward directions slopes and back flips the transverse part; c34_three_columns_violation: three-column input of sinarctan always raises IndexError"
  },
  {
   "property": "C35",
   "status": "proved",
   "theorems": [
    "RayOpt.c35_frame",
    "RayOpt.c35_zero_violation"
   ],
   "note": "the reference is along the axis as in every caller; c35_zero_violation for a zero reference"
  },
  {
   "property": "C36",
   "status": "proved",
   "theorems": [
    "RayOpt.Sampling.c36_disc",
    "RayOpt.Sampling.c36_reference",
    "RayOpt.Sampling.c36_meridional_violation",
    "RayOpt.Sampling.c36_cross_violation",
    "RayOpt.Sampling.c36_hexapolar",
    "RayOpt.Sampling.c36_points",
    "RayOpt.Sampling.c36_count",
    "RayOpt.Sampling.c36_triangular_violation"
   ],
   "note": "random numbers and quadrature nodes are parameters in their documented ranges; c36_meridional_violation and c36_cross_violation prove the wrong reference rays, c36_triangular_violation the irregular triangular grid"
  },
  {
   "property": "C37",
   "status": "proved",
   "theorems": [
    "RayOpt.Finite.c37_object",
    "RayOpt.Finite.c37_chief",
    "RayOpt.Finite.c37_aim",
    "RayOpt.Finite.c37_defined",
    "RayOpt.Finite.c37_edge",
    "RayOpt.Finite.c37_disc",
    "RayOpt.Finite.c37_angle",
    "RayOpt.Finite.c37_virtual_violation",
    "RayOpt.Finite.c37_plane_violation",
    "RayOpt.Finite.c37_axis"
   ],
   "note": "guarded form; c37_plane_violation and c37_virtual_violation prove where the code departs from the pupil plane and from the pupil circle"
  },
  {
   "property": "C38",
   "status": "proved",
   "theorems": [
    "RayOpt.Infinite.c38_unit",
    "RayOpt.Infinite.c38_projection",
    "RayOpt.Infinite.c38_angle",
    "RayOpt.Infinite.c38_aim",
    "RayOpt.Infinite.c38_equidistant_violation",
    "RayOpt.Infinite.c38_orthographic_violation"
   ],
   "note": "c38_equidistant_violation, c38_orthographic_violation"
  },
  {
   "property": "C39",
   "status": "proved",
   "theorems": [
    "RayOpt.Pupil.c39_radius",
    "RayOpt.Pupil.c39_settable",
    "RayOpt.Pupil.c39_consistent",
    "RayOpt.Pupil.c39_update",
    "RayOpt.Pupil.c39_update_off",
    "RayOpt.Pupil.c39_rescale"
   ],
   "note": ""
  },
  {
   "property": "C40",
   "status": "proved",
   "theorems": [
    "RayOpt.c40_focal_points",
    "RayOpt.c40_focal_length",
    "RayOpt.c40_focal_length_media",
    "RayOpt.c40_focal_points_media",
    "RayOpt.c40_principal",
    "RayOpt.c40_nodal",
    "RayOpt.c40_rays_exist",
    "RayOpt.c40_magnification",
    "RayOpt.c40_pupils",
    "RayOpt.c40_pupil_height",
    "RayOpt.c40_immersed_violation"
   ],
   "note": "Air (equal unit indices) for focal points and nodal points, equal media for the focal length; c40_focal_points_media and c40_focal_length_media state exactly what the code returns otherwise, c40_immersed_violation is the witness that it is not the focal distance."
  },
  {
   "property": "C41",
   "status": "proved",
   "theorems": [
    "RayOpt.c41_refocus",
    "RayOpt.c41_virtual_violation"
   ],
   "note": "Guarded by a real focus; c41_virtual_violation: for a diverging last segment the stored distance becomes positive and the marginal height doubles instead of vanishing."
  },
  {
   "property": "C42",
   "status": "proved",
   "theorems": [
    "RayOpt.c42_entrance",
    "RayOpt.c42_exit",
    "RayOpt.c42_field",
    "RayOpt.c42_stop",
    "RayOpt.c42_wideangle_violation"
   ],
   "note": "c42_stop closes the loop: with updated pupils the marginal ray meets the stop edge and the chief ray its centre; c42_wideangle_violation for wide-angle objects."
  },
  {
   "property": "C43",
   "status": "proved",
   "theorems": [
    "RayOpt.c43_compose",
    "RayOpt.c43_physical",
    "RayOpt.c43_physical_system",
    "RayOpt.c43_make",
    "RayOpt.c43_spot"
   ],
   "note": ""
  },
  {
   "property": "C44",
   "status": "proved",
   "theorems": [
    "RayOpt.Simplex.c44_enumeration",
    "RayOpt.Simplex.c44_order",
    "RayOpt.Simplex.c44_inverse",
    "RayOpt.Simplex.c44_wraps",
    "RayOpt.Simplex.c44_empty"
   ],
   "note": "Enumeration, order and inverse tables for all d, n. Guard: the number of coefficients fits uint16 (d=3: n<=72); c44_wraps proves the tables collide beyond it, c44_empty that order 0 fails."
  },
  {
   "property": "C45",
   "status": "proved",
   "theorems": [
    "RayOpt.Simplex.c45_product",
    "RayOpt.Simplex.c45_three_variables",
    "RayOpt.Simplex.c45_ring",
    "RayOpt.Simplex.c45_other_dimensions"
   ],
   "note": "Product equals the MvPolynomial product coefficient by coefficient and as an explicit convolution sum; ring laws. Guard: the tables can be built, proved for d=3 and every order fitting uint16; c45_other_dimensions proves that building fails for d=1,2,4 at small orders."
  },
  {
   "property": "C46",
   "status": "proved",
   "theorems": [
    "RayOpt.Simplex.c46_series",
    "RayOpt.Simplex.c46_add",
    "RayOpt.Simplex.c46_natural",
    "RayOpt.Simplex.c46_constant_term",
    "RayOpt.Simplex.c46_repaired"
   ],
   "note": "c46_series gives the computed series for every a; the claim holds for a0=1 (c46_natural, c46_add for real exponents). c46_constant_term proves it fails whenever a0 differs from 1 and a non-constant coefficient is not 0; c46_repaired gives the scaled version that is right."
  },
  {
   "property": "C47",
   "status": "proved",
   "theorems": [
    "RayOpt.Simplex.c47_eval",
    "RayOpt.Simplex.c47_linear",
    "RayOpt.Simplex.c47_product",
    "RayOpt.Simplex.c47_order_one"
   ],
   "note": "For all d, n>=2, points and coefficients (uint16 guard); c47_order_one proves that order 1 writes outside the power table."
  },
  {
   "property": "C48",
   "status": "proved",
   "theorems": [
    "RayOpt.Spot.c48_min",
    "RayOpt.Spot.c48_collimated",
    "RayOpt.Spot.c48_weighted_violation",
    "RayOpt.Spot.c48_missing",
    "RayOpt.Spot.c48_refocus",
    "RayOpt.Spot.c48_turned_violation"
   ],
   "note": "GeometricTrace.refocus as written (finite rays only, unweighted means, weights in the sums). For non-negative weights the shift is the strict minimum of the rms the class computes (c48_min); end to end for traces in a system whose last surface is flat and across the axis (c48_refocus); bundles with equal slopes give a NaN distance (c48_collimated). Violations: c48_weighted_violation (the spot about its weighted centroid is not minimal), c48_turned_violation (an image plane turned by its angles is moved the wrong way)."
  },
  {
   "property": "C49",
   "status": "proved",
   "theorems": [
    "RayOpt.Spot.c49_nonneg",
    "RayOpt.Spot.c49_value",
    "RayOpt.Spot.c49_translate",
    "RayOpt.Spot.c49_scale",
    "RayOpt.Spot.c49_zero",
    "RayOpt.Spot.c49_zero_weight"
   ],
   "note": "rms as written, any reference index, with and without weights. Zero iff all rays coincide needs positive weights (c49_zero); rays of weight zero are not seen (c49_zero_weight)."
  },
  {
   "property": "C50",
   "status": "proved",
   "theorems": [
    "RayOpt.Sums.c50_angle_total",
    "RayOpt.Sums.c50_azimuthal_total",
    "RayOpt.Sums.c50_azimuthal_bins",
    "RayOpt.Sums.c50_angle_bins",
    "RayOpt.Sums.c50_radial_total",
    "RayOpt.Sums.c50_radial_large_violation",
    "RayOpt.Sums.c50_radial_bins",
    "RayOpt.Sums.c50_radial_partial_violation",
    "RayOpt.Sums.c50_radial_direction_violation",
    "RayOpt.Sums.c50_angle_axes",
    "RayOpt.Sums.c50_angle_ends"
   ],
   "note": "angle_sum and both directions of polar_sum, arrays as functions with a shape, exact reals, np.bincount as its definition. Totals for all shapes, centres, aspect ratios and bin sizes (rays: up to the full circle); what each bin collects; documented special angles. Violations: c50_radial_large_violation (bin size above 2 pi loses the total), c50_radial_partial_violation (values other than at pi in the first bin), c50_radial_direction_violation (documented sense of azimuth is reversed)."
  },
  {
   "property": "C51",
   "status": "proved",
   "theorems": [
    "RayOpt.Glass.c51_definition",
    "RayOpt.Glass.c51_default",
    "RayOpt.Glass.c51_other_lines",
    "RayOpt.Glass.c51_normal"
   ],
   "note": "c51_definition at the material's own lines. c51_other_lines proves that the property vd, which always uses the F, d, C lines, differs from v for a material defined at other lines; c51_default: n=1 reports an infinite Abbe number."
  },
  {
   "property": "C52",
   "status": "proved",
   "theorems": [
    "RayOpt.Glass.c52_sellmeier",
    "RayOpt.Glass.c52_rii",
    "RayOpt.Glass.c52_rii_8",
    "RayOpt.Glass.c52_rii_6",
    "RayOpt.Glass.c52_series",
    "RayOpt.Glass.c52_equivalent",
    "RayOpt.Glass.c52_padding",
    "RayOpt.Glass.c52_agf",
    "RayOpt.Glass.c52_catalogues",
    "RayOpt.Glass.c52_air"
   ],
   "note": "Closed forms for lists of any length. c52_rii_6, c52_rii_8 and c52_agf prove the formulas that are evaluated differently from their source's documentation."
  },
  {
   "property": "C53",
   "status": "proved",
   "theorems": [
    "RayOpt.Serial.c53_kept",
    "RayOpt.Serial.c53_registered",
    "RayOpt.Serial.c53_only",
    "RayOpt.Serial.c53_conflict",
    "RayOpt.Serial.c53_type",
    "RayOpt.Serial.c53_inherited_violation",
    "RayOpt.Serial.c53_select",
    "RayOpt.Serial.c53_default",
    "RayOpt.Serial.c53_unknown",
    "RayOpt.Serial.c53_import",
    "RayOpt.Serial.c53_table",
    "RayOpt.Serial.c53_roundtrip",
    "RayOpt.Serial.c53_twice_violation"
   ],
   "note": "All registration histories over an abstract set of classes, plus the table of the package. The type inherited by a subclass and the dictionary consumed by make are violations."
  },
  {
   "property": "C54",
   "status": "proved",
   "theorems": [
    "RayOpt.Zmf.c54_digits",
    "RayOpt.Zmf.c54_key",
    "RayOpt.Zmf.c54_bytes",
    "RayOpt.Zmf.c54_involution",
    "RayOpt.Zmf.c54_injective",
    "RayOpt.Zmf.c54_versline",
    "RayOpt.Zmf.c54_read",
    "RayOpt.Zmf.c54_short",
    "RayOpt.Zmf.c54_version",
    "RayOpt.Zmf.c54_cut"
   ],
   "note": "Obfuscation never fails, works byte by byte with a key below 1000 that depends on position and parameters only, and is an involution for every length. Reading a catalogue gives back the entries written; other versions and texts cut off are refused. Reals instead of doubles; the decoding of doubles is a parameter."
  },
  {
   "property": "C55",
   "status": "proved",
   "theorems": [
    "RayOpt.Library.c55_parser_unique",
    "RayOpt.Library.c55_parser",
    "RayOpt.Library.c55_extensions",
    "RayOpt.Library.c55_clean",
    "RayOpt.Library.c55_failed",
    "RayOpt.Library.c55_success",
    "RayOpt.Library.c55_crash",
    "RayOpt.Library.c55_other_files",
    "RayOpt.Library.c55_one_catalogue",
    "RayOpt.Library.c55_reload",
    "RayOpt.Library.c55_refresh",
    "RayOpt.Library.c55_refresh_unchanged",
    "RayOpt.Library.c55_same_size_violation",
    "RayOpt.Library.c55_oslo_violation",
    "RayOpt.Library.c55_shelves_violation",
    "RayOpt.Library.c55_source",
    "RayOpt.Library.c55_load_all",
    "RayOpt.Library.c55_get_all",
    "RayOpt.Library.c55_get",
    "RayOpt.Library.c55_loaded_found",
    "RayOpt.Library.c55_parse_once"
   ],
   "note": "SQLAlchemy sessions as two copies of the list of catalogues; what a reader finds in a file is a parameter, what it records of the file is modelled. One catalogue for one file holds for Zemax and CODE V files; OSLO and refractiveindex.info: c55_oslo_violation, c55_shelves_violation."
  },
  {
   "property": "C56",
   "status": "proved",
   "theorems": [
    "RayOpt.Optimize.c56_feasible",
    "RayOpt.Optimize.c56_bounds",
    "RayOpt.Optimize.c56_equality_violation",
    "RayOpt.Optimize.c56_defined",
    "RayOpt.Optimize.c56_objective",
    "RayOpt.Optimize.c56_objective_zero",
    "RayOpt.Optimize.c56_variable_bounds",
    "RayOpt.Optimize.c56_negative_scale_violation",
    "RayOpt.Optimize.c56_scale",
    "RayOpt.Optimize.c56_reject",
    "RayOpt.Optimize.c56_accept",
    "RayOpt.Optimize.c56_values",
    "RayOpt.Optimize.c56_run",
    "RayOpt.Optimize.c56_stale_violation"
   ],
   "note": "For operands whose equal bounds are zero; c56_equality_violation: other equal bounds are never feasible. The optimiser itself is any sequence of evaluations. Positive scales; infinite bounds are absent bounds."
  },
  {
   "property": "C57",
   "status": "proved",
   "theorems": [
    "RayOpt.c57_axes_table",
    "RayOpt.c57_euler_axes",
    "RayOpt.c57_euler_quaternion",
    "RayOpt.c57_euler_agree",
    "RayOpt.c57_euler_inverse",
    "RayOpt.c57_euler_near_violation",
    "RayOpt.c57_assoc",
    "RayOpt.c57_unit",
    "RayOpt.c57_relations",
    "RayOpt.c57_norm_sq",
    "RayOpt.c57_norm",
    "RayOpt.c57_inverse",
    "RayOpt.c57_conj",
    "RayOpt.c57_sandwich",
    "RayOpt.c57_matrix_rot",
    "RayOpt.c57_matrix_mul",
    "RayOpt.c57_matrix_mul_unit",
    "RayOpt.c57_matrix_small_violation",
    "RayOpt.c57_matrix_kernel",
    "RayOpt.c57_rodrigues",
    "RayOpt.c57_about_axis",
    "RayOpt.c57_from_precise",
    "RayOpt.c57_precise_raise_violation",
    "RayOpt.c57_precise_junk_violation",
    "RayOpt.c57_onto",
    "RayOpt.c57_from_matrix",
    "RayOpt.c57_matrix_injective",
    "RayOpt.c57_slerp_ends",
    "RayOpt.c57_slerp",
    "RayOpt.c57_slerp_spin_violation",
    "RayOpt.c57_random",
    "RayOpt.c57_random_onto",
    "RayOpt.c57_random_matrix"
   ],
   "note": "Python versions of the functions (the compiled extension replaces them when present). numpy.linalg.eigh enters as: a unit eigenvector of the largest eigenvalue. math.atan2 is Complex.arg."
  },
  {
   "property": "C58",
   "status": "proved",
   "theorems": [
    "RayOpt.c58_rotation",
    "RayOpt.c58_rodrigues",
    "RayOpt.c58_axis_fixed",
    "RayOpt.c58_additive",
    "RayOpt.c58_euler",
    "RayOpt.c58_euler_meaning"
   ],
   "note": ""
  },
  {
   "property": "C59",
   "status": "proved",
   "theorems": [
    "RayOpt.Simplex.c59_finite_object",
    "RayOpt.Simplex.c59_finite_object_value",
    "RayOpt.Simplex.c59_finite_object_transform",
    "RayOpt.Simplex.c59_coefficients",
    "RayOpt.Simplex.c59_substitution",
    "RayOpt.Simplex.c59_evaluation",
    "RayOpt.Simplex.c59_order_13",
    "RayOpt.Simplex.c59_wraps"
   ],
   "note": "Substitution and evaluation for all d, n, matrices and coefficient vectors, including termination of the odometer loop. Guard: multinomial coefficients below the order fit uint16 (d=3: n<=13, c59_order_13); c59_wraps proves it fails at n=14. finite_object_fast: the polynomials after the change of variables for every order fitting uint16 tables (c59_finite_object, c59_finite_object_value) and the same numbers as simplex_transform (c59_finite_object_transform)."
  },
  {
   "property": "C60",
   "status": "proved",
   "theorems": [
    "RayOpt.Parse.c60_zmx",
    "RayOpt.Parse.c60_zmx_extra_violation",
    "RayOpt.Parse.c60_zmx_first",
    "RayOpt.Parse.c60_zmx_stop_violation",
    "RayOpt.Parse.c60_zmx_total",
    "RayOpt.Parse.c60_words",
    "RayOpt.Parse.c60_zmx_line",
    "RayOpt.Parse.c60_zmx_text",
    "RayOpt.Parse.c60_zmx_file",
    "RayOpt.Parse.c60_zmx_glass_violation",
    "RayOpt.Parse.c60_array",
    "RayOpt.Parse.c60_array_plain",
    "RayOpt.Parse.c60_array_stop",
    "RayOpt.Parse.c60_text_rows",
    "RayOpt.Parse.c60_text_table",
    "RayOpt.Parse.c60_text",
    "RayOpt.Parse.c60_text_shape",
    "RayOpt.Parse.c60_array_radius_violation",
    "RayOpt.Parse.c60_array_columns",
    "RayOpt.Parse.c60_zmx_header",
    "RayOpt.Parse.c60_len_header",
    "RayOpt.Parse.c60_olc",
    "RayOpt.Parse.c60_olc_first",
    "RayOpt.Parse.c60_olc_count",
    "RayOpt.Parse.c60_olc_unbound_violation",
    "RayOpt.Parse.c60_olc_stop_violation",
    "RayOpt.Parse.c60_olc_text",
    "RayOpt.Parse.c60_len",
    "RayOpt.Parse.c60_len_first",
    "RayOpt.Parse.c60_len_count",
    "RayOpt.Parse.c60_len_total",
    "RayOpt.Parse.c60_len_text",
    "RayOpt.Parse.c60_len_far_violation",
    "RayOpt.Parse.c60_len_plane_violation"
   ],
   "note": "For Zemax files, OSLO catalogue lenses, OSLO lens files and tables: count of elements, every attribute as the last value in its own record, distance as the last thickness before; success characterised line by line; texts made of lines are read as these. Unit, name and wavelengths of Zemax files and unit and name of OSLO files are characterised as well (c60_zmx_header, c60_len_header). Deviations are theorems named _violation: extra first element and unread stop and lost glasses (Zemax), missing thickness and AST (OSLO catalogues), thicknesses above 100 and zero radii (OSLO files), zero radii of tables. float, int and Material.make are parameters."
  },
  {
   "property": "C61",
   "status": "proved",
   "theorems": [
    "RayOpt.c61_between",
    "RayOpt.c61_physical",
    "RayOpt.c61_first",
    "RayOpt.c61_at_element_violation"
   ],
   "note": "c61_at_element_violation: exactly at an element the beam before it is returned"
  },
  {
   "property": "C62",
   "status": "proved",
   "theorems": [
    "RayOpt.c62_eigenvalues",
    "RayOpt.c62_unit_circle",
    "RayOpt.c62_proper",
    "RayOpt.c62_eigenmode",
    "RayOpt.c62_stable",
    "RayOpt.c62_guide",
    "RayOpt.c62_bounded",
    "RayOpt.c62_beam",
    "RayOpt.c62_beam_escape",
    "RayOpt.c62_escape",
    "RayOpt.c62_marginal"
   ],
   "note": "np.roots is modelled by the set of roots of its polynomial; allclose tests are exact equalities c62_bounded, c62_escape, c62_marginal, c62_beam, c62_beam_escape: rays and beams over many passes. c62_guide: the trace through repeated elements."
  },
  {
   "property": "C63",
   "status": "proved",
   "theorems": [
    "RayOpt.c63_refocus",
    "RayOpt.c63_negative_violation"
   ],
   "note": "for a non-negative new distance; c63_negative_violation proves the failure otherwise"
  },
  {
   "property": "C64",
   "status": "proved",
   "theorems": [
    "RayOpt.Sampling.c64_radial",
    "RayOpt.Sampling.c64_weights",
    "RayOpt.Sampling.c64_count"
   ],
   "note": "interval nodes and weights are parameters"
  },
  {
   "property": "C65",
   "status": "proved",
   "theorems": [
    "RayOpt.c65_incoming",
    "RayOpt.c65_straight",
    "RayOpt.c65_on_surface",
    "RayOpt.c65_on_asphere",
    "RayOpt.c65_passive",
    "RayOpt.c65_mirror",
    "RayOpt.c65_snell"
   ],
   "note": ""
  },
  {
   "property": "C66",
   "status": "proved",
   "theorems": [
    "RayOpt.c66_focal_length_solve",
    "RayOpt.c66_resize",
    "RayOpt.c66_old_solve",
    "RayOpt.c66_old_solve_violation"
   ],
   "note": "c66_old_solve_violation: the older _focal_length_solve, marked not exact in the source, gives a thin plano-convex lens 3/2 of the focal length asked for."
  },
  {
   "property": "C69",
   "status": "proved",
   "theorems": [
    "RayOpt.Poly.c69_sphere",
    "RayOpt.Poly.c69_asphere",
    "RayOpt.Poly.c69_no_refraction",
    "RayOpt.Poly.c69_zero_distance",
    "RayOpt.Poly.c69_conic",
    "RayOpt.Poly.c69_one_pass",
    "RayOpt.Poly.c69_curved_asphere"
   ],
   "note": "Guards: distance not zero for curved surfaces, conic zero, not both curvature and aspheric terms, order at most one more than the number of aspheric coefficients. c69_zero_distance, c69_conic, c69_one_pass and c69_curved_asphere show that the code violates the property without each guard."
  },
  {
   "property": "C70",
   "status": "proved",
   "theorems": [
    "RayOpt.Poly.c70_ray",
    "RayOpt.Poly.c70_skew",
    "RayOpt.Poly.c70_paraxial"
   ],
   "note": "Ray and skew invariant for all traces through surfaces that are not both curved and aspheric; paraxial agreement for centred refracting surfaces at positive distance."
  },
  {
   "property": "C71",
   "status": "proved",
   "theorems": [
    "RayOpt.Poly.c71_evaluate",
    "RayOpt.Poly.c71_conjugates",
    "RayOpt.Poly.c71_flag",
    "RayOpt.Poly.c71_infinite",
    "RayOpt.Poly.c71_angle"
   ],
   "note": "Guard: telecentric flag only with the larger pupil slope (c71_flag shows the violation). c71_angle: for objects at infinity the angle is used instead of its tangent. Order at most 13 through c59."
  },
  {
   "property": "C72",
   "status": "proved",
   "theorems": [
    "RayOpt.Glass.c72_formula",
    "RayOpt.Glass.c72_default_wavelength",
    "RayOpt.Glass.c72_agf_swapped"
   ],
   "note": "c72_formula; c72_default_wavelength and c72_agf_swapped are the violations."
  },
  {
   "property": "C74",
   "status": "proved",
   "theorems": [
    "RayOpt.Cache.c74_pure",
    "RayOpt.Cache.c74_stale",
    "RayOpt.Cache.c74_abbe"
   ],
   "note": "c74_pure for any call sequence; c74_stale and c74_abbe prove that assigning attributes leaves old answers in place."
  },
  {
   "property": "C75",
   "status": "proved",
   "theorems": [
    "RayOpt.c75_chief_off",
    "RayOpt.c75_chief",
    "RayOpt.c75_marginal",
    "RayOpt.c75_marginal_explicit",
    "RayOpt.c75_rim",
    "RayOpt.c75_marginal_sign",
    "RayOpt.c75_rims_sign",
    "RayOpt.c75_start",
    "RayOpt.c75_pupil",
    "RayOpt.c75_violated_stop"
   ],
   "note": "Aimed rays meet the stop, given that the external root finders return points whose merit is within eps; c75_marginal_explicit and c75_violated_stop show the off-by-one for an explicit stop."
  },
  {
   "property": "C76",
   "status": "proved",
   "theorems": [
    "RayOpt.Paths.c76_no_trace",
    "RayOpt.Paths.c76_frame",
    "RayOpt.Paths.c76_all",
    "RayOpt.Paths.c76_start",
    "RayOpt.Paths.c76_order_violation"
   ],
   "note": "the root finder is an arbitrary choice of trial points depending on its starting point and the values seen; get/set solves with plain pickups; c76_order_violation shows the need of the guard for several solves"
  },
  {
   "property": "C77",
   "status": "proved",
   "theorems": [
    "RayOpt.Spot.c77_opd",
    "RayOpt.Spot.c77_stigmatic",
    "RayOpt.Spot.c77_reference",
    "RayOpt.Spot.c77_after_last_violation"
   ],
   "note": "opd with the default after=-2, image=-1; the rows come from propagating through the last element. c77_after_last_violation: after=-1 ignores the whole path."
  },
  {
   "property": "C78",
   "status": "proved",
   "theorems": [
    "RayOpt.Spot.c78_resize",
    "RayOpt.Spot.c78_tight",
    "RayOpt.Spot.c78_nan"
   ],
   "note": "resize(fn=max over rays) of all elements but the first, on a bundle traced without clipping; c78_nan: one missing ray makes the radius NaN."
  },
  {
   "property": "C79",
   "status": "proved",
   "theorems": [
    "RayOpt.Psf.c79_total",
    "RayOpt.Psf.c79_piston",
    "RayOpt.Psf.c79_strehl"
   ],
   "note": "psf from the resampled optical path differences (a grid, NaN outside of the pupil); np.fft.fft2 with zero padding by its definition; griddata is not modelled."
  },
  {
   "property": "C73",
   "status": "proved",
   "theorems": [
    "RayOpt.Serial.c73_direct",
    "RayOpt.Serial.c73_abbe",
    "RayOpt.Serial.c73_basic",
    "RayOpt.Serial.c73_basic_table",
    "RayOpt.Serial.c73_library",
    "RayOpt.Serial.c73_catalog",
    "RayOpt.Serial.c73_violation"
   ],
   "note": "Python's float(text) and the glass library are parameters."
  },
  {
   "property": "C80",
   "status": "proved",
   "theorems": [
    "RayOpt.Serial.c80_pupil",
    "RayOpt.Serial.c80_pupil_nickname_violation",
    "RayOpt.Serial.c80_conjugate",
    "RayOpt.Serial.c80_update_violation",
    "RayOpt.Serial.c80_element",
    "RayOpt.Serial.c80_element_exact",
    "RayOpt.Serial.c80_element_nickname_violation",
    "RayOpt.Serial.c80_element_assert_violation",
    "RayOpt.Serial.c80_material",
    "RayOpt.Serial.c80_material_basic",
    "RayOpt.Serial.c80_material_violation",
    "RayOpt.Serial.c80_system",
    "RayOpt.Serial.c80_fields_violation",
    "RayOpt.Serial.c80_again",
    "RayOpt.Serial.c80_straight_violation",
    "RayOpt.Serial.c80_element_names",
    "RayOpt.Serial.c80_conjugate_names",
    "RayOpt.Serial.c80_index",
    "RayOpt.Serial.c80_no_pupil",
    "RayOpt.Serial.c80_default"
   ],
   "note": "Keys are an enumeration with a case for any other name; values of unexpected types are outside of the model. Pickups, validators and solves are kept as opaque lists."
  },
  {
   "property": "C81",
   "status": "proved",
   "theorems": [
    "RayOpt.GlassFile.c81_agf_read",
    "RayOpt.GlassFile.c81_agf_conserved",
    "RayOpt.GlassFile.c81_agf_total",
    "RayOpt.GlassFile.c81_agf_material",
    "RayOpt.GlassFile.c81_agf_formula",
    "RayOpt.GlassFile.c81_ld_violation",
    "RayOpt.GlassFile.c81_ld_example",
    "RayOpt.GlassFile.c81_od_violation",
    "RayOpt.GlassFile.c81_agf_thermal",
    "RayOpt.GlassFile.c81_agf_material_total",
    "RayOpt.GlassFile.c81_agf_entry",
    "RayOpt.GlassFile.c81_glc_read",
    "RayOpt.GlassFile.c81_glc_total",
    "RayOpt.GlassFile.c81_glc_material",
    "RayOpt.GlassFile.c81_codev_formula",
    "RayOpt.GlassFile.c81_codev",
    "RayOpt.GlassFile.c81_codev_violation",
    "RayOpt.GlassFile.c81_rii"
   ],
   "note": "Texts as lists of characters; float and int are parameters. Wavelength limits, prices and chemical data are read from single characters (c81_ld_violation, c81_od_violation); CODE V identifiers not of two characters: c81_codev_violation."
  },
  {
   "property": "C67",
   "status": "proved",
   "theorems": [
    "RayOpt.c67_newton_element",
    "RayOpt.c67_third_order",
    "RayOpt.c67_image",
    "RayOpt.c67_image_plane",
    "RayOpt.c67_transverse",
    "RayOpt.c67_transverse_colour",
    "RayOpt.c67_stop_shift_trace",
    "RayOpt.c67_aplanatic",
    "RayOpt.c67_one_coefficient_violation",
    "RayOpt.c67_transverse_violation",
    "RayOpt.c67_colour_violation",
    "RayOpt.c67_textbook",
    "RayOpt.c67_stop_shift",
    "RayOpt.c67_figure",
    "RayOpt.c67_colour"
   ],
   "note": "The ray curve is any curve of real rays whose heights and slopes have the given expansion to third order; near3_start gives one for every pupil and field coordinate. Surfaces: those the axial ray hits to second order (CloseHit): conics other than paraboloids (excluded by the intersection formula) and, by c67_newton_element, all aspheric surfaces with the Newton search of the code. The chromatic part is proved for systems in which every surface between dispersive media has a material."
  },
  {
   "property": "C68",
   "status": "proved",
   "theorems": [
    "RayOpt.c68_excidence_refract",
    "RayOpt.c68_excidence_snell",
    "RayOpt.c68_place",
    "RayOpt.c68_align",
    "RayOpt.c68_mirror",
    "RayOpt.c68_mirror_violation",
    "RayOpt.c68_object_violation",
    "RayOpt.c68_attainable",
    "RayOpt.c68_axis"
   ],
   "note": "Proved for all placements reachable by the setters. Guards: the bend can be attained by Snell's law, and none of the tolerance comparisons (poles, small turns, gimbal lock) takes a small turn for none; surfaces meet the axis at the vertex. Violations: align with mu=-1 aims a mirror the wrong way; an element that does not bend the axis is turned edge on when the next direction differs."
  },
  {
   "property": "C82",
   "status": "proved",
   "theorems": [
    "RayOpt.c82_angle",
    "RayOpt.c82_turned_violation",
    "RayOpt.c82_normal",
    "RayOpt.c82_spot",
    "RayOpt.c82_spot_normal",
    "RayOpt.c82_curvature",
    "RayOpt.c82_diverging",
    "RayOpt.c82_make",
    "RayOpt.c82_resize",
    "RayOpt.c82_resize_violation"
   ],
   "note": "arctan2 is Complex.arg; the branch of angle for complex matrices has no caller and is not modelled; sqrt of negative numbers and divisions by zero are none"
  },
  {
   "property": "C83",
   "status": "proved",
   "theorems": [
    "RayOpt.Poly.c83_newton_element",
    "RayOpt.Poly.c83_taylor",
    "RayOpt.Poly.c83_path",
    "RayOpt.Poly.c83_path_violation"
   ],
   "note": "elements along the axis without zero-distance curved surfaces, conics or curved aspheres (where c69_* show that the polynomials are wrong). Surfaces enter through Fitted: the intersection is exact without aspheric terms and good to order 2m with them. c83_newton_element proves it for the Newton search of the code up to truncation order 3, the default; beyond that it is an assumption on the solver, as one step of the search leaves an error of order six on the axis"
  },
  {
   "property": "C84",
   "status": "proved",
   "theorems": [
    "RayOpt.c84_na",
    "RayOpt.c84_abbe",
    "RayOpt.c84_abbe_size",
    "RayOpt.c84_fnumber",
    "RayOpt.c84_working",
    "RayOpt.c84_airy",
    "RayOpt.c84_rayleigh",
    "RayOpt.c84_rescale_trace",
    "RayOpt.c84_rescale_rays",
    "RayOpt.c84_rescale_figures",
    "RayOpt.c84_points",
    "RayOpt.c84_points_violation",
    "RayOpt.c84_track",
    "RayOpt.c84_na_violation"
   ],
   "note": "one side at a time for working f-number, Airy radius and Rayleigh range; violations: the numerical aperture of finite-finite systems can exceed the index, the Rayleigh range lacks the index, number_of_points ignores the length unit"
  },
  {
   "property": "C85",
   "status": "proved",
   "theorems": [
    "RayOpt.c85_object",
    "RayOpt.c85_image",
    "RayOpt.c85_size",
    "RayOpt.c85_image_violation"
   ],
   "note": "elements without roll; the value after update_conjugates is given in closed form for both ends; violation for the image end when the image medium is not air or the image is infinite"
  },
  {
   "property": "C86",
   "status": "proved",
   "theorems": [
    "RayOpt.c86_grow",
    "RayOpt.c86_back",
    "RayOpt.c86_front",
    "RayOpt.c86_cement_violation",
    "RayOpt.c86_stop_violation",
    "RayOpt.c86_rim_violation",
    "RayOpt.c86_cut_flat",
    "RayOpt.c86_cut",
    "RayOpt.c86_closed",
    "RayOpt.c86_drawn",
    "RayOpt.c86_glass",
    "RayOpt.c86_sound"
   ],
   "note": "violations: in cemented groups a convex first surface can stay too small, a stop inside of glass is enlarged, a strongly curved surface gets a radius where it does not exist"
  },
  {
   "property": "C87",
   "status": "proved",
   "theorems": [
    "RayOpt.Psf.c87_autocorrelation",
    "RayOpt.Psf.c87_limit",
    "RayOpt.Psf.c87_one",
    "RayOpt.Psf.c87_perfect",
    "RayOpt.Psf.c87_centre",
    "RayOpt.Psf.c87_encircled",
    "RayOpt.Psf.c87_radius_violation"
   ],
   "note": "square grids as made by opd; frequencies up to n (pad - 1); violation: the encircled energy is plotted one pixel too far inside"
  },
  {
   "property": "C88",
   "status": "proved",
   "theorems": [
    "RayOpt.Entry.c88_given",
    "RayOpt.Entry.c88_columns",
    "RayOpt.Entry.c88_stale_violation",
    "RayOpt.Entry.c88_paraxial",
    "RayOpt.Entry.c88_paraxial_violation",
    "RayOpt.Entry.c88_point",
    "RayOpt.Entry.c88_filter_violation",
    "RayOpt.Entry.c88_clipping",
    "RayOpt.Entry.c88_clipping_run",
    "RayOpt.Entry.c88_clipping_violation",
    "RayOpt.Entry.c88_line"
   ],
   "note": "the pupil z, p is the argument (found by the solvers of C75); violations: arrays are not resized with the system, the filter moves the reference, rays_paraxial in media, rays_clipping of vignetted finite objects"
  },
  {
   "property": "C89",
   "status": "proved",
   "theorems": [
    "RayOpt.Figures.c89_fan",
    "RayOpt.Figures.c89_curved_violation",
    "RayOpt.Figures.c89_tee",
    "RayOpt.Figures.c89_fans",
    "RayOpt.Figures.c89_spot",
    "RayOpt.Figures.c89_defocus",
    "RayOpt.Figures.c89_split",
    "RayOpt.Figures.c89_tangential",
    "RayOpt.Figures.c89_sagittal",
    "RayOpt.Figures.c89_defined",
    "RayOpt.Figures.c89_spherical",
    "RayOpt.Figures.c89_axial",
    "RayOpt.Figures.c89_lateral",
    "RayOpt.Figures.c89_distortion",
    "RayOpt.Figures.c89_upright_violation"
   ],
   "note": "one ray at a time; the drawing is not modelled; violations: curved objects (pupil coordinate), upright images (distortion -2)"
  },
  {
   "property": "C90",
   "status": "proved",
   "theorems": [
    "RayOpt.Poly.c90_finite",
    "RayOpt.Poly.c90_infinite",
    "RayOpt.Poly.c90_names",
    "RayOpt.Poly.c90_expansion",
    "RayOpt.Poly.c90_m9_violation",
    "RayOpt.Poly.c90_few",
    "RayOpt.Poly.c90_buchdahl_violation"
   ],
   "note": "spheres, planes and plane aspheres along the axis, plane image where the marginal ray crosses the axis; violations: the sign of m9, buchdahl never returns, seidel raises for kmax = 2"
  },
  {
   "property": "C91",
   "status": "proved",
   "theorems": [
    "RayOpt.c91_moments",
    "RayOpt.c91_spot",
    "RayOpt.c91_default",
    "RayOpt.c91_confined",
    "RayOpt.c91_diverging",
    "RayOpt.c91_stigmatic",
    "RayOpt.c91_trace",
    "RayOpt.c91_stigmatic_violation"
   ],
   "note": "c91_stigmatic_violation: is_stigmatic compares the two axes only and accepts a matrix that mixes them"
  },
  {
   "property": "C92",
   "status": "proved",
   "theorems": [
    "RayOpt.c92_place",
    "RayOpt.c92_from_axis",
    "RayOpt.c92_paraxial",
    "RayOpt.c92_beam",
    "RayOpt.c92_rays",
    "RayOpt.c92_paraxial_violation",
    "RayOpt.c92_beam_violation"
   ],
   "note": "violations: c92_paraxial_violation (paraxial rays cross the axis at a mirror), c92_beam_violation (first point of a beam on the wrong side)"
  },
  {
   "property": "C93",
   "status": "proved",
   "theorems": [
    "RayOpt.Spot.c93_opd",
    "RayOpt.c93_step",
    "RayOpt.c93_path",
    "RayOpt.c93_malus",
    "RayOpt.c93_fermat",
    "RayOpt.c93_symplectic",
    "RayOpt.c93_smooth"
   ],
   "note": "Hamilton's optics of traced bundles: change of the optical path (c93_step, c93_path), rays perpendicular to wavefronts (c93_malus), equal paths between conjugate points (c93_fermat), the symplectic invariant of two neighbouring rays (c93_symplectic), differentiability near a crossing ray for conics (c93_smooth), slope of the wavefront of opd and transverse aberration (c93_opd)."
  },
  {
   "property": "C94",
   "status": "proved",
   "theorems": [
    "RayOpt.c94_compose",
    "RayOpt.c94_concat",
    "RayOpt.c94_translation",
    "RayOpt.c94_reflection",
    "RayOpt.c94_rotation",
    "RayOpt.c94_scaling",
    "RayOpt.c94_projection",
    "RayOpt.c94_parallel",
    "RayOpt.c94_perspective",
    "RayOpt.c94_pseudo",
    "RayOpt.c94_clip_box",
    "RayOpt.c94_clip_refused",
    "RayOpt.c94_clip_frustum",
    "RayOpt.c94_shear",
    "RayOpt.c94_shear_violation",
    "RayOpt.c94_cell",
    "RayOpt.c94_angle",
    "RayOpt.c94_same",
    "RayOpt.c94_same_violation"
   ],
   "note": "Exact reals; zero normals and directions (NaN in the code) excluded by hypothesis. numpy.linalg.inv is not modelled."
  },
  {
   "property": "C95",
   "status": "proved",
   "theorems": [
    "RayOpt.c95_sphere",
    "RayOpt.c95_constrain",
    "RayOpt.c95_nearest",
    "RayOpt.c95_orientation",
    "RayOpt.c95_drag",
    "RayOpt.c95_constrained",
    "RayOpt.c95_path",
    "RayOpt.c95_strokes",
    "RayOpt.c95_next",
    "RayOpt.c95_next_violation",
    "RayOpt.c95_axes_violation",
    "RayOpt.c95_away_violation",
    "RayOpt.c95_down"
   ],
   "note": "Exact reals; NaN as none; the initial orientation is a quaternion (a matrix goes through quaternion_from_matrix, C57)."
  },
  {
   "property": "C96",
   "status": "proved",
   "theorems": [
    "RayOpt.c96_raises",
    "RayOpt.c96_compose_decompose",
    "RayOpt.c96_decompose_compose",
    "RayOpt.c96_single",
    "RayOpt.c96_perspective_violation"
   ],
   "note": "decompose_matrix and compose_matrix over the exact reals; the perspective threshold is a recorded violation"
  },
  {
   "property": "C97",
   "status": "proved",
   "theorems": [
    "RayOpt.c97_affine",
    "RayOpt.c97_affine_violation",
    "RayOpt.c97_rigid",
    "RayOpt.c97_similarity",
    "RayOpt.c97_exact",
    "RayOpt.c97_raises",
    "RayOpt.c97_scale_violation"
   ],
   "note": "three dimensions; svd, eigh and pinv of numpy by contract; scaling and coplanar points are recorded violations"
  },
  {
   "property": "C98",
   "status": "proved",
   "theorems": [
    "RayOpt.c98_reflection",
    "RayOpt.c98_parallel",
    "RayOpt.c98_orthogonal",
    "RayOpt.c98_perspective",
    "RayOpt.c98_pseudo",
    "RayOpt.c98_unit_distance_violation",
    "RayOpt.c98_origin_violation",
    "RayOpt.c98_pseudo_violation",
    "RayOpt.c98_rotation",
    "RayOpt.c98_rotation_violation",
    "RayOpt.c98_scale",
    "RayOpt.c98_scale_direction",
    "RayOpt.c98_scale_violation",
    "RayOpt.c98_shear",
    "RayOpt.c98_shear_zero_violation",
    "RayOpt.c98_shear_index_violation"
   ],
   "note": "the five *_from_matrix functions over the exact reals with numpy.linalg.eig by contract (eigenpairs of length one, real vectors for real eigenvalues, spanning); the thresholds, planes through the origin, eyes at the distance one, the order of pseudo projections and out of plane shears are recorded violations"
  },
  {
   "property": "C99",
   "status": "proved",
   "theorems": [
    "RayOpt.MatDict.c99_round_trip",
    "RayOpt.MatDict.c99_injective",
    "RayOpt.MatDict.c99_model_as_abbe",
    "RayOpt.MatDict.c99_thermal_violation",
    "RayOpt.MatDict.c99_default",
    "RayOpt.MatDict.c99_basic",
    "RayOpt.MatDict.c99_empty_violation"
   ],
   "note": "dictionaries of the four material classes and the constructors that read them; thermal data and empty names are recorded violations; that Material.make refuses dictionaries is part of C73"
  },
  {
   "property": "C100",
   "status": "proved",
   "theorems": [
    "RayOpt.Startup.c100_kept",
    "RayOpt.Startup.c100_effect",
    "RayOpt.Startup.c100_found",
    "RayOpt.Startup.c100_again",
    "RayOpt.Startup.c100_place",
    "RayOpt.Startup.c100_singleton",
    "RayOpt.Startup.c100_opened"
   ],
   "note": "the file system is a function from paths to contents, opening a database records its address"
  },
  {
   "property": "C101",
   "status": "proved",
   "theorems": [
    "RayOpt.Analysis.c101_unknown",
    "RayOpt.Analysis.c101_figures",
    "RayOpt.Analysis.c101_cells",
    "RayOpt.Analysis.c101_drawn",
    "RayOpt.Analysis.c101_wavelength_violation",
    "RayOpt.Analysis.c101_opd_cells",
    "RayOpt.Analysis.c101_norun",
    "RayOpt.Analysis.c101_run_violation",
    "RayOpt.Analysis.c101_paraxial_text",
    "RayOpt.Analysis.c101_stale_violation",
    "RayOpt.Analysis.c101_unused"
   ],
   "note": "options, order of adjustments, texts and figures, and which cell shows which field and wavelength; the curves themselves are in C78, C89; three violations: run=True, stale paraxial text, more than seven wavelengths"
  },
  {
   "property": "C102",
   "status": "proved",
   "theorems": [
    "RayOpt.Serial.c102_pupil_text",
    "RayOpt.Serial.c102_conj_text",
    "RayOpt.Serial.c102_head_text",
    "RayOpt.Serial.c102_pupil_lines",
    "RayOpt.Serial.c102_conj_lines",
    "RayOpt.Serial.c102_head_lines",
    "RayOpt.Serial.c102_dict_violation",
    "RayOpt.Tables.c102_gaussian",
    "RayOpt.Tables.c102_gaussian_violation",
    "RayOpt.Tables.c102_rows",
    "RayOpt.Tables.c102_errors",
    "RayOpt.Tables.c102_paraxial",
    "RayOpt.Tables.c102_transverse",
    "RayOpt.Tables.c102_geometric",
    "RayOpt.Tables.c102_elements",
    "RayOpt.Tables.c102_aperture",
    "RayOpt.Tables.c102_typeletter"
   ],
   "note": "the values of a line, not the digits they are rounded to nor the padding; the texts of pupils, conjugates and systems are Props/Describe.lean"
  },
  {
   "property": "C103",
   "status": "proved",
   "theorems": [
    "RayOpt.c103_skew",
    "RayOpt.c103_meridional",
    "RayOpt.c103_etendue",
    "RayOpt.c103_cosine",
    "RayOpt.c103_sine",
    "RayOpt.c103_coma"
   ],
   "note": "Skew invariant and meridional rays of centred systems (c103_skew, c103_meridional), conservation of etendue between vertex planes (c103_etendue), the cosine law for sharp images of neighbouring points with Abbe's sine condition and its converse (c103_cosine, c103_sine, c103_coma). Example: a plane mirror."
  },
  {
   "property": "C104",
   "status": "proved",
   "theorems": [
    "RayOpt.c104_conic",
    "RayOpt.c104_asphere",
    "RayOpt.c104_focus",
    "RayOpt.c104_transfer",
    "RayOpt.c104_point",
    "RayOpt.c104_surface",
    "RayOpt.c104_dummy",
    "RayOpt.c104_system",
    "RayOpt.c104_drawn",
    "RayOpt.c104_astigmatism",
    "RayOpt.c104_flat"
   ],
   "note": "Real rays near a chief ray in a plane with the axis: c104_transfer (path between elements), c104_surface (both equations, as equivalences, for refraction and reflection, any sheet of any shape with the curvatures of its section), c104_dummy, c104_point, c104_system. c104_conic computes the curvatures of conic surfaces. c104_focus ties the vergences to the points where neighbouring rays meet. c104_drawn and c104_astigmatism: the values that Analysis.longitudinal plots tend to the foci. Limits of exact rays; the finite pupil step eps of rays_line is not bounded."
  },
  {
   "property": "C105",
   "status": "proved",
   "theorems": [
    "RayOpt.Quadrature.c105_radau_disc",
    "RayOpt.Quadrature.c105_lobatto_disc",
    "RayOpt.Quadrature.c105_assert",
    "RayOpt.Quadrature.c105_half_violation",
    "RayOpt.Quadrature.c105_legendre",
    "RayOpt.Quadrature.c105_radau",
    "RayOpt.Quadrature.c105_radau_sharp",
    "RayOpt.Quadrature.c105_lobatto",
    "RayOpt.Quadrature.c105_lobatto_sharp"
   ],
   "note": "np.poly1d.roots is a parameter by its contract (all roots with multiplicity, needed only for polynomials whose roots are all real, which is proved); the Legendre polynomials of scipy are defined by Bonnet's recursion and characterised by c105_legendre; c105_half_violation proves the restriction to functions even in x"
  },
  {
   "property": "C106",
   "status": "proved",
   "theorems": [
    "RayOpt.Compiled.c106_rotation",
    "RayOpt.Compiled.c106_reflection",
    "RayOpt.Compiled.c106_translation",
    "RayOpt.Compiled.c106_projection",
    "RayOpt.Compiled.c106_clip",
    "RayOpt.Compiled.c106_shear",
    "RayOpt.Compiled.c106_scaling",
    "RayOpt.Compiled.c106_scaling_violation",
    "RayOpt.Compiled.c106_cell",
    "RayOpt.Compiled.c106_same",
    "RayOpt.Compiled.c106_euler",
    "RayOpt.Compiled.c106_euler_from",
    "RayOpt.Compiled.c106_axes",
    "RayOpt.Compiled.c106_axes_only",
    "RayOpt.Compiled.c106_axes_reversed_violation",
    "RayOpt.Compiled.c106_axes_violation",
    "RayOpt.Compiled.c106_update",
    "RayOpt.Compiled.c106_align"
   ],
   "note": "Agreement of each matrix function of the C extension with the model of its Python function, with the exact inputs for which it raises; the 24 axis names on machines of both byte orders; update and align of the elements. Differences that change results are violations: scale_matrix does not normalise its direction, names of axes in upper case are refused, names spelled backwards accepted."
  },
  {
   "property": "C107",
   "status": "proved",
   "theorems": [
    "RayOpt.Compiled.c107_same",
    "RayOpt.Compiled.c107_inverse",
    "RayOpt.Compiled.c107_matrix",
    "RayOpt.Compiled.c107_unit",
    "RayOpt.Compiled.c107_matrix_short",
    "RayOpt.Compiled.c107_matrix_violation",
    "RayOpt.Compiled.c107_short_violation",
    "RayOpt.Compiled.c107_precise",
    "RayOpt.Compiled.c107_precise_violation",
    "RayOpt.Compiled.c107_precise_fatal",
    "RayOpt.Compiled.c107_slerp",
    "RayOpt.Compiled.c107_slerp_violation",
    "RayOpt.Compiled.c107_doubles",
    "RayOpt.Compiled.c107_random"
   ],
   "note": "Agreement with the Python functions away from the thresholds, the precise conversion recovers every unit quaternion up to sign; the caller's array that quaternion_matrix normalises, the missing sign, the end of the process for a zero last entry, and the fraction -1 of quaternion_slerp are violations."
  },
  {
   "property": "C110",
   "status": "proved",
   "theorems": [
    "RayOpt.Compiled.c110_sphere",
    "RayOpt.Compiled.c110_constrain",
    "RayOpt.Compiled.c110_constrain_violation",
    "RayOpt.Compiled.c110_norm",
    "RayOpt.Compiled.c110_output",
    "RayOpt.Compiled.c110_output_violation",
    "RayOpt.Compiled.c110_import",
    "RayOpt.Compiled.c110_warnings",
    "RayOpt.Compiled.c110_missing",
    "RayOpt.Compiled.c110_names"
   ],
   "note": "The import as a fold over the attributes of the extension; the trackball functions agree but for the side of the plane of the window (violation); vector_norm accepts output arrays of any size (violation)."
  },
  {
   "property": "C109",
   "status": "proved",
   "theorems": [
    "RayOpt.Compiled.c109_tridiagonal",
    "RayOpt.Compiled.c109_terminates",
    "RayOpt.Compiled.c109_largest",
    "RayOpt.Compiled.c109_eigenvalue",
    "RayOpt.Compiled.c109_vector_fails",
    "RayOpt.Compiled.c109_vector",
    "RayOpt.Compiled.c109_determinant",
    "RayOpt.Compiled.c109_quaternion",
    "RayOpt.Compiled.c109_eigenvalue_violation",
    "RayOpt.Compiled.c109_quaternion_violation"
   ],
   "note": "Householder steps as an orthogonal matrix, the bisection by the signs of the pivots of an LDL factorisation (Sylvester), the vector as a column of the adjugate. Bounds hold in exact arithmetic with the thresholds of the code. The replacement of a small pivot by +eps whatever its sign makes the lower bound conditional (hypothesis Clean: no replaced pivot was negative); the two violations show that the condition is needed."
  },
  {
   "property": "C111",
   "status": "proved",
   "theorems": [
    "RayOpt.Compiled.c111_motion",
    "RayOpt.Compiled.c111_near",
    "RayOpt.Compiled.c111_collinear_violation",
    "RayOpt.Compiled.c111_large_violation",
    "RayOpt.Compiled.c111_small_violation",
    "RayOpt.Compiled.c111_coincident_violation",
    "RayOpt.Compiled.c111_nan"
   ],
   "note": "Whatever matrix is returned is a rotation times the factor of the Python function taking centroid to centroid; its misfit is within an explicit error of the best (hypothesis Clean as in C109, c109_determinant bounds the determinant). Refusals of collinear, coincident, small and large sets and NaN for empty sets are the violations."
  },
  {
   "property": "C108",
   "status": "proved",
   "theorems": [
    "RayOpt.Compiled.c108_four",
    "RayOpt.Compiled.c108_inverse",
    "RayOpt.Compiled.c108_infinite",
    "RayOpt.Compiled.c108_refused",
    "RayOpt.Compiled.c108_returns",
    "RayOpt.Compiled.c108_infinite_violation",
    "RayOpt.Compiled.c108_small_violation",
    "RayOpt.Compiled.c108_memory",
    "RayOpt.Compiled.c108_memory_violation"
   ],
   "note": "Sizes up to four by the cofactors, larger ones by an invariant of the elimination with exchanged lines (product of the two factors) and the two substitutions. The missing test of the last pivot, the absolute thresholds, and the array of an array-like argument that is overwritten are the violations."
  },
  {
   "property": "C112",
   "status": "proved",
   "theorems": [
    "RayOpt.c112_backwards",
    "RayOpt.c112_path",
    "RayOpt.c112_mirror_violation",
    "RayOpt.c112_tilted"
   ],
   "note": "c112_backwards: centred conic refracting surfaces each with a medium of its own and an image surface without; rays that leave every surface forwards and not along an asymptote. c112_tilted: the same for surfaces of any tilt that follow one another along one direction. c112_mirror_violation: mirrors do not run backwards."
  },
  {
   "property": "C113",
   "status": "proved",
   "theorems": [
    "RayOpt.Sys.Live.c113_current",
    "RayOpt.Sys.Live.c113_stop",
    "RayOpt.Sys.Live.c113_image",
    "RayOpt.Sys.Live.c113_again",
    "RayOpt.Sys.Live.c113_idempotent",
    "RayOpt.Sys.Live.c113_cache",
    "RayOpt.Sys.Live.c113_negative_stop",
    "RayOpt.Sys.Live.c113_last_stop_violation",
    "RayOpt.Sys.Live.c113_lag_violation",
    "RayOpt.Sys.Live.c113_cache_violation"
   ],
   "note": "pickups and solves are arbitrary functions on the state (they run user code), validators an arbitrary predicate; the rest of update is the modelled code. Non-finite quantities that are used are none. Guards: idempotence needs pickups and solves that depend on the elements only, the cache needs pickups and solves that do not aim, a negative stop number must not be -1; the three violations show the need."
  },
  {
   "property": "C114",
   "status": "proved",
   "theorems": [
    "RayOpt.Shape.c114_derivative",
    "RayOpt.Shape.c114_residual",
    "RayOpt.Shape.c114_converges",
    "RayOpt.Shape.c114_steps_violation",
    "RayOpt.Shape.c114_start_violation",
    "RayOpt.Shape.c114_alternate_violation"
   ],
   "note": "scipy's newton with fprime is modelled by its documented algorithm for this claim (elsewhere it is an arbitrary function); exact reals. The convergence theorem is a guarded one; the three violations show rays that cross the surface and are lost outside of the guard."
  },
  {
   "property": "C115",
   "status": "proved",
   "theorems": [
    "RayOpt.Poly.c115_rows",
    "RayOpt.Poly.c115_restart_violation",
    "RayOpt.Poly.c115_terms",
    "RayOpt.Poly.c115_names",
    "RayOpt.Poly.c115_twice_violation",
    "RayOpt.Poly.c115_trace",
    "RayOpt.Poly.c115_trace_errors",
    "RayOpt.Poly.c115_all_elements",
    "RayOpt.Poly.c115_fresh",
    "RayOpt.Poly.c115_stale_violation"
   ],
   "note": "c115_rows, c115_fresh, c115_terms, c115_names, c115_trace, c115_all_elements, c115_trace_errors; violations c115_restart_violation, c115_stale_violation, c115_twice_violation. Rounding to the printed digits and padding are left out, start is at least one; c115_fresh and c115_stale_violation up to order 13 as C71"
  },
  {
   "property": "C116",
   "status": "proved",
   "theorems": [
    "RayOpt.CompiledAxis.c116_norm",
    "RayOpt.CompiledAxis.c116_refused",
    "RayOpt.CompiledAxis.c116_overrun_violation",
    "RayOpt.CompiledAxis.c116_larger_violation",
    "RayOpt.CompiledAxis.c116_empty_violation",
    "RayOpt.CompiledAxis.c116_unit",
    "RayOpt.PyAxis.c116_norm_python",
    "RayOpt.PyAxis.c116_python_out",
    "RayOpt.PyAxis.c116_unit_python",
    "RayOpt.PyAxis.c116_vector_violation",
    "RayOpt.PyAxis.c116_ignored_violation",
    "RayOpt.PyAxis.c116_python_refused",
    "RayOpt.PyAxis.c116_python_all"
   ],
   "note": "memory as a map from addresses to numbers or NaN; arrays as address, shape and strides in doubles; numpy's IterNew and IterAllButAxis by the order of their indices; that an array without entries has no step in IterAllButAxis is numpy's source, not this project's"
  },
  {
   "property": "C117",
   "status": "proved",
   "theorems": [
    "RayOpt.c117_real",
    "RayOpt.c117_paraxial",
    "RayOpt.c117_gaussian",
    "RayOpt.c117_roll_violation",
    "RayOpt.c117_same_index",
    "RayOpt.c117_same_matrix",
    "RayOpt.c117_same_trace",
    "RayOpt.c117_turned_violation"
   ],
   "note": "The surface behind the gap is a plane or conic in the trace of real rays; the dummy surface has any shape the ray meets. Directions of the two elements agree, tilts are arbitrary in the real trace; in the paraxial and Gaussian traces the dummy surface is not rolled. Violation for a rolled one. c117_same_index, c117_same_matrix, c117_same_trace, c117_turned_violation: surfaces between media of the same index."
  },
  {
   "property": "C118",
   "status": "proved",
   "theorems": [
    "RayOpt.c118_centre",
    "RayOpt.c118_centre_mirror",
    "RayOpt.c118_monocentric",
    "RayOpt.c118_collimated",
    "RayOpt.c118_point",
    "RayOpt.c118_mirror",
    "RayOpt.c118_paraboloid",
    "RayOpt.c118_paraboloid_violation",
    "RayOpt.c118_aplanatic"
   ],
   "note": "In the coordinates of the element (C10 takes them to those of the system), for intersections on the sheet of the vertex; refraction with the default root, mirrors with either. The light from infinity on a paraboloid is a violation, as C07 has for one ray."
  },
  {
   "property": "C119",
   "status": "proved",
   "theorems": [
    "RayOpt.c119_incidence",
    "RayOpt.c119_plates",
    "RayOpt.c119_paraxial"
   ],
   "note": "Planes without mirrors, with positive indices and a common normal, which may be inclined to the axis and rolled; the ray runs along the normal. Paraxial part for planes that are not tilted."
  },
  {
   "property": "C120",
   "status": "proved",
   "theorems": [
    "RayOpt.c120_handed",
    "RayOpt.c120_mirrors",
    "RayOpt.c120_image",
    "RayOpt.c120_corner",
    "RayOpt.c120_pair"
   ],
   "note": "Plane mirrors anywhere and at any tilt, taken in the order of the system; whether the path between two of them runs forward is not asked, as in the code. A ray lost by clipping has no direction."
  },
  {
   "property": "C121",
   "status": "proved",
   "theorems": [
    "RayOpt.c121_complete",
    "RayOpt.c121_fails",
    "RayOpt.c121_twice",
    "RayOpt.c121_sinarctan",
    "RayOpt.c121_backward_violation"
   ],
   "note": "normalize_z for one vector at a time; the function is exported but not called inside rayopt. Backward directions are turned forward (c121_backward_violation)."
  }
 ]
}
