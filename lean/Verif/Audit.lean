import Verif.Props.Aberration
import Verif.Props.Affine
import Verif.Props.Aim
import Verif.Props.Aiming
import Verif.Props.Align
import Verif.Props.AlignAxis
import Verif.Props.Analysis
import Verif.Props.Angles
import Verif.Props.Arcball
import Verif.Props.ArcballDrag
import Verif.Props.Asphere
import Verif.Props.Backwards
import Verif.Props.BackwardsTilted
import Verif.Props.Beam
import Verif.Props.Cache
import Verif.Props.CacheAny
import Verif.Props.Centre
import Verif.Props.Coddington
import Verif.Props.Compiled
import Verif.Props.CompiledAxis
import Verif.Props.CompiledEigen
import Verif.Props.CompiledInverse
import Verif.Props.CompiledMod
import Verif.Props.CompiledQuat
import Verif.Props.CompiledSuper
import Verif.Props.CompiledVector
import Verif.Props.Convex
import Verif.Props.Decompose
import Verif.Props.Describe
import Verif.Props.DiscQuadrature
import Verif.Props.Dummy
import Verif.Props.Eigenrays
import Verif.Props.Entry
import Verif.Props.Etendue
import Verif.Props.Euler
import Verif.Props.Figures
import Verif.Props.FiniteObject
import Verif.Props.FirstOrder
import Verif.Props.FirstOrderExamples
import Verif.Props.FromMatrix
import Verif.Props.FromProjection
import Verif.Props.FromRotation
import Verif.Props.FromScale
import Verif.Props.Gaussian
import Verif.Props.GaussianAxes
import Verif.Props.GaussianModes
import Verif.Props.GaussianTable
import Verif.Props.GlassFile
import Verif.Props.Homog
import Verif.Props.Legendre
import Verif.Props.LensGuide
import Verif.Props.Library
import Verif.Props.Limit
import Verif.Props.LimitNewton
import Verif.Props.LimitSystem
import Verif.Props.Malus
import Verif.Props.MatDict
import Verif.Props.Material
import Verif.Props.MirrorImage
import Verif.Props.Mirrors
import Verif.Props.Monocentric
import Verif.Props.Mtf
import Verif.Props.NormalizeZ
import Verif.Props.OldSolve
import Verif.Props.Optimize
import Verif.Props.Outline
import Verif.Props.Paraxial
import Verif.Props.Parse
import Verif.Props.ParseArray
import Verif.Props.ParseHeader
import Verif.Props.ParseOslo
import Verif.Props.Paths
import Verif.Props.Placement
import Verif.Props.PlateShift
import Verif.Props.Plates
import Verif.Props.Plot
import Verif.Props.PolyEval
import Verif.Props.PolyNewton
import Verif.Props.PolyPrint
import Verif.Props.PolySeidel
import Verif.Props.PolyTaylor
import Verif.Props.PolyTrace
import Verif.Props.Psf
import Verif.Props.PyAxis
import Verif.Props.Quadrature
import Verif.Props.Quat
import Verif.Props.Refraction
import Verif.Props.Resolution
import Verif.Props.Resonator
import Verif.Props.Reverse
import Verif.Props.SameMedium
import Verif.Props.Sampling
import Verif.Props.Seidel
import Verif.Props.SeidelExamples
import Verif.Props.SeidelForms
import Verif.Props.Serial
import Verif.Props.Simplex
import Verif.Props.SimplexTransform
import Verif.Props.Smooth
import Verif.Props.Solve
import Verif.Props.Spot
import Verif.Props.Startup
import Verif.Props.Stigmatic
import Verif.Props.StopSize
import Verif.Props.Sums
import Verif.Props.Superimpose
import Verif.Props.Surface
import Verif.Props.Symmetry
import Verif.Props.System
import Verif.Props.Tables
import Verif.Props.Trace
import Verif.Props.TraceLaws
import Verif.Props.Update
import Verif.Props.Wavefront
import Verif.Props.Zmf

/-! Axioms of every claimed theorem (generated by tools/gen.py). -/

#print axioms RayOpt.Spot.c93_opd
#print axioms RayOpt.c97_affine
#print axioms RayOpt.c97_affine_violation
#print axioms RayOpt.c75_chief_off
#print axioms RayOpt.c75_chief
#print axioms RayOpt.c75_marginal
#print axioms RayOpt.c75_marginal_explicit
#print axioms RayOpt.c75_rim
#print axioms RayOpt.c75_marginal_sign
#print axioms RayOpt.c75_rims_sign
#print axioms RayOpt.c75_start
#print axioms RayOpt.c75_pupil
#print axioms RayOpt.c75_violated_stop
#print axioms RayOpt.Finite.c37_object
#print axioms RayOpt.Finite.c37_chief
#print axioms RayOpt.Finite.c37_aim
#print axioms RayOpt.Finite.c37_defined
#print axioms RayOpt.Finite.c37_edge
#print axioms RayOpt.Finite.c37_disc
#print axioms RayOpt.Finite.c37_angle
#print axioms RayOpt.Finite.c37_virtual_violation
#print axioms RayOpt.Finite.c37_plane_violation
#print axioms RayOpt.Finite.c37_axis
#print axioms RayOpt.Infinite.c38_unit
#print axioms RayOpt.Infinite.c38_projection
#print axioms RayOpt.Infinite.c38_angle
#print axioms RayOpt.Infinite.c38_aim
#print axioms RayOpt.Infinite.c38_equidistant_violation
#print axioms RayOpt.Infinite.c38_orthographic_violation
#print axioms RayOpt.c68_excidence_refract
#print axioms RayOpt.c68_excidence_snell
#print axioms RayOpt.c68_place
#print axioms RayOpt.c68_align
#print axioms RayOpt.c68_mirror
#print axioms RayOpt.c68_mirror_violation
#print axioms RayOpt.c68_object_violation
#print axioms RayOpt.c68_attainable
#print axioms RayOpt.c68_axis
#print axioms RayOpt.Analysis.c101_unknown
#print axioms RayOpt.Analysis.c101_figures
#print axioms RayOpt.Analysis.c101_cells
#print axioms RayOpt.Analysis.c101_drawn
#print axioms RayOpt.Analysis.c101_wavelength_violation
#print axioms RayOpt.Analysis.c101_opd_cells
#print axioms RayOpt.Analysis.c101_norun
#print axioms RayOpt.Analysis.c101_run_violation
#print axioms RayOpt.Analysis.c101_paraxial_text
#print axioms RayOpt.Analysis.c101_stale_violation
#print axioms RayOpt.Analysis.c101_unused
#print axioms RayOpt.c34_meaning
#print axioms RayOpt.c34_inverse
#print axioms RayOpt.c34_inverse_rows
#print axioms RayOpt.c34_unit
#print axioms RayOpt.c34_forward
#print axioms RayOpt.c34_backward_violation
#print axioms RayOpt.c34_three_columns_violation
#print axioms RayOpt.c35_frame
#print axioms RayOpt.c35_zero_violation
#print axioms RayOpt.Pupil.c39_radius
#print axioms RayOpt.Pupil.c39_settable
#print axioms RayOpt.Pupil.c39_consistent
#print axioms RayOpt.Pupil.c39_update
#print axioms RayOpt.Pupil.c39_update_off
#print axioms RayOpt.Pupil.c39_rescale
#print axioms RayOpt.c95_sphere
#print axioms RayOpt.c95_constrain
#print axioms RayOpt.c95_nearest
#print axioms RayOpt.c95_orientation
#print axioms RayOpt.c95_drag
#print axioms RayOpt.c95_constrained
#print axioms RayOpt.c95_path
#print axioms RayOpt.c95_strokes
#print axioms RayOpt.c95_next
#print axioms RayOpt.c95_next_violation
#print axioms RayOpt.c95_axes_violation
#print axioms RayOpt.c95_away_violation
#print axioms RayOpt.c95_down
#print axioms RayOpt.Shape.c114_derivative
#print axioms RayOpt.Shape.c114_residual
#print axioms RayOpt.Shape.c114_converges
#print axioms RayOpt.Shape.c114_steps_violation
#print axioms RayOpt.Shape.c114_start_violation
#print axioms RayOpt.Shape.c114_alternate_violation
#print axioms RayOpt.c112_backwards
#print axioms RayOpt.c112_path
#print axioms RayOpt.c112_mirror_violation
#print axioms RayOpt.c22_conjugates
#print axioms RayOpt.c22_stop
#print axioms RayOpt.c22_stop_middle
#print axioms RayOpt.c22_stop_violation
#print axioms RayOpt.c112_tilted
#print axioms RayOpt.c22_places
#print axioms RayOpt.c22_bend_violation
#print axioms RayOpt.c91_moments
#print axioms RayOpt.c91_spot
#print axioms RayOpt.c91_default
#print axioms RayOpt.c91_confined
#print axioms RayOpt.c91_diverging
#print axioms RayOpt.c91_stigmatic
#print axioms RayOpt.c91_trace
#print axioms RayOpt.c91_stigmatic_violation
#print axioms RayOpt.Cache.c74_pure
#print axioms RayOpt.Cache.c74_stale
#print axioms RayOpt.Cache.c74_abbe
#print axioms RayOpt.Cache.c32_once
#print axioms RayOpt.Cache.c32_clear
#print axioms RayOpt.Cache.c32_kwargs
#print axioms RayOpt.Cache.c32_keys
#print axioms RayOpt.Cache.c33_exact
#print axioms RayOpt.Cache.c33_segment
#print axioms RayOpt.Cache.c33_affine
#print axioms RayOpt.Cache.c33_azimuth
#print axioms RayOpt.Cache.c33_available
#print axioms RayOpt.Cache.Any.c32_any_once
#print axioms RayOpt.Cache.Any.c32_base_violation
#print axioms RayOpt.Cache.Any.c32_nearest
#print axioms RayOpt.Cache.Any.c32_linear
#print axioms RayOpt.c118_centre
#print axioms RayOpt.c118_centre_mirror
#print axioms RayOpt.c104_conic
#print axioms RayOpt.c104_asphere
#print axioms RayOpt.c104_focus
#print axioms RayOpt.c104_transfer
#print axioms RayOpt.c104_point
#print axioms RayOpt.c104_surface
#print axioms RayOpt.c104_dummy
#print axioms RayOpt.c104_system
#print axioms RayOpt.c104_drawn
#print axioms RayOpt.c104_astigmatism
#print axioms RayOpt.c104_flat
#print axioms RayOpt.Compiled.c106_rotation
#print axioms RayOpt.Compiled.c106_reflection
#print axioms RayOpt.Compiled.c106_translation
#print axioms RayOpt.Compiled.c106_projection
#print axioms RayOpt.Compiled.c106_clip
#print axioms RayOpt.Compiled.c106_shear
#print axioms RayOpt.Compiled.c106_scaling
#print axioms RayOpt.Compiled.c106_scaling_violation
#print axioms RayOpt.Compiled.c106_cell
#print axioms RayOpt.Compiled.c106_same
#print axioms RayOpt.Compiled.c106_euler
#print axioms RayOpt.Compiled.c106_euler_from
#print axioms RayOpt.Compiled.c106_axes
#print axioms RayOpt.Compiled.c106_axes_only
#print axioms RayOpt.Compiled.c106_axes_reversed_violation
#print axioms RayOpt.Compiled.c106_axes_violation
#print axioms RayOpt.Compiled.c106_update
#print axioms RayOpt.Compiled.c106_align
#print axioms RayOpt.CompiledAxis.c116_norm
#print axioms RayOpt.CompiledAxis.c116_refused
#print axioms RayOpt.CompiledAxis.c116_overrun_violation
#print axioms RayOpt.CompiledAxis.c116_larger_violation
#print axioms RayOpt.CompiledAxis.c116_empty_violation
#print axioms RayOpt.CompiledAxis.c116_unit
#print axioms RayOpt.Compiled.c109_tridiagonal
#print axioms RayOpt.Compiled.c109_terminates
#print axioms RayOpt.Compiled.c109_largest
#print axioms RayOpt.Compiled.c109_eigenvalue
#print axioms RayOpt.Compiled.c108_four
#print axioms RayOpt.Compiled.c108_inverse
#print axioms RayOpt.Compiled.c108_infinite
#print axioms RayOpt.Compiled.c108_refused
#print axioms RayOpt.Compiled.c108_returns
#print axioms RayOpt.Compiled.c108_infinite_violation
#print axioms RayOpt.Compiled.c108_small_violation
#print axioms RayOpt.Compiled.c108_memory
#print axioms RayOpt.Compiled.c108_memory_violation
#print axioms RayOpt.Compiled.c110_sphere
#print axioms RayOpt.Compiled.c110_constrain
#print axioms RayOpt.Compiled.c110_constrain_violation
#print axioms RayOpt.Compiled.c110_norm
#print axioms RayOpt.Compiled.c110_output
#print axioms RayOpt.Compiled.c110_output_violation
#print axioms RayOpt.Compiled.c110_import
#print axioms RayOpt.Compiled.c110_warnings
#print axioms RayOpt.Compiled.c110_missing
#print axioms RayOpt.Compiled.c110_names
#print axioms RayOpt.Compiled.c107_same
#print axioms RayOpt.Compiled.c107_inverse
#print axioms RayOpt.Compiled.c107_matrix
#print axioms RayOpt.Compiled.c107_unit
#print axioms RayOpt.Compiled.c107_matrix_short
#print axioms RayOpt.Compiled.c107_matrix_violation
#print axioms RayOpt.Compiled.c107_short_violation
#print axioms RayOpt.Compiled.c107_precise
#print axioms RayOpt.Compiled.c107_precise_violation
#print axioms RayOpt.Compiled.c107_precise_fatal
#print axioms RayOpt.Compiled.c107_slerp
#print axioms RayOpt.Compiled.c107_slerp_violation
#print axioms RayOpt.Compiled.c107_doubles
#print axioms RayOpt.Compiled.c107_random
#print axioms RayOpt.Compiled.c111_motion
#print axioms RayOpt.Compiled.c111_near
#print axioms RayOpt.Compiled.c111_collinear_violation
#print axioms RayOpt.Compiled.c111_large_violation
#print axioms RayOpt.Compiled.c111_small_violation
#print axioms RayOpt.Compiled.c111_coincident_violation
#print axioms RayOpt.Compiled.c111_nan
#print axioms RayOpt.Compiled.c109_vector_fails
#print axioms RayOpt.Compiled.c109_vector
#print axioms RayOpt.Compiled.c109_determinant
#print axioms RayOpt.Compiled.c109_quaternion
#print axioms RayOpt.Compiled.c109_eigenvalue_violation
#print axioms RayOpt.Compiled.c109_quaternion_violation
#print axioms RayOpt.c86_grow
#print axioms RayOpt.c86_back
#print axioms RayOpt.c86_front
#print axioms RayOpt.c86_cement_violation
#print axioms RayOpt.c86_stop_violation
#print axioms RayOpt.c86_rim_violation
#print axioms RayOpt.c96_raises
#print axioms RayOpt.c96_compose_decompose
#print axioms RayOpt.c96_decompose_compose
#print axioms RayOpt.c96_single
#print axioms RayOpt.c96_perspective_violation
#print axioms RayOpt.Serial.c102_pupil_text
#print axioms RayOpt.Serial.c102_conj_text
#print axioms RayOpt.Serial.c102_head_text
#print axioms RayOpt.Serial.c102_pupil_lines
#print axioms RayOpt.Serial.c102_conj_lines
#print axioms RayOpt.Serial.c102_head_lines
#print axioms RayOpt.Serial.c102_dict_violation
#print axioms RayOpt.Quadrature.c105_radau_disc
#print axioms RayOpt.Quadrature.c105_lobatto_disc
#print axioms RayOpt.Quadrature.c105_assert
#print axioms RayOpt.Quadrature.c105_half_violation
#print axioms RayOpt.c117_real
#print axioms RayOpt.c117_paraxial
#print axioms RayOpt.c117_gaussian
#print axioms RayOpt.c117_roll_violation
#print axioms RayOpt.c18_eigenray
#print axioms RayOpt.c18_eigen_pairs
#print axioms RayOpt.Entry.c88_given
#print axioms RayOpt.Entry.c88_columns
#print axioms RayOpt.Entry.c88_stale_violation
#print axioms RayOpt.Entry.c88_paraxial
#print axioms RayOpt.Entry.c88_paraxial_violation
#print axioms RayOpt.Entry.c88_point
#print axioms RayOpt.Entry.c88_filter_violation
#print axioms RayOpt.Entry.c88_clipping
#print axioms RayOpt.Entry.c88_clipping_run
#print axioms RayOpt.Entry.c88_clipping_violation
#print axioms RayOpt.Entry.c88_line
#print axioms RayOpt.c103_skew
#print axioms RayOpt.c103_meridional
#print axioms RayOpt.c103_etendue
#print axioms RayOpt.c103_cosine
#print axioms RayOpt.c103_sine
#print axioms RayOpt.c103_coma
#print axioms RayOpt.c57_axes_table
#print axioms RayOpt.c57_euler_axes
#print axioms RayOpt.c57_euler_quaternion
#print axioms RayOpt.c57_euler_agree
#print axioms RayOpt.c57_euler_inverse
#print axioms RayOpt.c57_euler_near_violation
#print axioms RayOpt.Figures.c89_fan
#print axioms RayOpt.Figures.c89_curved_violation
#print axioms RayOpt.Figures.c89_tee
#print axioms RayOpt.Figures.c89_fans
#print axioms RayOpt.Figures.c89_spot
#print axioms RayOpt.Figures.c89_defocus
#print axioms RayOpt.Figures.c89_split
#print axioms RayOpt.Figures.c89_tangential
#print axioms RayOpt.Figures.c89_sagittal
#print axioms RayOpt.Figures.c89_defined
#print axioms RayOpt.Figures.c89_spherical
#print axioms RayOpt.Figures.c89_axial
#print axioms RayOpt.Figures.c89_lateral
#print axioms RayOpt.Figures.c89_distortion
#print axioms RayOpt.Figures.c89_upright_violation
#print axioms RayOpt.Simplex.c59_finite_object
#print axioms RayOpt.Simplex.c59_finite_object_value
#print axioms RayOpt.Simplex.c59_finite_object_transform
#print axioms RayOpt.c40_focal_points
#print axioms RayOpt.c40_focal_length
#print axioms RayOpt.c40_focal_length_media
#print axioms RayOpt.c40_focal_points_media
#print axioms RayOpt.c40_principal
#print axioms RayOpt.c40_nodal
#print axioms RayOpt.c40_rays_exist
#print axioms RayOpt.c41_refocus
#print axioms RayOpt.c41_virtual_violation
#print axioms RayOpt.c40_magnification
#print axioms RayOpt.c40_pupils
#print axioms RayOpt.c40_pupil_height
#print axioms RayOpt.c42_entrance
#print axioms RayOpt.c42_exit
#print axioms RayOpt.c42_field
#print axioms RayOpt.c42_stop
#print axioms RayOpt.c42_wideangle_violation
#print axioms RayOpt.c40_immersed_violation
#print axioms RayOpt.c66_focal_length_solve
#print axioms RayOpt.c66_resize
#print axioms RayOpt.c98_reflection
#print axioms RayOpt.c98_parallel
#print axioms RayOpt.c98_orthogonal
#print axioms RayOpt.c98_perspective
#print axioms RayOpt.c98_pseudo
#print axioms RayOpt.c98_unit_distance_violation
#print axioms RayOpt.c98_origin_violation
#print axioms RayOpt.c98_pseudo_violation
#print axioms RayOpt.c98_rotation
#print axioms RayOpt.c98_rotation_violation
#print axioms RayOpt.c98_scale
#print axioms RayOpt.c98_scale_direction
#print axioms RayOpt.c98_scale_violation
#print axioms RayOpt.c98_shear
#print axioms RayOpt.c98_shear_zero_violation
#print axioms RayOpt.c98_shear_index_violation
#print axioms RayOpt.c43_compose
#print axioms RayOpt.c43_physical
#print axioms RayOpt.c43_physical_system
#print axioms RayOpt.c43_make
#print axioms RayOpt.c43_spot
#print axioms RayOpt.c82_angle
#print axioms RayOpt.c82_turned_violation
#print axioms RayOpt.c82_normal
#print axioms RayOpt.c82_spot
#print axioms RayOpt.c82_spot_normal
#print axioms RayOpt.c82_curvature
#print axioms RayOpt.c82_diverging
#print axioms RayOpt.c82_make
#print axioms RayOpt.c82_resize
#print axioms RayOpt.c82_resize_violation
#print axioms RayOpt.c62_eigenvalues
#print axioms RayOpt.c62_unit_circle
#print axioms RayOpt.c61_between
#print axioms RayOpt.c61_physical
#print axioms RayOpt.c61_first
#print axioms RayOpt.c61_at_element_violation
#print axioms RayOpt.c62_proper
#print axioms RayOpt.c62_eigenmode
#print axioms RayOpt.c62_stable
#print axioms RayOpt.c63_refocus
#print axioms RayOpt.c63_negative_violation
#print axioms RayOpt.Tables.c102_gaussian
#print axioms RayOpt.Tables.c102_gaussian_violation
#print axioms RayOpt.GlassFile.c81_agf_read
#print axioms RayOpt.GlassFile.c81_agf_conserved
#print axioms RayOpt.GlassFile.c81_agf_total
#print axioms RayOpt.GlassFile.c81_agf_material
#print axioms RayOpt.GlassFile.c81_agf_formula
#print axioms RayOpt.GlassFile.c81_ld_violation
#print axioms RayOpt.GlassFile.c81_ld_example
#print axioms RayOpt.GlassFile.c81_od_violation
#print axioms RayOpt.GlassFile.c81_agf_thermal
#print axioms RayOpt.GlassFile.c81_agf_material_total
#print axioms RayOpt.GlassFile.c81_agf_entry
#print axioms RayOpt.GlassFile.c81_glc_read
#print axioms RayOpt.GlassFile.c81_glc_total
#print axioms RayOpt.GlassFile.c81_glc_material
#print axioms RayOpt.GlassFile.c81_codev_formula
#print axioms RayOpt.GlassFile.c81_codev
#print axioms RayOpt.GlassFile.c81_codev_violation
#print axioms RayOpt.GlassFile.c81_rii
#print axioms RayOpt.c94_compose
#print axioms RayOpt.c94_concat
#print axioms RayOpt.c94_translation
#print axioms RayOpt.c94_reflection
#print axioms RayOpt.c94_rotation
#print axioms RayOpt.c94_scaling
#print axioms RayOpt.c94_projection
#print axioms RayOpt.c94_parallel
#print axioms RayOpt.c94_perspective
#print axioms RayOpt.c94_pseudo
#print axioms RayOpt.c94_clip_box
#print axioms RayOpt.c94_clip_refused
#print axioms RayOpt.c94_clip_frustum
#print axioms RayOpt.c94_shear
#print axioms RayOpt.c94_shear_violation
#print axioms RayOpt.c94_cell
#print axioms RayOpt.c94_angle
#print axioms RayOpt.c94_same
#print axioms RayOpt.c94_same_violation
#print axioms RayOpt.c62_guide
#print axioms RayOpt.Library.c55_parser_unique
#print axioms RayOpt.Library.c55_parser
#print axioms RayOpt.Library.c55_extensions
#print axioms RayOpt.Library.c55_clean
#print axioms RayOpt.Library.c55_failed
#print axioms RayOpt.Library.c55_success
#print axioms RayOpt.Library.c55_crash
#print axioms RayOpt.Library.c55_other_files
#print axioms RayOpt.Library.c55_one_catalogue
#print axioms RayOpt.Library.c55_reload
#print axioms RayOpt.Library.c55_refresh
#print axioms RayOpt.Library.c55_refresh_unchanged
#print axioms RayOpt.Library.c55_same_size_violation
#print axioms RayOpt.Library.c55_oslo_violation
#print axioms RayOpt.Library.c55_shelves_violation
#print axioms RayOpt.Library.c55_source
#print axioms RayOpt.Library.c55_load_all
#print axioms RayOpt.Library.c55_get_all
#print axioms RayOpt.Library.c55_get
#print axioms RayOpt.Library.c55_loaded_found
#print axioms RayOpt.Library.c55_parse_once
#print axioms RayOpt.c19_refract
#print axioms RayOpt.c19_mirror
#print axioms RayOpt.c19_dummy
#print axioms RayOpt.c19_newton
#print axioms RayOpt.c19_newton_element
#print axioms RayOpt.c67_newton_element
#print axioms RayOpt.c19_system
#print axioms RayOpt.c19_violated_immersed_mirror
#print axioms RayOpt.c19_tilted
#print axioms RayOpt.c19_tilted_mirror
#print axioms RayOpt.c21_system
#print axioms RayOpt.c93_step
#print axioms RayOpt.c93_path
#print axioms RayOpt.c93_malus
#print axioms RayOpt.c93_fermat
#print axioms RayOpt.c93_symplectic
#print axioms RayOpt.MatDict.c99_round_trip
#print axioms RayOpt.MatDict.c99_injective
#print axioms RayOpt.MatDict.c99_model_as_abbe
#print axioms RayOpt.MatDict.c99_thermal_violation
#print axioms RayOpt.MatDict.c99_default
#print axioms RayOpt.MatDict.c99_basic
#print axioms RayOpt.MatDict.c99_empty_violation
#print axioms RayOpt.Glass.c51_definition
#print axioms RayOpt.Glass.c51_default
#print axioms RayOpt.Glass.c51_other_lines
#print axioms RayOpt.Glass.c51_normal
#print axioms RayOpt.Glass.c72_formula
#print axioms RayOpt.Glass.c72_default_wavelength
#print axioms RayOpt.Glass.c72_agf_swapped
#print axioms RayOpt.Glass.c52_sellmeier
#print axioms RayOpt.Glass.c52_rii
#print axioms RayOpt.Glass.c52_rii_8
#print axioms RayOpt.Glass.c52_rii_6
#print axioms RayOpt.Glass.c52_series
#print axioms RayOpt.Glass.c52_equivalent
#print axioms RayOpt.Glass.c52_padding
#print axioms RayOpt.Glass.c52_agf
#print axioms RayOpt.Glass.c52_catalogues
#print axioms RayOpt.Glass.c52_air
#print axioms RayOpt.c120_handed
#print axioms RayOpt.c120_mirrors
#print axioms RayOpt.c120_image
#print axioms RayOpt.c120_corner
#print axioms RayOpt.c120_pair
#print axioms RayOpt.c118_monocentric
#print axioms RayOpt.Psf.c87_autocorrelation
#print axioms RayOpt.Psf.c87_limit
#print axioms RayOpt.Psf.c87_one
#print axioms RayOpt.Psf.c87_perfect
#print axioms RayOpt.Psf.c87_centre
#print axioms RayOpt.Psf.c87_encircled
#print axioms RayOpt.Psf.c87_radius_violation
#print axioms RayOpt.c121_complete
#print axioms RayOpt.c121_fails
#print axioms RayOpt.c121_twice
#print axioms RayOpt.c121_sinarctan
#print axioms RayOpt.c121_backward_violation
#print axioms RayOpt.c66_old_solve
#print axioms RayOpt.c66_old_solve_violation
#print axioms RayOpt.Optimize.c56_feasible
#print axioms RayOpt.Optimize.c56_bounds
#print axioms RayOpt.Optimize.c56_equality_violation
#print axioms RayOpt.Optimize.c56_defined
#print axioms RayOpt.Optimize.c56_objective
#print axioms RayOpt.Optimize.c56_objective_zero
#print axioms RayOpt.Optimize.c56_variable_bounds
#print axioms RayOpt.Optimize.c56_negative_scale_violation
#print axioms RayOpt.Optimize.c56_scale
#print axioms RayOpt.Optimize.c56_reject
#print axioms RayOpt.Optimize.c56_accept
#print axioms RayOpt.Optimize.c56_values
#print axioms RayOpt.Optimize.c56_run
#print axioms RayOpt.Optimize.c56_stale_violation
#print axioms RayOpt.c86_cut_flat
#print axioms RayOpt.c86_cut
#print axioms RayOpt.c86_closed
#print axioms RayOpt.c86_drawn
#print axioms RayOpt.c86_glass
#print axioms RayOpt.c86_sound
#print axioms RayOpt.c13_paraxial_split
#print axioms RayOpt.c13_gaussian_split
#print axioms RayOpt.c13_paraxial_count
#print axioms RayOpt.c17_defined
#print axioms RayOpt.c17_action
#print axioms RayOpt.c17_split
#print axioms RayOpt.c20_closest
#print axioms RayOpt.c20_prefix
#print axioms RayOpt.c20_paraxial
#print axioms RayOpt.c20_start_zero
#print axioms RayOpt.c18_symplectic
#print axioms RayOpt.c18_invariant
#print axioms RayOpt.c18_roll_det
#print axioms RayOpt.c21_geometric
#print axioms RayOpt.c21_agree
#print axioms RayOpt.c21_violation
#print axioms RayOpt.Parse.c60_zmx
#print axioms RayOpt.Parse.c60_zmx_extra_violation
#print axioms RayOpt.Parse.c60_zmx_first
#print axioms RayOpt.Parse.c60_zmx_stop_violation
#print axioms RayOpt.Parse.c60_zmx_total
#print axioms RayOpt.Parse.c60_words
#print axioms RayOpt.Parse.c60_zmx_line
#print axioms RayOpt.Parse.c60_zmx_text
#print axioms RayOpt.Parse.c60_zmx_file
#print axioms RayOpt.Parse.c60_zmx_glass_violation
#print axioms RayOpt.Parse.c60_array
#print axioms RayOpt.Parse.c60_array_plain
#print axioms RayOpt.Parse.c60_array_stop
#print axioms RayOpt.Parse.c60_text_rows
#print axioms RayOpt.Parse.c60_text_table
#print axioms RayOpt.Parse.c60_text
#print axioms RayOpt.Parse.c60_text_shape
#print axioms RayOpt.Parse.c60_array_radius_violation
#print axioms RayOpt.Parse.c60_array_columns
#print axioms RayOpt.Parse.c60_zmx_header
#print axioms RayOpt.Parse.c60_len_header
#print axioms RayOpt.Parse.c60_olc
#print axioms RayOpt.Parse.c60_olc_first
#print axioms RayOpt.Parse.c60_olc_count
#print axioms RayOpt.Parse.c60_olc_unbound_violation
#print axioms RayOpt.Parse.c60_olc_stop_violation
#print axioms RayOpt.Parse.c60_olc_text
#print axioms RayOpt.Parse.c60_len
#print axioms RayOpt.Parse.c60_len_first
#print axioms RayOpt.Parse.c60_len_count
#print axioms RayOpt.Parse.c60_len_total
#print axioms RayOpt.Parse.c60_len_text
#print axioms RayOpt.Parse.c60_len_far_violation
#print axioms RayOpt.Parse.c60_len_plane_violation
#print axioms RayOpt.Paths.c27_value
#print axioms RayOpt.Paths.c27_plain
#print axioms RayOpt.Paths.c27_frame
#print axioms RayOpt.Paths.c27_twice
#print axioms RayOpt.Paths.c27_self_source
#print axioms RayOpt.Paths.c27_negative_index
#print axioms RayOpt.Paths.c28_validate
#print axioms RayOpt.Paths.c28_unchanged
#print axioms RayOpt.Paths.c28_fix
#print axioms RayOpt.Paths.c28_fix_unsatisfiable
#print axioms RayOpt.Paths.c28_fix_function
#print axioms RayOpt.Paths.c76_no_trace
#print axioms RayOpt.Paths.c76_frame
#print axioms RayOpt.c10_inverse
#print axioms RayOpt.c10_dot
#print axioms RayOpt.c10_cross
#print axioms RayOpt.c10_normal_eq_axis
#print axioms RayOpt.c11_axis_exact
#print axioms RayOpt.c11_axis
#print axioms RayOpt.c12_invariant
#print axioms RayOpt.c12_offset_readback
#print axioms RayOpt.c12_distance
#print axioms RayOpt.c12_direction
#print axioms RayOpt.c12_angles
#print axioms RayOpt.c12_negative_distance_not_readback
#print axioms RayOpt.c58_rotation
#print axioms RayOpt.c58_rodrigues
#print axioms RayOpt.c58_axis_fixed
#print axioms RayOpt.c58_additive
#print axioms RayOpt.c58_euler
#print axioms RayOpt.c58_euler_meaning
#print axioms RayOpt.c10_normal_angles
#print axioms RayOpt.c119_incidence
#print axioms RayOpt.c119_plates
#print axioms RayOpt.c119_paraxial
#print axioms RayOpt.c92_place
#print axioms RayOpt.c92_from_axis
#print axioms RayOpt.c92_paraxial
#print axioms RayOpt.c92_beam
#print axioms RayOpt.c92_rays
#print axioms RayOpt.c92_paraxial_violation
#print axioms RayOpt.c92_beam_violation
#print axioms RayOpt.Poly.c71_evaluate
#print axioms RayOpt.Poly.c71_conjugates
#print axioms RayOpt.Poly.c71_flag
#print axioms RayOpt.Poly.c71_infinite
#print axioms RayOpt.Poly.c71_angle
#print axioms RayOpt.Poly.c83_newton_element
#print axioms RayOpt.Poly.c115_rows
#print axioms RayOpt.Poly.c115_restart_violation
#print axioms RayOpt.Poly.c115_terms
#print axioms RayOpt.Poly.c115_names
#print axioms RayOpt.Poly.c115_twice_violation
#print axioms RayOpt.Poly.c115_trace
#print axioms RayOpt.Poly.c115_trace_errors
#print axioms RayOpt.Poly.c115_all_elements
#print axioms RayOpt.Poly.c115_fresh
#print axioms RayOpt.Poly.c115_stale_violation
#print axioms RayOpt.Poly.c90_finite
#print axioms RayOpt.Poly.c90_infinite
#print axioms RayOpt.Poly.c90_names
#print axioms RayOpt.Poly.c90_expansion
#print axioms RayOpt.Poly.c90_m9_violation
#print axioms RayOpt.Poly.c90_few
#print axioms RayOpt.Poly.c90_buchdahl_violation
#print axioms RayOpt.Poly.c83_taylor
#print axioms RayOpt.Poly.c83_path
#print axioms RayOpt.Poly.c83_path_violation
#print axioms RayOpt.Poly.c69_sphere
#print axioms RayOpt.Poly.c69_asphere
#print axioms RayOpt.Poly.c69_no_refraction
#print axioms RayOpt.Poly.c69_zero_distance
#print axioms RayOpt.Poly.c69_conic
#print axioms RayOpt.Poly.c69_one_pass
#print axioms RayOpt.Poly.c69_curved_asphere
#print axioms RayOpt.Poly.c70_ray
#print axioms RayOpt.Poly.c70_skew
#print axioms RayOpt.Poly.c70_paraxial
#print axioms RayOpt.Psf.c79_total
#print axioms RayOpt.Psf.c79_piston
#print axioms RayOpt.Psf.c79_strehl
#print axioms RayOpt.PyAxis.c116_norm_python
#print axioms RayOpt.PyAxis.c116_python_out
#print axioms RayOpt.PyAxis.c116_unit_python
#print axioms RayOpt.PyAxis.c116_vector_violation
#print axioms RayOpt.PyAxis.c116_ignored_violation
#print axioms RayOpt.PyAxis.c116_python_refused
#print axioms RayOpt.PyAxis.c116_python_all
#print axioms RayOpt.Quadrature.c105_legendre
#print axioms RayOpt.Quadrature.c105_radau
#print axioms RayOpt.Quadrature.c105_radau_sharp
#print axioms RayOpt.Quadrature.c105_lobatto
#print axioms RayOpt.Quadrature.c105_lobatto_sharp
#print axioms RayOpt.c57_assoc
#print axioms RayOpt.c57_unit
#print axioms RayOpt.c57_relations
#print axioms RayOpt.c57_norm_sq
#print axioms RayOpt.c57_norm
#print axioms RayOpt.c57_inverse
#print axioms RayOpt.c57_conj
#print axioms RayOpt.c57_sandwich
#print axioms RayOpt.c57_matrix_rot
#print axioms RayOpt.c57_matrix_mul
#print axioms RayOpt.c57_matrix_mul_unit
#print axioms RayOpt.c57_matrix_small_violation
#print axioms RayOpt.c57_matrix_kernel
#print axioms RayOpt.c57_rodrigues
#print axioms RayOpt.c57_about_axis
#print axioms RayOpt.c57_from_precise
#print axioms RayOpt.c57_precise_raise_violation
#print axioms RayOpt.c57_precise_junk_violation
#print axioms RayOpt.c57_onto
#print axioms RayOpt.c57_from_matrix
#print axioms RayOpt.c57_matrix_injective
#print axioms RayOpt.c57_slerp_ends
#print axioms RayOpt.c57_slerp
#print axioms RayOpt.c57_slerp_spin_violation
#print axioms RayOpt.c57_random
#print axioms RayOpt.c57_random_onto
#print axioms RayOpt.c57_random_matrix
#print axioms RayOpt.c01_refract_unit
#print axioms RayOpt.c02_snell
#print axioms RayOpt.c02_snell_sine
#print axioms RayOpt.c02_coplanar
#print axioms RayOpt.c02_backward_violation
#print axioms RayOpt.c03_reflect
#print axioms RayOpt.c03_reflect_involution
#print axioms RayOpt.c04_tir
#print axioms RayOpt.c05_reversible
#print axioms RayOpt.c84_na
#print axioms RayOpt.c84_abbe
#print axioms RayOpt.c84_abbe_size
#print axioms RayOpt.c84_fnumber
#print axioms RayOpt.c84_working
#print axioms RayOpt.c84_airy
#print axioms RayOpt.c84_rayleigh
#print axioms RayOpt.c84_rescale_trace
#print axioms RayOpt.c84_rescale_rays
#print axioms RayOpt.c84_rescale_figures
#print axioms RayOpt.c84_points
#print axioms RayOpt.c84_points_violation
#print axioms RayOpt.c84_track
#print axioms RayOpt.c84_na_violation
#print axioms RayOpt.c62_bounded
#print axioms RayOpt.c62_beam
#print axioms RayOpt.c62_beam_escape
#print axioms RayOpt.c62_escape
#print axioms RayOpt.c62_marginal
#print axioms RayOpt.c23_matrix
#print axioms RayOpt.c23_backwards
#print axioms RayOpt.c23_dummy_violation
#print axioms RayOpt.c117_same_index
#print axioms RayOpt.c117_same_matrix
#print axioms RayOpt.c117_same_trace
#print axioms RayOpt.c117_turned_violation
#print axioms RayOpt.Sampling.c36_disc
#print axioms RayOpt.Sampling.c36_reference
#print axioms RayOpt.Sampling.c36_meridional_violation
#print axioms RayOpt.Sampling.c36_cross_violation
#print axioms RayOpt.Sampling.c36_hexapolar
#print axioms RayOpt.Sampling.c36_points
#print axioms RayOpt.Sampling.c36_count
#print axioms RayOpt.Sampling.c36_triangular_violation
#print axioms RayOpt.Sampling.c64_radial
#print axioms RayOpt.Sampling.c64_weights
#print axioms RayOpt.Sampling.c64_count
#print axioms RayOpt.c67_third_order
#print axioms RayOpt.c67_image
#print axioms RayOpt.c67_image_plane
#print axioms RayOpt.c67_transverse
#print axioms RayOpt.c67_transverse_colour
#print axioms RayOpt.c67_stop_shift_trace
#print axioms RayOpt.c67_aplanatic
#print axioms RayOpt.c67_one_coefficient_violation
#print axioms RayOpt.c67_transverse_violation
#print axioms RayOpt.c67_colour_violation
#print axioms RayOpt.c67_textbook
#print axioms RayOpt.c67_stop_shift
#print axioms RayOpt.c67_figure
#print axioms RayOpt.c67_colour
#print axioms RayOpt.Serial.c53_kept
#print axioms RayOpt.Serial.c53_registered
#print axioms RayOpt.Serial.c53_only
#print axioms RayOpt.Serial.c53_conflict
#print axioms RayOpt.Serial.c53_type
#print axioms RayOpt.Serial.c53_inherited_violation
#print axioms RayOpt.Serial.c53_select
#print axioms RayOpt.Serial.c53_default
#print axioms RayOpt.Serial.c53_unknown
#print axioms RayOpt.Serial.c53_import
#print axioms RayOpt.Serial.c53_table
#print axioms RayOpt.Serial.c80_pupil
#print axioms RayOpt.Serial.c80_pupil_nickname_violation
#print axioms RayOpt.Serial.c80_conjugate
#print axioms RayOpt.Serial.c80_update_violation
#print axioms RayOpt.Serial.c53_roundtrip
#print axioms RayOpt.Serial.c53_twice_violation
#print axioms RayOpt.Serial.c73_direct
#print axioms RayOpt.Serial.c73_abbe
#print axioms RayOpt.Serial.c73_basic
#print axioms RayOpt.Serial.c73_basic_table
#print axioms RayOpt.Serial.c73_library
#print axioms RayOpt.Serial.c73_catalog
#print axioms RayOpt.Serial.c73_violation
#print axioms RayOpt.Serial.c80_element
#print axioms RayOpt.Serial.c80_element_exact
#print axioms RayOpt.Serial.c80_element_nickname_violation
#print axioms RayOpt.Serial.c80_element_assert_violation
#print axioms RayOpt.Serial.c80_material
#print axioms RayOpt.Serial.c80_material_basic
#print axioms RayOpt.Serial.c80_material_violation
#print axioms RayOpt.Serial.c80_system
#print axioms RayOpt.Serial.c80_fields_violation
#print axioms RayOpt.Serial.c80_again
#print axioms RayOpt.Serial.c80_straight_violation
#print axioms RayOpt.Serial.c80_element_names
#print axioms RayOpt.Serial.c80_conjugate_names
#print axioms RayOpt.Serial.c80_index
#print axioms RayOpt.Serial.c80_no_pupil
#print axioms RayOpt.Serial.c80_default
#print axioms RayOpt.Simplex.c44_enumeration
#print axioms RayOpt.Simplex.c44_order
#print axioms RayOpt.Simplex.c44_inverse
#print axioms RayOpt.Simplex.c44_wraps
#print axioms RayOpt.Simplex.c44_empty
#print axioms RayOpt.Simplex.c45_product
#print axioms RayOpt.Simplex.c45_three_variables
#print axioms RayOpt.Simplex.c45_ring
#print axioms RayOpt.Simplex.c45_other_dimensions
#print axioms RayOpt.Simplex.c46_series
#print axioms RayOpt.Simplex.c46_add
#print axioms RayOpt.Simplex.c46_natural
#print axioms RayOpt.Simplex.c46_constant_term
#print axioms RayOpt.Simplex.c46_repaired
#print axioms RayOpt.Simplex.c47_eval
#print axioms RayOpt.Simplex.c47_linear
#print axioms RayOpt.Simplex.c47_product
#print axioms RayOpt.Simplex.c47_order_one
#print axioms RayOpt.Simplex.c59_coefficients
#print axioms RayOpt.Simplex.c59_substitution
#print axioms RayOpt.Simplex.c59_evaluation
#print axioms RayOpt.Simplex.c59_order_13
#print axioms RayOpt.Simplex.c59_wraps
#print axioms RayOpt.c93_smooth
#print axioms RayOpt.c30_outcome
#print axioms RayOpt.c30_root
#print axioms RayOpt.c30_positive
#print axioms RayOpt.c30_ideal
#print axioms RayOpt.c30_last_iteration
#print axioms RayOpt.c30_cycle
#print axioms RayOpt.c31_outcome
#print axioms RayOpt.c31_nearest
#print axioms RayOpt.Spot.c48_min
#print axioms RayOpt.Spot.c48_collimated
#print axioms RayOpt.Spot.c48_weighted_violation
#print axioms RayOpt.Spot.c48_missing
#print axioms RayOpt.Spot.c48_refocus
#print axioms RayOpt.Spot.c48_turned_violation
#print axioms RayOpt.Spot.c49_nonneg
#print axioms RayOpt.Spot.c49_value
#print axioms RayOpt.Spot.c49_translate
#print axioms RayOpt.Spot.c49_scale
#print axioms RayOpt.Spot.c49_zero
#print axioms RayOpt.Spot.c49_zero_weight
#print axioms RayOpt.Startup.c100_kept
#print axioms RayOpt.Startup.c100_effect
#print axioms RayOpt.Startup.c100_found
#print axioms RayOpt.Startup.c100_again
#print axioms RayOpt.Startup.c100_place
#print axioms RayOpt.Startup.c100_singleton
#print axioms RayOpt.Startup.c100_opened
#print axioms RayOpt.c118_collimated
#print axioms RayOpt.c118_point
#print axioms RayOpt.c118_mirror
#print axioms RayOpt.c118_paraboloid
#print axioms RayOpt.c118_paraboloid_violation
#print axioms RayOpt.c118_aplanatic
#print axioms RayOpt.c85_object
#print axioms RayOpt.c85_image
#print axioms RayOpt.c85_size
#print axioms RayOpt.c85_image_violation
#print axioms RayOpt.Sums.c50_angle_total
#print axioms RayOpt.Sums.c50_azimuthal_total
#print axioms RayOpt.Sums.c50_azimuthal_bins
#print axioms RayOpt.Sums.c50_angle_bins
#print axioms RayOpt.Sums.c50_radial_total
#print axioms RayOpt.Sums.c50_radial_large_violation
#print axioms RayOpt.Sums.c50_radial_bins
#print axioms RayOpt.Sums.c50_radial_partial_violation
#print axioms RayOpt.Sums.c50_radial_direction_violation
#print axioms RayOpt.Sums.c50_angle_axes
#print axioms RayOpt.Sums.c50_angle_ends
#print axioms RayOpt.c97_rigid
#print axioms RayOpt.c97_similarity
#print axioms RayOpt.c97_exact
#print axioms RayOpt.c97_raises
#print axioms RayOpt.c97_scale_violation
#print axioms RayOpt.c06_on_quadric
#print axioms RayOpt.c06_sag_zero_iff
#print axioms RayOpt.c06_on_surface
#print axioms RayOpt.c06_root_side
#print axioms RayOpt.c06_forward_incidence
#print axioms RayOpt.c07_none_iff
#print axioms RayOpt.c07_roots
#print axioms RayOpt.c07_flat
#print axioms RayOpt.c07_paraboloid_axial_missed
#print axioms RayOpt.c08_gradient
#print axioms RayOpt.c08_defined
#print axioms RayOpt.c08_sag_value
#print axioms RayOpt.c15_trace
#print axioms RayOpt.c15_geometry
#print axioms RayOpt.c15_restore
#print axioms RayOpt.c16_trace
#print axioms RayOpt.c16_rotation
#print axioms RayOpt.c16_meridional
#print axioms RayOpt.c25_origins
#print axioms RayOpt.c25_path
#print axioms RayOpt.c25_straight
#print axioms RayOpt.c25_close
#print axioms RayOpt.c25_close_error
#print axioms RayOpt.c29_parity
#print axioms RayOpt.c29_step
#print axioms RayOpt.c26_edge
#print axioms RayOpt.c26_first
#print axioms RayOpt.c24_groups
#print axioms RayOpt.c24_unique
#print axioms RayOpt.c22_reverse
#print axioms RayOpt.c22_involution
#print axioms RayOpt.Tables.c102_rows
#print axioms RayOpt.Tables.c102_errors
#print axioms RayOpt.Tables.c102_paraxial
#print axioms RayOpt.Tables.c102_transverse
#print axioms RayOpt.Tables.c102_geometric
#print axioms RayOpt.Tables.c102_elements
#print axioms RayOpt.Tables.c102_aperture
#print axioms RayOpt.Tables.c102_typeletter
#print axioms RayOpt.c13_geometric_split
#print axioms RayOpt.c13_geometric_count
#print axioms RayOpt.c13_range
#print axioms RayOpt.c01_trace_unit
#print axioms RayOpt.c14_path
#print axioms RayOpt.c09_clip_iff
#print axioms RayOpt.c09_persistent
#print axioms RayOpt.c65_incoming
#print axioms RayOpt.c65_straight
#print axioms RayOpt.c65_on_surface
#print axioms RayOpt.c65_on_asphere
#print axioms RayOpt.c65_passive
#print axioms RayOpt.c65_mirror
#print axioms RayOpt.c65_snell
#print axioms RayOpt.Sys.Live.c113_current
#print axioms RayOpt.Sys.Live.c113_stop
#print axioms RayOpt.Sys.Live.c113_image
#print axioms RayOpt.Sys.Live.c113_again
#print axioms RayOpt.Sys.Live.c113_idempotent
#print axioms RayOpt.Sys.Live.c113_cache
#print axioms RayOpt.Sys.Live.c113_negative_stop
#print axioms RayOpt.Sys.Live.c113_last_stop_violation
#print axioms RayOpt.Sys.Live.c113_lag_violation
#print axioms RayOpt.Sys.Live.c113_cache_violation
#print axioms RayOpt.Paths.c76_all
#print axioms RayOpt.Paths.c76_start
#print axioms RayOpt.Paths.c76_order_violation
#print axioms RayOpt.Spot.c78_resize
#print axioms RayOpt.Spot.c78_tight
#print axioms RayOpt.Spot.c78_nan
#print axioms RayOpt.Spot.c77_opd
#print axioms RayOpt.Spot.c77_stigmatic
#print axioms RayOpt.Spot.c77_reference
#print axioms RayOpt.Spot.c77_after_last_violation
#print axioms RayOpt.Zmf.c54_digits
#print axioms RayOpt.Zmf.c54_key
#print axioms RayOpt.Zmf.c54_bytes
#print axioms RayOpt.Zmf.c54_involution
#print axioms RayOpt.Zmf.c54_injective
#print axioms RayOpt.Zmf.c54_versline
#print axioms RayOpt.Zmf.c54_read
#print axioms RayOpt.Zmf.c54_short
#print axioms RayOpt.Zmf.c54_version
#print axioms RayOpt.Zmf.c54_cut
