import Mathlib.Data.List.Basic
import Mathlib.Logic.Function.Basic

/-!
How the functions of the extension get into the Python module: `_import_module`, rayopt/transformations.py 1875-1905,
called at 1908.
-/

namespace RayOpt.Compiled

/-- The names of a module and what they are bound to. -/
abbrev Globals (V : Type) := List Char → Option V

/-- `globals()[name] = v`. -/
def bind {V : Type} (g : Globals V) (name : List Char) (v : V) : Globals V := Function.update g name (some v)

/-- One round of the loop, rayopt/transformations.py 1895-1903, and the warnings so far. -/
def importAttr {V : Type} (pre ignore : List Char) (warn : Bool) (s : Globals V × List (List Char))
    (attr : List Char × V) : Globals V × List (List Char) :=
  if ignore ≠ [] ∧ ignore.isPrefixOf attr.1 then s
  else
    let s :=
      if pre ≠ [] then
        match s.1 attr.1 with
        | some old => (bind s.1 (pre ++ attr.1) old, s.2)
        | none => if warn then (s.1, s.2 ++ [attr.1]) else s
      else s
    (bind s.1 attr.1 attr.2, s.2)

/-- `_import_module(name, package, warn, prefix, ignore)`: the names afterwards, the warnings about functions that
the Python module lacks, and whether it returned `True`.  `module` lists the attributes in the order of `dir`;
`none` is `ImportError`. -/
def importModule {V : Type} (g : Globals V) (module : Option (List (List Char × V))) (warn : Bool)
    (pre ignore : List Char) : Globals V × List (List Char) × Bool :=
  match module with
  | none => (g, [], false)
  | some attrs =>
    let s := attrs.foldl (importAttr pre ignore warn) (g, [])
    (s.1, s.2, true)

/-- `module_methods`, rayopt/_transformations.c 3950-4048, and `__version__`. -/
def methods : List String :=
  ["is_same_transform", "identity_matrix", "translation_matrix", "reflection_matrix", "rotation_matrix",
   "scale_matrix", "projection_matrix", "clip_matrix", "shear_matrix", "superimposition_matrix",
   "orthogonalization_matrix", "euler_matrix", "euler_from_matrix", "quaternion_from_euler",
   "quaternion_about_axis", "quaternion_multiply", "quaternion_matrix", "quaternion_from_matrix",
   "quaternion_conjugate", "quaternion_inverse", "quaternion_slerp", "random_quaternion",
   "random_rotation_matrix", "arcball_map_to_sphere", "arcball_constrain_to_axis", "vector_norm", "unit_vector",
   "random_vector", "inverse_matrix", "_tridiagonalize_symmetric_44", "_max_eigenvalue_of_tridiag_44",
   "_eigenvector_of_symmetric_44", "__version__"]

/-- The functions and the class of rayopt/transformations.py in order. -/
def pythonNames : List String :=
  ["identity_matrix", "translation_matrix", "translation_from_matrix", "reflection_matrix",
   "reflection_from_matrix", "rotation_matrix", "rotation_from_matrix", "scale_matrix", "scale_from_matrix",
   "projection_matrix", "projection_from_matrix", "clip_matrix", "shear_matrix", "shear_from_matrix",
   "decompose_matrix", "compose_matrix", "orthogonalization_matrix", "affine_matrix_from_points",
   "superimposition_matrix", "euler_matrix", "euler_from_matrix", "euler_from_quaternion",
   "quaternion_from_euler", "quaternion_about_axis", "quaternion_matrix", "quaternion_from_matrix",
   "quaternion_multiply", "quaternion_conjugate", "quaternion_inverse", "quaternion_real", "quaternion_imag",
   "quaternion_slerp", "random_quaternion", "random_rotation_matrix", "Arcball", "arcball_map_to_sphere",
   "arcball_constrain_to_axis", "arcball_nearest_axis", "vector_norm", "unit_vector", "random_vector",
   "vector_product", "angle_between_vectors", "inverse_matrix", "concatenate_matrices", "is_same_transform"]

end RayOpt.Compiled
