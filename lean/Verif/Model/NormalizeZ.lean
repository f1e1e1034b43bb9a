import Verif.Model.Vec

/-!
`rayopt/utils.py` 91-93: the third direction cosine from the first two.
-/

namespace RayOpt

namespace Util

/-- `normalize_z(u)` for one vector, rayopt/utils.py 92-93; the third entry is overwritten.  `none` is a NaN. -/
noncomputable def normalizeZ (u : V3) : Option V3 :=
  if 1 - (u.x ^ 2 + u.y ^ 2) < 0 then none else some ⟨u.x, u.y, Real.sqrt (1 - (u.x ^ 2 + u.y ^ 2))⟩

end Util

end RayOpt
