import Verif.Model.System

/-!
What `System.reverse` does to the system beside its elements, and the aperture stop.
-/

namespace RayOpt.Sys

/-- The attributes of a `System` that `reverse` and `aperture` read or write: the list itself, `stop`, `object` and
`image`, rayopt/system.py 36-60.  `C` are the conjugates. -/
@[ext] structure Whole (C : Type) where
  elems : List Elem
  stop : ℤ
  object : C
  image : C

/-- `System.aperture`, rayopt/system.py 84-86: `self[self.stop]` counts from the end for a negative number; `none` is
IndexError. -/
def Whole.aperture {C : Type} (s : Whole C) : Option Elem :=
  if 0 ≤ s.stop then s.elems[s.stop.toNat]?
  else if 0 ≤ s.stop + s.elems.length then s.elems[(s.stop + s.elems.length).toNat]?
  else none

/-- `System.reverse`, rayopt/system.py 249-261. -/
noncomputable def Whole.reverse {C : Type} (s : Whole C) : Whole C :=
  { s with elems := Sys.reverse s.elems, object := s.image, image := s.object }

end RayOpt.Sys
