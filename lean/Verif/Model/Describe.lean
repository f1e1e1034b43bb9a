import Verif.Model.Serial

/-!
The descriptions that pupils, conjugates and systems print: `Pupil.text`, `Conjugate.text` and the lines of
`System.base_text` before the list of elements (that list is in `Verif.Model.Tables`).

A line is its indentation, its label and what is printed behind it; rounding to the printed digits is left out.
-/

namespace RayOpt.Serial

/-- What is printed behind a label. -/
inductive Shown
  | nothing
  | num (x : ℝ)
  | nums (l : List ℝ)
  | int (i : ℤ)
  | word (s : String)
  | flag (b : Bool)

/-- A line of text. -/
structure TextLine where
  indent : ℕ
  label : String
  shown : Shown

/-- A line behind `n` more spaces. -/
def TextLine.shift (n : ℕ) (l : TextLine) : TextLine := { l with indent := n + l.indent }

/-- The label of the argument of a pupil, rayopt/pupils.py 127, 159, 187, 211. -/
def PKind.label : PKind → String
  | .na => "NA"
  | .slope => "Slope"
  | .radius => "Radius"
  | .fno => "F-Number"

open Classical in
/-- `Pupil.text` and those of the subclasses, rayopt/pupils.py 66-79, 125-127, 157-159, 185-187, 209-211. -/
noncomputable def Pupil.text (p : Pupil) : List TextLine :=
  [⟨0, "Pupil Distance", .num p.distance⟩] ++
  (if p.telecentric then [⟨0, "Telecentric", .flag p.telecentric⟩] else []) ++
  (if p.index ≠ 1 then [⟨0, "Refractive Index", .num p.index⟩] else []) ++
  (if p.projection ≠ "rectilinear" then [⟨0, "Projection", .word p.projection⟩] else []) ++
  (if !p.updateDistance then [⟨0, "Track Distance", .flag p.updateDistance⟩] else []) ++
  (if p.updateRadius then [⟨0, "Update Radius", .flag p.updateRadius⟩] else []) ++
  (if p.aim then [⟨0, "Aim", .flag p.aim⟩] else []) ++
  [⟨0, p.kind.label, .num p.value⟩]

/-- `Conjugate.text` and those of the subclasses, rayopt/conjugates.py 53-60, 116-118, 196-198. -/
noncomputable def Conj.text (c : Conj) : List TextLine :=
  [if c.finite then ⟨0, "Radius", .num c.size⟩ else ⟨0, "Semi-Angle", .num (c.size * 180 / Real.pi)⟩] ++
  (if c.projection ≠ "rectilinear" then [⟨0, "Projection", .word c.projection⟩] else []) ++
  (if c.updateRadius then [⟨0, "Update Radius", .flag c.updateRadius⟩] else []) ++
  [⟨0, "Pupil", .nothing⟩] ++ c.pupil.text.map (TextLine.shift 2)

/-- `System.base_text` up to the list of elements, rayopt/system.py 281-293. -/
noncomputable def headText (description : String) (scale : ℝ) (wavelengths fields : List ℝ) (object image : Conj)
    (stop : ℤ) : List TextLine :=
  [⟨0, "System", .word description⟩, ⟨0, "Scale", .num (scale / (1 / 10 ^ 3))⟩,
    ⟨0, "Wavelengths", .nums (wavelengths.map fun w => w / (1 / 10 ^ 9))⟩, ⟨0, "Fields", .nums fields⟩,
    ⟨0, "Object", .nothing⟩] ++ object.text.map (TextLine.shift 1) ++
  [⟨0, "Image", .nothing⟩] ++ image.text.map (TextLine.shift 1) ++
  [⟨0, "Stop", .int stop⟩, ⟨0, "Elements", .nothing⟩]

end RayOpt.Serial
