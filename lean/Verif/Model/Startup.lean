import Mathlib.Data.List.Basic

/-!
Opening the library: the singleton (rayopt/library.py 50-67) and finding the database file
(rayopt/library.py 69-80).

Simplified: opening a database (`db_get`, 82-86) only records its address; the file system is a function
from paths to contents together with the existing directories; a copy does not fail half-way and no
other process writes in between; the path of the directory is not that of a file; existence of a file or directory does not depend on permissions.
-/

namespace RayOpt.Startup

/-- A path. -/
abbrev Path := List String

/-- The file system. -/
structure FS (B : Type) where
  file : Path → Option B
  dir : Path → Bool

/-- `os.path.exists(p)`. -/
def FS.exists {B : Type} (fs : FS B) (p : Path) : Bool := (fs.file p).isSome || fs.dir p

/-- `os.makedirs(p)`: the directory and those above it (of a path that does not exist). -/
def FS.makedirs {B : Type} (fs : FS B) (p : Path) : FS B :=
  { fs with dir := fun q => fs.dir q || q.isPrefixOf p }

/-- `shutil.copy(a, b)` to the name of a file; `none` is the exception of a missing source. -/
def FS.copy {B : Type} (fs : FS B) (a b : Path) : Option (FS B) :=
  (fs.file a).map fun x => { fs with file := fun q => if q = b then some x else fs.file q }

/-- The places `find_db` looks at: `site.getuserbase()`, the resource of the installed package and the
file beside the source. -/
structure Places where
  user : Path
  resource : Path
  source : Path

/-- `os.path.join(site.getuserbase(), "rayopt")`, rayopt/library.py 71. -/
def Places.dir (p : Places) : Path := p.user ++ ["rayopt"]

/-- The file of the user, rayopt/library.py 70-72. -/
def Places.main (p : Places) : Path := p.dir ++ ["library.sqlite"]

/-- `find_db`, rayopt/library.py 69-80: the path (`none`: an exception) and the file system after
it. -/
def findDb {B : Type} (p : Places) (fs : FS B) : Option Path × FS B :=
  if fs.exists p.main then (some p.main, fs)
  else
    let base := if fs.exists p.resource then p.resource else p.source
    let fs := if fs.exists p.dir then fs else fs.makedirs p.dir
    match fs.copy base p.main with
    | some fs => (some p.main, fs)
    | none => (none, fs)

/-- The class `Library`: the instance in `_one`, and the addresses opened so far. -/
structure Class where
  one : Option String
  opened : List String
  warnings : ℕ

/-- `Library(db)`, rayopt/library.py 60-67, with the address of the found database for `None`. -/
def Class.new (found : String) (c : Class) (db : Option String) : String × Class :=
  let a := db.getD found
  (a, { c with opened := c.opened ++ [a], warnings := c.warnings + if c.one.isSome then 1 else 0 })

/-- `Library.one(db)`, rayopt/library.py 54-58: the address of the instance. -/
def Class.theOne (found : String) (c : Class) (db : Option String) : String × Class :=
  match c.one with
  | some a => (a, c)
  | none =>
    let r := c.new found db
    (r.1, { r.2 with one := some r.1 })

/-- A sequence of `Library.one(db)` and, marked `false`, of `Library(db)`. -/
def Class.run (found : String) : List (Bool × Option String) → Class → List (Bool × String) × Class
  | [], c => ([], c)
  | (b, db) :: l, c =>
    let r := if b then c.theOne found db else c.new found db
    let t := Class.run found l r.2
    ((b, r.1) :: t.1, t.2)

end RayOpt.Startup
