import Mathlib.Data.Real.Basic
import Mathlib.Data.List.Infix
import Mathlib.Data.List.Sort

/-!
The library of lenses and materials (rayopt/library.py, rayopt/library_items.py) as a state
machine.

The database is the list of catalogues in the order of their ids; the session holds a working copy,
`commit` makes it the database, `rollback` and a crash forget it. What the readers (`zmf_read`,
`agf_read`, ...) find in a file is a parameter; what they record about the file is modelled. A file
name and a path are lists of characters. `first()` without an order is the row with the smallest
id (what SQLite does).
-/

namespace RayOpt.Library

abbrev Name := List Char

/-- The readers that are registered by extension: rayopt/oslo.py 32-33, rayopt/zemax.py 34-35,
rayopt/rii.py 35, rayopt/codev.py 28. -/
inductive Kind | dir | glc | zmf | agf | yml | xml
  deriving DecidableEq, Repr

/-- `Catalog.parsers` in the order of registration (rayopt/library.py 36-39). -/
def parsers : List (Name × Kind) :=
  [(['.', 'd', 'i', 'r'], .dir), (['.', 'g', 'l', 'c'], .glc), (['.', 'z', 'm', 'f'], .zmf),
   (['.', 'a', 'g', 'f'], .agf),
   (['l', 'i', 'b', 'r', 'a', 'r', 'y', '.', 'y', 'm', 'l'], .yml), (['.', 'x', 'm', 'l'], .xml)]

/-- The loop of `Catalog.parse`, rayopt/library_items.py 126-130, over a table of readers: the first
extension that the name in lower case ends with. Lower case is that of ASCII. -/
def findParser (table : List (Name × Kind)) (path : Name) : Option Kind :=
  (table.find? fun kv => kv.1.isSuffixOf (path.map Char.toLower)).map Prod.snd

def kindOf (path : Name) : Option Kind := findParser parsers path

/-- `Material` or `Lens`, rayopt/library_items.py 54-97. -/
inductive Typ | material | lens
  deriving DecidableEq, Repr

structure Item where
  typ : Typ
  name : Name
  data : Name
  deriving DecidableEq

/-- `Catalog`, rayopt/library_items.py 103-123, with its items. -/
structure Cat where
  name : Name
  source : Name
  file : Option Name
  date : Option ℝ
  size : Option ℕ
  items : List Item

/-- What a file looks like: `os.stat` and what its reader finds in it. A reader that fails has added
part of the entries before. -/
structure File where
  mtime : ℝ
  size : ℕ
  name : Name
  items : List Item
  shelves : List (Name × List Item)
  fails : Bool

/-- The file system at the time of a call. -/
abbrev FS := Name → Option File

def Kind.source : Kind → Name
  | .dir | .glc => ['o', 's', 'l', 'o']
  | .zmf | .agf => ['z', 'e', 'm', 'a', 'x']
  | .yml => ['r', 'i', 'i']
  | .xml => ['c', 'o', 'd', 'e', 'v']

def topName : Name := "refractiveindex.info".toList

/-- The catalogues that a reader adds to the session. `zmf_read` (rayopt/zemax.py 40-), `agf_read`
(186-), `codevxml_read` (rayopt/codev.py 32-) record file, date and size by `Catalog.load`;
`dir_read` and `glc_read` (rayopt/oslo.py 39-, 169-) do not; `yml_read` (rayopt/rii.py 39-79) adds a
catalogue without entries and one for each shelf, without size. -/
def readCats (k : Kind) (path : Name) (f : File) : List Cat :=
  match k with
  | .dir | .glc => [⟨f.name, k.source, none, none, none, f.items⟩]
  | .zmf | .agf | .xml => [⟨f.name, k.source, some path, some f.mtime, some f.size, f.items⟩]
  | .yml => ⟨topName, k.source, some path, some f.mtime, some f.size, []⟩ ::
      f.shelves.map fun sh => ⟨sh.1, k.source, some path, some f.mtime, none, sh.2⟩

inductive Mode | refresh | reload | other
  deriving DecidableEq

inductive Err | notFound | parse | typeError | key
  deriving DecidableEq

structure State where
  committed : List Cat
  working : List Cat

def State.commit (s : State) : State := ⟨s.working, s.working⟩
def State.rollback (s : State) : State := ⟨s.committed, s.committed⟩

/-- What remains after the process is killed. -/
def State.crash (s : State) : State := ⟨s.committed, s.committed⟩

/-- `session.delete(query(Catalog).filter(Catalog.file == fil).first())` with its items by cascade. -/
def deleteFirst (path : Name) (w : List Cat) : List Cat :=
  w.eraseP fun c => decide (c.file = some path)

def findFile (path : Name) (w : List Cat) : Option Cat :=
  w.find? fun c => decide (c.file = some path)

/-- What `load` does before it parses, rayopt/library.py 101-112: `ok none` is the early return. -/
noncomputable def prepare (fs : FS) (m : Mode) (path : Name) (s : State) :
    Except Err (Option State) :=
  match m with
  | .other => .ok (some s)
  | .reload => match findFile path s.working with
    | none => .ok (some s)
    | some _ => .ok (some { s with working := deleteFirst path s.working })
  | .refresh => match findFile path s.working with
    | none => .ok (some s)
    | some c => match fs path with
      | none => .error .notFound
      | some f => match c.date with
        | none => .error .typeError
        | some d =>
          if f.mtime ≤ d ∨ some f.size = c.size then .ok none
          else .ok (some { s with working := deleteFirst path s.working })

/-- The catalogues that are added before the reader returns or raises, and whether it raises
(`none`: there is no reader and nothing is committed). -/
def parse (fs : FS) (path : Name) : Option (List Cat × Option Err) :=
  match kindOf path with
  | none => none
  | some k => match fs path with
    | none => some ([], some .notFound)
    | some f => some (readCats k path f, if f.fails then some .parse else none)

/-- `Library.load`, rayopt/library.py 100-120: the state after it and the exception, if any. -/
noncomputable def load (fs : FS) (m : Mode) (path : Name) (s : State) : State × Option Err :=
  match prepare fs m path s with
  | .error e => (s, some e)
  | .ok none => (s, none)
  | .ok (some s1) => match parse fs path with
    | none => (s1, none)
    | some (cs, e) =>
      let s2 : State := { s1 with working := s1.working ++ cs }
      match e with
      | none => (s2.commit, none)
      | some e => (s2.rollback, some e)

/-- The states that `load` goes through. -/
noncomputable def loadTrace (fs : FS) (m : Mode) (path : Name) (s : State) : List State :=
  match prepare fs m path s with
  | .error _ => [s]
  | .ok none => [s]
  | .ok (some s1) => match parse fs path with
    | none => [s, s1]
    | some (cs, _) =>
      s :: (cs.inits.map fun p => { s1 with working := s1.working ++ p }) ++ [(load fs m path s).1]

/-- `load_all` for the files of a directory, rayopt/library.py 88-98: exceptions are swallowed. -/
noncomputable def loadAll (fs : FS) (m : Mode) : List Name → State → State
  | [], s => s
  | p :: ps, s => loadAll fs m ps (load fs m p s).1

/-- A history of loads; the file system may change in between. -/
noncomputable def history : List (FS × Mode × Name) → State → State
  | [], s => s
  | (fs, m, p) :: h, s => history h (load fs m p s).1

/-! ## Queries -/

/-- The collation `nocase` of SQLite compares ASCII letters without case. -/
def fold (n : Name) : Name := n.map Char.toLower

/-- The rows of `query(Typ).join(Catalog)`, rayopt/library.py 128. -/
def rows (w : List Cat) : List (Cat × Item) :=
  w.flatMap fun c => c.items.map fun i => (c, i)

/-- The filters of `get_all`, rayopt/library.py 127-134. -/
def matching (w : List Cat) (t : Typ) (name catalog source : Option Name) : List (Cat × Item) :=
  (rows w).filter fun r =>
    decide (r.2.typ = t) &&
    (match catalog with | none => true | some c => decide (fold r.1.name = fold c)) &&
    (match source with | none => true | some c => decide (r.1.source = c)) &&
    (match name with | none => true | some n => decide (fold r.2.name = fold n))

/-- `get_all`, rayopt/library.py 126-140: the rows ordered by name, KeyError if there are none. -/
def getAll (w : List Cat) (t : Typ) (name catalog source : Option Name) :
    Except Err (List (Cat × Item)) :=
  let res := (matching w t name catalog source).mergeSort
    fun a b => decide (fold a.2.name ≤ fold b.2.name)
  if res.isEmpty then .error .key else .ok res

/-- `get`, rayopt/library.py 122-124: the first one. -/
def get (w : List Cat) (t : Typ) (name catalog source : Option Name) : Except Err (Cat × Item) :=
  match getAll w t name catalog source with
  | .error e => .error e
  | .ok [] => .error .key
  | .ok (r :: _) => .ok r

/-! ## Parsing of entries -/

/-- An entry in memory: its data and the object it was parsed to (`self.obj`). -/
structure Entry (Obj : Type*) where
  data : Name
  format : Name
  catalog : Name
  obj : Option Obj

/-- `LoaderParser.parse`, rayopt/library_items.py 42-51: the object and the entry after it. `table`
is `parsers`; a reader may fail. -/
def Entry.parse {Obj : Type*} (table : Name → Option (Name → Except Err Obj))
    (setCatalog : Name → Obj → Obj) (e : Entry Obj) : Except Err (Obj × Entry Obj) :=
  match e.obj with
  | some o => .ok (o, e)
  | none => match table e.format with
    | none => .error .key
    | some p => match p e.data with
      | .error x => .error x
      | .ok o => .ok (setCatalog e.catalog o, { e with obj := some (setCatalog e.catalog o) })

end RayOpt.Library
