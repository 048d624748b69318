import Verif.Model.Wells

/-!
# Voxets: `.vo`

Model of `/repo/src/geode/geosciences_io/mesh/vo_input.cpp`.  The distance of two points and the division of a length by a number of
cells are parameters (`Geo`); the file system is a function from paths to files.
-/

namespace Verif.Voxet

open Verif Verif.Gocad Verif.GocadMesh Verif.Wells

variable {D : Type} [Num D]

/-- Geometric operations used by the reader. -/
structure Geo (D : Type) where
  /-- `geode::point_point_distance`. -/
  dist : Pt D → Pt D → D
  /-- `double / index_t`. -/
  div : D → Nat → D

/-- Number of cells in each direction, or position of a cell. -/
abbrev Ijk := Nat × Nat × Nat

/-- A regular grid with its cell attributes (name and one value per cell). -/
structure Grid (D : Type) where
  name : Option Str := none
  origin : Pt D
  size : Ijk
  len : D × D × D
  cols : List (Str × List D) := []
  deriving DecidableEq, Repr

/-- `Grid::nb_cells`. -/
def nbCells (n : Ijk) : Nat := n.1 * n.2.1 * n.2.2 % W

/-- `Grid::cell_index`.  A position outside of the grid violates its precondition. -/
def cellIndex (n c : Ijk) : Res Nat :=
  if c.1 < n.1 ∧ c.2.1 < n.2.1 ∧ c.2.2 < n.2.2 then .ok ((c.1 + n.1 * (c.2.1 + n.2.1 * c.2.2)) % W) else .ub

/-- Removes every occurrence of `ASCII_DATA_FILE ` and of `"` (`absl::StrReplaceAll`), after skipping `skip` characters. -/
def unrecord : Nat → Str → Str
  | _, [] => []
  | skip + 1, _ :: cs => unrecord skip cs
  | 0, c :: cs =>
    if startsWith (c :: cs) cs!"ASCII_DATA_FILE " then unrecord 15 cs
    else if c = '"' then unrecord 0 cs
    else c :: unrecord 0 cs

/-- `get_data_file`, lines 50-61. -/
def dataFile (f : File) : Option Str :=
  (gotoKeyword? cs!"ASCII_DATA_FILE" f).map fun r => unrecord 0 r.1

/-- `absl::StripSuffix( s, "\r" )`. -/
def stripCr (s : Str) : Str :=
  match s.getLast? with
  | some '\r' => s.dropLast
  | _ => s

/-- `read_cells_number`, lines 124-131. -/
def readSize (l : Str) : Res Ijk := do
  let tokens := split l
  let a ← readIndex (← Res.index tokens 1)
  let b ← readIndex (← Res.index tokens 2)
  let c ← readIndex (← Res.index tokens 3)
  pure (a, b, c)

/-- `initialize_grid`, `read_grid_size` and `compute_cells_length`, lines 98-144.  `read_coord` (lines 146-157) is the same function as
in `wl_input.cpp`. -/
def initGrid (g : Geo D) (name : Option Str) (f : File) : Res (Grid D × File) := do
  let (l, f) ← gotoKeyword cs!"AXIS_O" f
  let o ← wlCoord l 1
  let (l, f) ← gotoKeyword cs!"AXIS_U" f
  let u ← wlCoord l 1
  let (l, f) ← gotoKeyword cs!"AXIS_V" f
  let v ← wlCoord l 1
  let (l, f) ← gotoKeyword cs!"AXIS_W" f
  let w ← wlCoord l 1
  let (l, f) ← gotoKeyword cs!"AXIS_N" f
  let n ← readSize l
  let len := (g.div (g.dist o u) n.1, g.div (g.dist o v) n.2.1, g.div (g.dist o w) n.2.2)
  pure ({ name := name, origin := o, size := n, len := len }, f)

/-- `find_or_create_attribute`: an existing attribute is reused, a new one is 0 in every cell; lines 183-188. -/
def addCol (n : Nat) (cols : List (Str × List D)) (name : Str) : List (Str × List D) :=
  if cols.any (fun c => c.1 == name) then cols else cols ++ [(name, List.replicate n Num.zero)]

/-- `attribute->set_value( cell, d )` on the attribute of that name. -/
def setCol (cols : List (Str × List D)) (name : Str) (cell : Nat) (d : D) : List (Str × List D) :=
  cols.map fun c => if c.1 = name then (c.1, c.2.set cell d) else c

/-- Loop over the attributes of one line, lines 203-208: `names` and `tokens` from the current attribute on. -/
def setVals (cell : Nat) : List (Str × List D) → List Str → List Str → Res (List (Str × List D))
  | cols, [], _ => .ok cols
  | _, _ :: _, [] => .ub
  | cols, n :: ns, t :: ts => do
    let d ← readDouble t
    setVals cell (setCol cols n cell d) ns ts

/-- One line of the data file, lines 190-208. -/
def dataLine (size : Ijk) (names : List Str) (cols : List (Str × List D)) (l : Str) : Res (List (Str × List D)) := do
  let tokens := split l
  Res.check (tokens.length == names.length + 3)
  let i ← readIndex (← Res.index tokens 0)
  let j ← readIndex (← Res.index tokens 1)
  let k ← readIndex (← Res.index tokens 2)
  let cell ← cellIndex size (i, j, k)
  setVals cell cols names (tokens.drop 3)

/-- `read_data_file` once the data file is open, lines 172-209.  A second line with less than four tokens makes the size of the array
wrap to a number that cannot be allocated: exception.  A file without a second line is taken as having an empty second line. -/
def readData (size : Ijk) (f : File) : Res (List (Str × List D)) := do
  let tokens := split (f.getD 1 [])
  Res.check (4 ≤ tokens.length)
  let names := tokens.drop 4
  Res.foldM' (dataLine size names) (names.foldl (addCol (nbCells size)) []) (f.drop 3)

/-- `read_file` and `read_data_file` up to the opening of the data file, lines 77-95 and 159-169, for a file of the folder `folder` (with
its final separator): the grid without data and the path of the data file. -/
def loadHead (g : Geo D) (folder : Str) (f : File) : Res (Grid D × Str) :=
  match gotoKeyword? cs!"GOCAD Voxet" f with
  | none => .throw
  | some (_, f) => do
    let (name, f) ← readHeader f
    let (_, f) ← readCrs f
    let (grid, f) ← initGrid g name f
    let record ← Res.ofParse (dataFile f)
    pure (grid, folder ++ stripCr record)

/-- `read_file`, lines 77-95, and `read_data_file`, lines 159-209. -/
def load (g : Geo D) (fs : Str → Option File) (folder : Str) (f : File) : Res (Grid D) := do
  let (grid, path) ← loadHead g folder f
  let data ← Res.ofParse (fs path)
  let cols ← readData grid.size data
  pure { grid with cols }

/-- `additional_files`, lines 231-245: the announced mandatory file and whether it exists. -/
def additionalFiles (fs : Str → Option File) (f : File) : Option (Str × Bool) :=
  (dataFile f).map fun n => (n, (fs n).isSome)

/-- Value of a cell attribute: `none` when there is no such attribute or no such cell. -/
def Grid.value (g : Grid D) (name : Str) (c : Ijk) : Option D := do
  let col ← g.cols.find? fun p => p.1 = name
  match cellIndex g.size c with
  | .ok i => col.2[i]?
  | _ => none

end Verif.Voxet
