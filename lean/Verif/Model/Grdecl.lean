import Verif.Model.GocadMesh

/-!
# Corner point grids: `.grdecl`

Model of `/repo/src/geode/geosciences_io/mesh/grdecl_input.cpp`.  The arithmetic of `interpolate_on_pillar` is that of an arbitrary type
with `+ - * /` and `1`.  The merging of colocated points (`NNSearch3D::colocated_index_mapping`) is a parameter.
-/

namespace Verif.Grdecl

open Verif

variable {D : Type} [Num D]

/-- `Pillar`, lines 48-52. -/
structure Pillar (D : Type) where
  top : Pt D
  bottom : Pt D
  deriving DecidableEq, Repr

/-- A default constructed `Pillar` (a default constructed point is the origin). -/
def Pillar.zero : Pillar D := ⟨⟨Num.zero, Num.zero, Num.zero⟩, ⟨Num.zero, Num.zero, Num.zero⟩⟩

/-- `interpolate_on_pillar`, lines 54-62. -/
def interpolate [Add D] [Sub D] [Mul D] [Div D] [One D] (depth : D) (p : Pillar D) : Pt D :=
  let l := (depth - p.top.z) / (p.bottom.z - p.top.z)
  ⟨p.bottom.x * l + p.top.x * (1 - l), p.bottom.y * l + p.top.y * (1 - l), p.bottom.z * l + p.top.z * (1 - l)⟩

/-! ## Reading -/

/-- Loop and tokens of `read_dimensions`, lines 122-130, from the current line on.  At end of file `line` never contains an `F`: endless
loop. -/
def readDimsLoop : File → Res ((Nat × Nat × Nat) × File)
  | [] => .diverge
  | l :: ls =>
    if contains cs!"F" l then do
      let tokens := split l
      let a ← readIndex (← Res.index tokens 0)
      let b ← readIndex (← Res.index tokens 1)
      let c ← readIndex (← Res.index tokens 2)
      pure ((a, b, c), ls)
    else readDimsLoop ls

/-- `read_dimensions`, lines 119-131. -/
def readDims (f : File) : Res ((Nat × Nat × Nat) × File) := do
  let (l, f) ← gotoKeyword cs!"SPECGRID" f
  readDimsLoop (l :: f)

/-- `absl::StrSplit( s, c )`: the pieces between the separators, empty pieces included. -/
def splitOn (c : Char) : Str → List Str
  | [] => [[]]
  | a :: as =>
    if a = c then [] :: splitOn c as
    else
      match splitOn c as with
      | [] => [[a]]
      | p :: ps => (a :: p) :: ps

/-- Key of the file map for one piece of the line, lines 98-113: what precedes the first dot, for a piece that has one. -/
def includeKey (piece : Str) : Option Str :=
  if contains cs!"." piece then (splitOn '.' piece).head? else none

/-- The line after an `INCLUDE`, lines 95-114: the entries it adds to `keyword_to_filename_map_`. -/
def includeLine (l : Str) : Res (List (Str × Str)) :=
  Res.mapM' (fun k => do
    let t ← Res.index (split l) 0
    pure (k, (t.drop 1).take (t.length - 2))) ((splitOn '_' l).filterMap includeKey)

/-- `get_filenames_and_keywords`, lines 90-117; `inc` tells that the line before was an `INCLUDE`.  After an `INCLUDE` that is the last
line, the line read is empty and adds nothing. -/
def includesLoop : Bool → File → Res (List (Str × Str))
  | _, [] => .ok []
  | true, l :: ls => do
    let a ← includeLine l
    let b ← includesLoop false ls
    pure (a ++ b)
  | false, l :: ls => includesLoop (startsWith l cs!"INCLUDE") ls

/-- `keyword_to_filename_map_[ key ]`: the last entry wins. -/
def fileOf (m : List (Str × Str)) (key : Str) : Option Str :=
  (m.reverse.find? fun p => p.1 = key).map Prod.snd

/-- Three numbers from token `i` on. -/
def readPt (tokens : List Str) (i : Nat) : Res (Pt D) := do
  let x ← readDouble (← Res.index tokens i)
  let y ← readDouble (← Res.index tokens (i + 1))
  let z ← readDouble (← Res.index tokens (i + 2))
  pure ⟨x, y, z⟩

/-- Loop of `read_pillars_from_file`, lines 140-149, with `read_pillar`, lines 152-191: `size` is the size of the array, `ps` the pillars
read so far; the second argument is the top of a pillar whose bottom is on the next line.  At end of file the line is empty for ever:
endless loop (for a file ended by a line feed), or tokens of an empty line when the bottom of a pillar is missing. -/
def pillarsLoop (size : Nat) : List (Pillar D) → Option (Pt D) → File → Res (List (Pillar D) × File)
  | _, none, [] => .diverge
  | _, some _, [] => .ub
  | ps, some top, l :: ls => do
    let bottom ← readPt (split l) 0
    if ps.length < size then pillarsLoop size (ps ++ [⟨top, bottom⟩]) none ls else .ub
  | ps, none, l :: ls =>
    if startsWith l cs!"/" then .ok (ps, ls)
    else
      let tokens := split l
      if tokens.isEmpty then pillarsLoop size ps none ls
      else if tokens.length = 6 then do
        let top ← readPt tokens 0
        let bottom ← readPt tokens 3
        if ps.length < size then pillarsLoop size (ps ++ [⟨top, bottom⟩]) none ls else .ub
      else if tokens.length = 3 then do
        let top ← readPt tokens 0
        pillarsLoop size ps (some top) ls
      else .throw

/-- `read_pillars_from_file`, lines 133-150.  The pillars that are not read are default constructed. -/
def readPillars (nx ny : Nat) (f : File) : Res (List (Pillar D) × File) := do
  let size := (nx + 1) * (ny + 1) % W
  let (_, f) ← gotoKeyword cs!"COORD" f
  let (ps, f) ← pillarsLoop size [] none f
  pure (ps ++ List.replicate (size - ps.length) Pillar.zero, f)

/-- Loop over the tokens of a line, lines 216-220. -/
def depthTokens (size : Nat) : List D → List Str → Res (List D)
  | ds, [] => .ok ds
  | ds, t :: ts => do
    let d ← readDouble t
    if ds.length < size then depthTokens size (ds ++ [d]) ts else .ub

/-- Loop of `read_depths_from_file`, lines 213-222.  At end of file the line is empty for ever. -/
def depthsLoop (size : Nat) : List D → File → Res (List D × File)
  | _, [] => .diverge
  | ds, l :: ls =>
    if startsWith l cs!"/" then .ok (ds, ls)
    else do
      let ds ← depthTokens size ds (split l)
      depthsLoop size ds ls

/-- `read_depths_from_file`, lines 207-224.  The depths that are not read are uninitialised: `none`. -/
def readDepths (nx ny nz : Nat) (f : File) : Res (List (Option D)) := do
  let size := 8 * nx * ny * nz % W
  let (_, f) ← gotoKeyword cs!"ZCORN" f
  let (ds, _) ← depthsLoop size [] f
  pure (ds.map some ++ List.replicate (size - ds.length) none)

/-! ## Cells -/

/-- `cell_pillars_id`, lines 339-358: bottom left, top left, bottom right, top right. -/
def pillarIds (nx i j : Nat) : List Nat :=
  let n := nx + 1
  [(i + n * (j + 1)) % W, (i + n * j) % W, (i + n * (j + 1) + 1) % W, (i + n * j + 1) % W]

/-- Indices of the depths and position in `pillarIds` of the pillars of the eight corners, `cell_points`, lines 239-284; `k2` is the third
grid coordinate. -/
def cornerIds (nx ny i j k2 : Nat) : List (Nat × Nat) :=
  [((2 * i + 4 * nx * j + 4 * nx * ny * (k2 + 1) + 2 * nx) % W, 0),
   ((2 * i + 4 * nx * j + 4 * nx * ny * (k2 + 1) + 2 * nx + 1) % W, 2),
   ((2 * i + 4 * nx * j + 4 * nx * ny * (k2 + 1) + 1) % W, 3),
   ((2 * i + 4 * nx * j + 4 * nx * ny * (k2 + 1)) % W, 1),
   ((2 * i + 4 * nx * j + 2 * nx + 4 * nx * ny * k2) % W, 0),
   ((2 * i + 4 * nx * j + 2 * nx + 1 + 4 * nx * ny * k2) % W, 2),
   ((2 * i + 4 * nx * j + 1 + 4 * nx * ny * k2) % W, 3),
   ((2 * i + 4 * nx * j + 4 * nx * ny * k2) % W, 1)]

/-- Reading an uninitialised depth is undefined behaviour. -/
def depthAt (ds : List (Option D)) (i : Nat) : Res D := do
  match ← Res.index ds i with
  | some d => .ok d
  | none => .ub

section
variable [Add D] [Sub D] [Mul D] [Div D] [One D]

/-- `cell_points`, lines 239-284. -/
def cellPoints (nx ny : Nat) (ps : List (Pillar D)) (ds : List (Option D)) (i j k2 : Nat) : Res (List (Pt D)) :=
  Res.mapM' (fun c => do
    let p ← Res.index ps (← Res.index (pillarIds nx i j) c.2)
    let d ← depthAt ds c.1
    pure (interpolate d p)) (cornerIds nx ny i j k2)

/-- The cells in the order of the loops of `create_points`, lines 292-298, with `2 * k` as third coordinate. -/
def cells (nx ny nz : Nat) : List (Nat × Nat × Nat) :=
  (List.range nz).flatMap fun k => (List.range ny).flatMap fun j => (List.range nx).map fun i => (i, j, 2 * k % W)

/-- The corners of all cells, `create_points`, lines 290-307. -/
def allPoints (nx ny nz : Nat) (ps : List (Pillar D)) (ds : List (Option D)) : Res (List (Pt D)) := do
  let r ← Res.mapM' (fun c => cellPoints nx ny ps ds c.1 c.2.1 c.2.2) (cells nx ny nz)
  pure r.flatten

/-- The loaded solid. -/
structure Solid (D : Type) where
  points : List (Pt D)
  hexas : List (List Nat)
  deriving DecidableEq, Repr

/-- `create_cells`, lines 319-337; `merge` gives the unique points and the number of the unique point of each point. -/
def createCells (merge : List (Pt D) → List (Pt D) × List Nat) (nx ny nz : Nat) (ps : List (Pillar D)) (ds : List (Option D)) :
    Res (Solid D) := do
  let pts ← allPoints nx ny nz ps ds
  let (unique, map) := merge pts
  let hexas ← Res.mapM' (fun c => Res.mapM' (fun v => Res.index map (v + 8 * c)) (List.range 8)) (List.range (nx * ny * nz % W))
  pure ⟨unique, hexas⟩

/-- `read_file`, lines 76-88.  `goto_keyword_if_it_exists` rewinds the file when it finds nothing, so the sections are looked for from the
beginning of the file.  `fs` maps the name of an included file to its content; a file that cannot be opened has no line. -/
def load (merge : List (Pt D) → List (Pt D) × List Nat) (fs : Str → Option File) (f : File) : Res (Solid D) := do
  let ((nx, ny, nz), after) ← readDims f
  let inc ← includesLoop false after
  let (ps, rest) ← (match fileOf inc cs!"COORD" with
    | some n => do
      let (ps, _) ← readPillars nx ny ((fs n).getD [])
      pure (ps, f)
    | none => readPillars nx ny f : Res (List (Pillar D) × File))
  let ds ← (match fileOf inc cs!"ZCORN" with
    | some n => readDepths nx ny nz ((fs n).getD [])
    | none => readDepths nx ny nz rest : Res (List (Option D)))
  createCells merge nx ny nz ps ds

end

end Verif.Grdecl
