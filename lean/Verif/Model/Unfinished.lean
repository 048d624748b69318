import Verif.Model.Grdecl
import Verif.Model.Lso
import Verif.Model.Voxet

/-!
# Files whose last line is not finished

A file is a list of lines; here it also tells whether its last line is ended by a line feed.  `std::getline` fails at the end of the file.  It
empties the string when the last line was finished, because the end is met while reading.  It leaves the string as it is when the last line was not
finished, because the end had been met before.  The loops that test the string and not the stream then see the last line again.  This is the case in
`/repo/src/geode/geosciences_io/model/internal/lso_input.cpp` (called `lso`), in `mesh/grdecl_input.cpp` (called `grdecl`), and in the first lines of
`read_data_file` of `mesh/vo_input.cpp` (called `vo`).  The other readers stop their loops with the stream, or read in a new string.

In the definitions `eol` tells that the last line is finished.
-/

namespace Verif.Unfinished

open Verif Verif.Gocad

variable {D : Type} [Num D]

/-- The string after a failed `std::getline`. -/
def keep (eol : Bool) (line : Str) : Str := if eol then [] else line

/-! ## Solids -/

section
open Verif.Lso

/-- `std::getline( file_, line_ )`. -/
def nextLine (eol : Bool) (line : Str) : File → Str × File
  | [] => (keep eol line, [])
  | l :: ls => (l, ls)

/-- The rest of the loop of `read_vertices`, `lso` lines 131-154; `line` is the line just read. -/
def verticesLoop (eol : Bool) (zPos : Bool) (esizes : List Nat) (line : Str) : Solid D → File → Res (Solid D × Str × File)
  | s, [] => .ok (s, keep eol line, [])
  | s, l :: ls =>
    if contains cs!"VRTX" l then readVertex zPos esizes s l >>= fun s => verticesLoop eol zPos esizes l s ls
    else .ok (s, l, ls)

/-- `read_vertices`, `lso` lines 126-156. -/
def readVertices (eol : Bool) (zPos : Bool) (esizes : List Nat) (s : Solid D) (f : File) : Res (Solid D × Str × File) := do
  let (l, f) ← gotoKeywords [cs!"VRTX", cs!"PVRTX"] f
  let s ← readVertex zPos esizes s l
  verticesLoop eol zPos esizes l s f

/-- Sections of region indicators, `lso` lines 180-188 and 214-222. -/
def skipSection (eol : Bool) (kind : Str) (l : Str) (f : File) : Res (Str × File) :=
  if startsWith l (cs!"BEGIN_" ++ kind ++ cs!"_REGION_INDICATORS") then do
    let (_, f) ← gotoKeyword (cs!"END_" ++ kind ++ cs!"_REGION_INDICATORS") f
    pure (nextLine eol l f)
  else .ok (l, f)

/-- The loop of `read_tetrahedra`, `lso` lines 190-212. -/
def readTetras (eol : Bool) (esizes : List Nat) : Solid D → Str → File → Res (Solid D × Str × File)
  | s, l, [] => do
    let s ← readTetra esizes s l (keep eol l)
    pure (s, keep eol l, [])
  | s, l, [l2] => do
    let s ← readTetra esizes s l l2
    pure (s, keep eol l2, [])
  | s, l, l2 :: l3 :: ls => do
    let s ← readTetra esizes s l l2
    if startsWith l3 cs!"TETRA" then readTetras eol esizes s l3 ls else pure (s, l3, ls)

/-- The loops of `read_surfaces` and `read_tfaces` at the end of the file, `lso` lines 235-262, for the string `line`: `read_triangles` stops at
once, a face or a surface is added for ever. -/
def surfacesEnd (st : RState) (line : Str) : Res (RState × Str × File) :=
  if startsWith line cs!"TFACE" then .diverge
  else if startsWith line cs!"SURFACE" then do
    let _ ← Res.index (split line) 1
    .diverge
  else .ok (st, line, [])

/-- The lines of the surfaces, `lso` lines 224-317; `line` is the line just read. -/
def surfacesLoop (eol : Bool) (s : Solid D) (line : Str) : RState × Mode → File → Res (RState × Str × File)
  | (st, _), [] => surfacesEnd st (keep eol line)
  | (st, mode), l :: ls => do
    match ← surfacesStep s (st, mode) l with
    | none => pure (st, l, ls)
    | some r => surfacesLoop eol s l r ls

/-- `read_surfaces`, `lso` lines 224-246. -/
def readSurfaces (eol : Bool) (s : Solid D) (l : Str) (f : File) : Res (RState × Str × File) := do
  let f ← (if startsWith l cs!"MODEL" then .ok f else do
    let (_, f) ← gotoKeyword cs!"MODEL" f
    pure f)
  match f with
  | [] => surfacesEnd {} (keep eol l)
  | l :: ls =>
    match ← surfaceLine {} l with
    | none => pure ({}, l, ls)
    | some r => surfacesLoop eol s l r ls

/-- `read_blocks`, `lso` lines 341-354: a last line that is not finished adds a block for ever. -/
def readBlocks (eol : Bool) (h : Headers D) (s : Solid D) (st : RState) : List (RBlock D) × Bool → Str → File → Res (List (RBlock D) × Bool)
  | (bs, i), l, [] =>
    if startsWith l cs!"MODEL_REGION" then do
      let (b, j) ← readBlock h s st l
      if eol then pure (bs ++ [b], i || j) else .diverge
    else .ok (bs, i)
  | (bs, i), l, l2 :: ls =>
    if startsWith l cs!"MODEL_REGION" then do
      let (b, j) ← readBlock h s st l
      readBlocks eol h s st (bs ++ [b], i || j) l2 ls
    else .ok (bs, i)

/-- The end of `read_file`, `lso` lines 112-113, from the line after the tetrahedra on. -/
def loadModel (eol : Bool) (name : Option Str) (h : Headers D) (s : Solid D) (l : Str) (f : File) : Res (Loaded D) := do
  let (st, l, f) ← readSurfaces eol s l f
  let (blocks, inspect) ← readBlocks eol h s st ([], false) l f
  pure { name, solid := s, horizons := st.horizons, surfaces := st.surfaces, blocks, inspect := st.inspect || inspect }

/-- `read_file` up to the tetrahedra, `lso` lines 90-111: the name, the property headers, the solid, the line after the tetrahedra and what follows. -/
def loadFront (eol : Bool) (f : File) : Res (Option Str × Headers D × Solid D × Str × File) := do
  let (_, f) ← gotoKeyword cs!"GOCAD LightTSolid" f
  let (name, f) ← readHeader f
  let (crs, f) ← readCrs f
  let (vh, f) ← readPropHeader [] f
  let (th, f) ← readPropHeader cs!"TETRA_" f
  let s0 : Solid D := { vattrs := vh.names.map fun _ => [], tattrs := th.names.map fun _ => [] }
  let (s, l, f) ← readVertices eol crs.zPos vh.esizes s0 f
  let (l, f) ← skipSection eol cs!"VERTEX" l f
  let (s, l, f) ← readTetras eol th.esizes s l f
  let (l, f) ← skipSection eol cs!"TETRA" l f
  pure (name, ⟨vh, th⟩, s, l, f)

/-- `read_file`, `lso` lines 90-118. -/
def loadLso (eol : Bool) (f : File) : Res (Loaded D) := do
  let (name, h, s, l, f) ← loadFront eol f
  loadModel eol name h s l f

end

/-! ## Corner point grids -/

section
open Verif.Grdecl

/-- `get_filenames_and_keywords`, `grdecl` lines 90-117; `line` is the line before when it is an `INCLUDE`. -/
def includesLoop (eol : Bool) : Option Str → File → Res (List (Str × Str))
  | none, [] => .ok []
  | some line, [] => includeLine (keep eol line)
  | some _, l :: ls => do
    let a ← includeLine l
    let b ← includesLoop eol none ls
    pure (a ++ b)
  | none, l :: ls => includesLoop eol (if startsWith l cs!"INCLUDE" then some l else none) ls

/-- The loop of `read_pillars_from_file` at the end of the file, `grdecl` lines 140-149 and 152-191, for the string `line` and at most `n` turns.
The bottom of a pillar on the next line is read in a new string, which stays empty. -/
def pillarsEnd (size : Nat) (line : Str) : Nat → List (Pillar D) → Res (List (Pillar D) × File)
  | 0, _ => .diverge
  | n + 1, ps =>
    if startsWith line cs!"/" then .ok (ps, [])
    else
      let tokens := split line
      if tokens.isEmpty then pillarsEnd size line n ps
      else if tokens.length = 6 then do
        let top ← readPt tokens 0
        let bottom ← readPt tokens 3
        if ps.length < size then pillarsEnd size line n (ps ++ [⟨top, bottom⟩]) else .ub
      else if tokens.length = 3 then do
        let _ ← readPt (D := D) tokens 0
        .ub
      else .throw

/-- The loop of `read_pillars_from_file`, `grdecl` lines 140-149, with `read_pillar`, lines 152-191; `line` is the value of the string `line`.  A turn
at the end of the file that adds a pillar is followed by at most `size` others: the number of turns given is enough for a loop that ends. -/
def pillarsLoop (eol : Bool) (size : Nat) (line : Str) : List (Pillar D) → Option (Pt D) → File → Res (List (Pillar D) × File)
  | ps, none, [] => pillarsEnd size (keep eol line) (size + 1) ps
  | _, some _, [] => .ub
  | ps, some top, l :: ls => do
    let bottom ← readPt (split l) 0
    if ps.length < size then pillarsLoop eol size line (ps ++ [⟨top, bottom⟩]) none ls else .ub
  | ps, none, l :: ls =>
    if startsWith l cs!"/" then .ok (ps, ls)
    else
      let tokens := split l
      if tokens.isEmpty then pillarsLoop eol size l ps none ls
      else if tokens.length = 6 then do
        let top ← readPt tokens 0
        let bottom ← readPt tokens 3
        if ps.length < size then pillarsLoop eol size l (ps ++ [⟨top, bottom⟩]) none ls else .ub
      else if tokens.length = 3 then do
        let top ← readPt tokens 0
        pillarsLoop eol size l ps (some top) ls
      else .throw

/-- `read_pillars_from_file`, `grdecl` lines 133-150. -/
def readPillars (eol : Bool) (nx ny : Nat) (f : File) : Res (List (Pillar D) × File) := do
  let size := (nx + 1) * (ny + 1) % W
  let (l, f) ← gotoKeyword cs!"COORD" f
  let (ps, f) ← pillarsLoop eol size l [] none f
  pure (ps ++ List.replicate (size - ps.length) Pillar.zero, f)

/-- The loop of `read_depths_from_file` at the end of the file, for the string `line` and at most `n` turns. -/
def depthsEnd (size : Nat) (line : Str) : Nat → List D → Res (List D × File)
  | 0, _ => .diverge
  | n + 1, ds =>
    if startsWith line cs!"/" then .ok (ds, [])
    else do
      let ds ← depthTokens size ds (split line)
      depthsEnd size line n ds

/-- Loop of `read_depths_from_file`, `grdecl` lines 213-222. -/
def depthsLoop (eol : Bool) (size : Nat) (line : Str) : List D → File → Res (List D × File)
  | ds, [] => depthsEnd size (keep eol line) (size + 1) ds
  | ds, l :: ls =>
    if startsWith l cs!"/" then .ok (ds, ls)
    else do
      let ds ← depthTokens size ds (split l)
      depthsLoop eol size l ds ls

/-- `read_depths_from_file`, `grdecl` lines 207-224. -/
def readDepths (eol : Bool) (nx ny nz : Nat) (f : File) : Res (List (Option D)) := do
  let size := 8 * nx * ny * nz % W
  let (l, f) ← gotoKeyword cs!"ZCORN" f
  let (ds, _) ← depthsLoop eol size l [] f
  pure (ds.map some ++ List.replicate (size - ds.length) none)

/-- An included file; one that cannot be opened gives no lines. -/
def included (fs : Str → Option (Bool × File)) (n : Str) : Bool × File := (fs n).getD (true, [])

/-- `read_file`, `grdecl` lines 76-88; `fs` gives the included files and whether their last lines are finished.  `read_dimensions` is not
concerned: a line without `F` is read again for ever, as an empty one. -/
def loadGrdecl [Add D] [Sub D] [Mul D] [Div D] [One D] (merge : List (Pt D) → List (Pt D) × List Nat) (fs : Str → Option (Bool × File)) (eol : Bool)
    (f : File) : Res (Solid D) := do
  let ((nx, ny, nz), after) ← readDims f
  let inc ← includesLoop eol none after
  let (ps, rest) ← (match fileOf inc cs!"COORD" with
    | some n => do
      let (ps, _) ← readPillars (included fs n).1 nx ny (included fs n).2
      pure (ps, f)
    | none => readPillars eol nx ny f : Res (List (Pillar D) × File))
  let ds ← (match fileOf inc cs!"ZCORN" with
    | some n => readDepths (included fs n).1 nx ny nz (included fs n).2
    | none => readDepths eol nx ny nz rest : Res (List (Option D)))
  createCells merge nx ny nz ps ds

end

/-! ## Voxets -/

/-- `read_data_file` once the data file is open, `vo` lines 172-209: without a second line, the string has the first one. -/
def readData (eol : Bool) (size : Voxet.Ijk) (f : File) : Res (List (Str × List D)) := do
  let tokens := split (f.getD 1 (keep eol (f.headD [])))
  Res.check (4 ≤ tokens.length)
  let names := tokens.drop 4
  Res.foldM' (Voxet.dataLine size names) (names.foldl (Voxet.addCol (Voxet.nbCells size)) []) (f.drop 3)

end Verif.Unfinished
