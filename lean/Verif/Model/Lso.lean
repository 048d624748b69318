import Verif.Model.GocadMesh
import Verif.Model.Sides

/-!
# GOCAD solids (`.lso`)

Model of `/repo/src/geode/geosciences_io/model/internal/lso_output.cpp` (called `out` below) and of the reading of vertices, tetrahedra, surfaces
and blocks in `lso_input.cpp` (called `in`).  Identifiers (`uuid`) are natural numbers compared as such.  Cells are lists of vertices: four for a
tetrahedron, three for a triangle.
-/

namespace Verif.Lso

open Verif Verif.Gocad Verif.GocadMesh

variable {D : Type} [Num D]

/-! ## Models to save -/

/-- `ComponentMeshVertex`: a vertex of the mesh of a block, or of another component. -/
structure Cmv where
  isBlock : Bool
  id : Nat
  vertex : Nat
  deriving DecidableEq, Repr

/-- A block; `name` is its name, or its identifier when it has none. -/
structure Block (D : Type) where
  id : Nat
  name : Str
  points : List (Pt D) := []
  tetras : List (List Nat) := []
  boundaries : List Nat := []

/-- A surface. -/
structure Surface where
  id : Nat
  triangles : List (List Nat) := []

/-- A model.  `uniques` has the component mesh vertices of every unique vertex; the collections have a name (or identifier) and surfaces. -/
structure Model (D : Type) where
  name : Option Str := none
  uniques : List (List Cmv) := []
  blocks : List (Block D) := []
  surfaces : List Surface := []
  horizons : List (Str × List Nat) := []
  faults : List (Str × List Nat) := []
  boundaries : List (Str × List Nat) := []

/-- `model_.unique_vertex( cmv )`, `NO_ID` when there is none. -/
def uniqueOf (m : Model D) (c : Cmv) : Nat := ((m.uniques.findIdx? fun l => l.contains c)).getD NO_ID

/-! ## Writing -/

/-- `model_.block( id )`, which throws for an unknown identifier. -/
def blockOf (m : Model D) (id : Nat) : Res (Block D) := Res.ofParse (m.blocks.find? fun b => b.id = id)

/-- `first_block`, `out` lines 254-270: the place of the smallest identifier, the first one when there are several. -/
def firstBlock : List Cmv → Nat
  | [] => 0
  | [_] => 0
  | a :: b :: r =>
    let i := firstBlock (b :: r)
    match (b :: r)[i]? with
    | some c => if c.id < a.id then i + 1 else 0
    | none => 0

/-- What has been written of the vertices, `out` lines 207-252. -/
structure VState where
  vertices : List (List (Cmv × Nat)) := []
  nb : Nat
  atoms : List Nat := []
  lines : File := []

/-- One unique vertex, `out` lines 213-246.  `v` is its number.  `block_vertices.front()` is undefined when no block has the vertex. -/
def writeVertex (m : Model D) (st : VState) (v : Nat) (cmvs : List Cmv) : Res VState := do
  let bs := cmvs.filter Cmv.isBlock
  let first := firstBlock bs
  let c ← Res.index bs first
  let b ← blockOf m c.id
  let p ← Res.index b.points c.vertex
  let others := bs.eraseIdx first
  let numbers := (others.zipIdx (st.nb + 1)).foldl (fun a e => Sides.emplace a e.1 e.2) [(c, v + 1)]
  pure { vertices := st.vertices ++ [numbers], nb := st.nb + others.length, atoms := st.atoms ++ others.map (fun _ => v + 1)
         lines := st.lines ++ [cs!"VRTX" ++ spaced (showNat (v + 1) :: p.toks)] }

/-- The loop of `write_vertices`. -/
def writeVerticesFrom (m : Model D) : VState → Nat → List (List Cmv) → Res VState
  | st, _, [] => .ok st
  | st, v, c :: cs => do
    let st ← writeVertex m st v c
    writeVerticesFrom m st (v + 1) cs

/-- The `SHAREDVRTX` lines, numbered from `n`; `out` lines 248-251. -/
def sharedLines : Nat → List Nat → File
  | _, [] => []
  | n, a :: as => (cs!"SHAREDVRTX" ++ spaced [showNat n, showNat a]) :: sharedLines (n + 1) as

/-- `write_vertices`, `out` lines 207-252: the numbers of the vertices, and the lines. -/
def writeVertices (m : Model D) : Res (List (List (Cmv × Nat)) × File) := do
  let st ← writeVerticesFrom m { nb := m.uniques.length } 0 m.uniques
  pure (st.vertices, st.lines ++ sharedLines (m.uniques.length + 1) st.atoms)

/-- `vertices_.at( unique ).at( { id, vertex } )`, `out` lines 193-198. -/
def vertexNumber (m : Model D) (vertices : List (List (Cmv × Nat))) (c : Cmv) : Res Nat := do
  let l ← Res.at_ vertices (uniqueOf m c)
  Res.ofParse (Sides.find l c)

/-- One tetrahedron: two lines. -/
def writeTetra (m : Model D) (vertices : List (List (Cmv × Nat))) (b : Block D) (t : List Nat) : Res File := do
  let ns ← Res.mapM' (fun v => vertexNumber m vertices ⟨true, b.id, v⟩) t
  pure [cs!"TETRA" ++ spaced (ns.map showNat), cs!"# CTETRA" ++ spaced [b.name, cs!"none", cs!"none", cs!"none", cs!"none"]]

/-- `write_tetrahedron`, `out` lines 182-205. -/
def writeTetras (m : Model D) (vertices : List (List (Cmv × Nat))) : Res File := do
  let ls ← Res.mapM' (fun b => Res.mapM' (writeTetra m vertices b) b.tetras) m.blocks
  pure (ls.map List.flatten).flatten

/-- The words of `write_triangle`, `out` lines 170-180. -/
def triangleToks (m : Model D) (s : Surface) (t : List Nat) : List Str :=
  t.map fun v => showNat ((uniqueOf m ⟨false, s.id, v⟩ + 1) % W)

/-- State of `write_surfaces`: `exported_surfaces_`, next number, lines. -/
structure SState where
  exported : List (Nat × Nat) := []
  next : Nat := 1
  lines : File := []

/-- One surface, `out` lines 147-164. -/
def writeFace (m : Model D) (st : SState) (i : Nat) : Res SState :=
  if st.exported.any (fun e => e.1 = i) then .ok st
  else do
    let s ← Res.ofParse (m.surfaces.find? fun s => s.id = i)
    let t ← Res.index s.triangles 0
    pure { exported := st.exported ++ [(i, st.next)], next := st.next + 1
           lines := st.lines ++ [cs!"TFACE" ++ spaced [showNat st.next], cs!"KEYVERTICES" ++ spaced (triangleToks m s t)]
             ++ s.triangles.map fun t => cs!"TRGL" ++ spaced (triangleToks m s t) }

/-- One collection, `out` lines 128-165. -/
def writeCollection (m : Model D) (st : SState) (c : Str × List Nat) : Res SState :=
  if c.2.all (fun i => st.exported.any fun e => e.1 = i) then .ok st
  else Res.foldM' (writeFace m) { st with lines := st.lines ++ [cs!"SURFACE" ++ spaced [c.1]] } c.2

/-- `write_regions`, `out` lines 104-122: a block without boundary is undefined. -/
def writeRegion (sides : Sides.AllSides) (exported : List (Nat × Nat)) (b : Block D) : Res Str := do
  let s ← Res.index b.boundaries 0
  let side ← Res.ofParse (Sides.find sides.regions (b.id, s))
  let n ← Res.ofParse (Sides.find exported s)
  pure (cs!"MODEL_REGION" ++ spaced [b.name, (if side then '+' else '-') :: showNat n])

/-- `write_file`, `out` lines 78-102. -/
def saveLso (m : Model D) (sides : Sides.AllSides) : Res File := do
  let (vertices, vlines) ← writeVertices m
  let tlines ← writeTetras m vertices
  let st ← Res.foldM' (writeCollection m) {} (m.horizons ++ m.faults ++ m.boundaries)
  let regions ← Res.mapM' (writeRegion sides st.exported) m.blocks
  pure ([cs!"GOCAD LightTSolid 1"] ++ writeHeader m.name ++ writeCrs {} ++ vlines ++ tlines ++ [cs!"MODEL"] ++ st.lines ++ regions ++ [cs!"END"])

/-! ## Reading the solid -/

/-- The solid that holds the vertices and tetrahedra of all the blocks; `ids` is the attribute `vertex_id_`. -/
structure Solid (D : Type) where
  points : List (Pt D) := []
  ids : List Nat := []
  nbUnique : Nat := 0
  tetras : List (List Nat) := []
  names : List Str := []
  vattrs : List (List D) := []
  tattrs : List (List D) := []
  deriving DecidableEq, Repr

/-- `std::getline( file_, line_ )`: an empty line at the end of the file. -/
def nextLine : File → Str × File
  | [] => ([], [])
  | l :: ls => (l, ls)

/-- One line of `read_vertices`, `in` lines 131-152. -/
def readVertex (zPos : Bool) (esizes : List Nat) (s : Solid D) (l : Str) : Res (Solid D) :=
  let tokens := split l
  if startsWith l cs!"SHARED" then do
    let n ← readIndex (← Res.index tokens 2)
    let u := sub32 n 1
    let p ← Res.index s.points u
    let vattrs ← readProperties esizes s.vattrs (tokens.drop 3)
    if u < s.nbUnique then pure { s with points := s.points ++ [p], ids := s.ids ++ [u], vattrs } else .ub
  else do
    let p ← readPoint zPos tokens
    let vattrs ← readProperties esizes s.vattrs (tokens.drop 5)
    pure { s with points := s.points ++ [p], ids := s.ids ++ [s.nbUnique], nbUnique := s.nbUnique + 1, vattrs }

/-- The rest of the loop of `read_vertices` once a line has been read: the first line that does not contain `VRTX`, and what follows. -/
def readVerticesLoop (zPos : Bool) (esizes : List Nat) : Solid D → File → Res (Solid D × Str × File)
  | s, [] => .ok (s, [], [])
  | s, l :: ls =>
    if contains cs!"VRTX" l then readVertex zPos esizes s l >>= fun s => readVerticesLoop zPos esizes s ls
    else .ok (s, l, ls)

/-- `read_vertices`, `in` lines 126-156. -/
def readVertices (zPos : Bool) (esizes : List Nat) (s : Solid D) (f : File) : Res (Solid D × Str × File) := do
  let (l, f) ← gotoKeywords [cs!"VRTX", cs!"PVRTX"] f
  let s ← readVertex zPos esizes s l
  readVerticesLoop zPos esizes s f

/-- Sections of region indicators, `in` lines 180-188 and 214-222. -/
def skipSection (kind : Str) (l : Str) (f : File) : Res (Str × File) :=
  if startsWith l (cs!"BEGIN_" ++ kind ++ cs!"_REGION_INDICATORS") then do
    let (_, f) ← gotoKeyword (cs!"END_" ++ kind ++ cs!"_REGION_INDICATORS") f
    pure (nextLine f)
  else .ok (l, f)

/-- A cell given to the builder: a vertex that does not exist violates the precondition. -/
def createCell (nb : Nat) (t : List Nat) : Res (List Nat) := if t.all fun v => decide (v < nb) then .ok t else .ub

/-- The vertices of a cell: words 1 to `n` of a line. -/
def readCell (n : Nat) (tokens : List Str) : Res (List Nat) :=
  Res.mapM' (fun i => do
    let v ← readIndex (← Res.index tokens i)
    pure (sub32 v 1)) (List.range' 1 n)

/-- One tetrahedron: its line and the line after it, `in` lines 193-208. -/
def readTetra (esizes : List Nat) (s : Solid D) (l l2 : Str) : Res (Solid D) := do
  let vs ← readCell 4 (split l)
  let t ← createCell s.points.length vs
  let tattrs ← readProperties esizes s.tattrs ((split l).drop 5)
  let name ← Res.index (split l2) 2
  pure { s with tetras := s.tetras ++ [t], names := s.names ++ [name], tattrs }

/-- The loop of `read_tetrahedra`, `in` lines 190-212, for the current line and the lines after it. -/
def readTetras (esizes : List Nat) : Solid D → Str → File → Res (Solid D × Str × File)
  | s, l, [] => do
    let s ← readTetra esizes s l []
    pure (s, [], [])
  | s, l, [l2] => do
    let s ← readTetra esizes s l l2
    pure (s, [], [])
  | s, l, l2 :: l3 :: ls => do
    let s ← readTetra esizes s l l2
    if startsWith l3 cs!"TETRA" then readTetras esizes s l3 ls else pure (s, l3, ls)

/-! ## Reading the surfaces -/

/-- A surface read; `vertices` has the vertices of the solid its points are made from, in order. -/
structure RSurface where
  name : Str
  horizon : Nat
  vertices : List Nat := []
  triangles : List (List Nat) := []
  deriving DecidableEq, Repr

/-- A facet of the solid, given by its sorted vertices. -/
def facetKey (t : List Nat) : List Nat := t.foldr (fun a l => (l.filter (· ≤ a)) ++ a :: l.filter fun b => !(b ≤ a)) []

/-- The facets of a tetrahedron. -/
def facets : List Nat → List (List Nat)
  | [a, b, c, d] => [facetKey [b, c, d], facetKey [a, c, d], facetKey [a, b, d], facetKey [a, b, c]]
  | _ => []

/-- What has been read of the surfaces: `facetIds` is the attribute `facet_id_`, last value first; `inspect` is `inspect_required_`. -/
structure RState where
  horizons : List Str := []
  surfaces : List RSurface := []
  facetIds : List (List Nat × Nat) := []
  inspect : Bool := false
  deriving DecidableEq, Repr

/-- Number of a vertex of the solid in a mesh made of the vertices met so far (`vertex_mapping`, `in` lines 283-298 and 373-390). -/
def localVertex (used : List Nat) (v : Nat) : List Nat × Nat :=
  if used.contains v then (used, used.idxOf v) else (used ++ [v], used.length)

/-- The vertices of a cell in such a mesh. -/
def localCell : List Nat → List Nat → List Nat × List Nat
  | used, [] => (used, [])
  | used, v :: vs =>
    let (used, i) := localVertex used v
    let (used, is) := localCell used vs
    (used, i :: is)

/-- The vertices of the solid with the given unique vertex: `vertex_mapping_[u]`. -/
def copies (s : Solid D) (u : Nat) : Res (List Nat) :=
  if u < s.nbUnique then .ok ((List.range s.ids.length).filter fun i => s.ids[i]? = some u) else .ub

/-- `facets_from_vertices`, `in` lines 319-339. -/
def facetsFrom (s : Solid D) (t : List Nat) : Res (List (List Nat)) := do
  let a ← Res.index t 0
  let b ← Res.index t 1
  let c ← Res.index t 2
  let as ← copies s a
  let bs ← copies s b
  let cs ← copies s c
  pure ((as.flatMap fun a => bs.flatMap fun b => cs.map fun c => facetKey [a, b, c]).filter fun k => s.tetras.any fun t => (facets t).contains k)

/-- A `TRGL` line, `in` lines 275-314, for the surface being read, which is the last one. -/
def readTriangle (s : Solid D) (st : RState) (l : Str) : Res RState := do
  let t ← readCell 3 (split l)
  let _ ← Res.mapM' (Res.index s.points) t
  let fs ← facetsFrom s t
  match st.surfaces.reverse with
  | [] => .ub
  | cur :: before =>
    let (used, is) := localCell cur.vertices t
    pure { st with
      surfaces := before.reverse ++ [{ cur with vertices := used, triangles := cur.triangles ++ [is] }]
      facetIds := fs.reverse.map (fun k => (k, before.length)) ++ st.facetIds
      inspect := st.inspect || fs.isEmpty }

/-- The loop that reads the next line. -/
inductive Mode
  | faces
  | key
  | triangles
  deriving DecidableEq, Repr

/-- A line in the loop of `read_surfaces`; `none` at its end. -/
def surfaceLine (st : RState) (l : Str) : Res (Option (RState × Mode)) :=
  if startsWith l cs!"SURFACE" then do
    let _ ← Res.index (split l) 1
    pure (some ({ st with horizons := st.horizons ++ [readName ((split l).drop 1)] }, .faces))
  else .ok none

/-- A line in the loop of `read_tfaces`, or in that of `read_surfaces` once the former has ended. -/
def faceLine (st : RState) (l : Str) : Res (Option (RState × Mode)) :=
  if startsWith l cs!"TFACE" then
    .ok (some ({ st with surfaces := st.surfaces ++ [{ name := st.horizons.getLastD [], horizon := st.horizons.length - 1 }] }, .key))
  else surfaceLine st l

/-- A line of the surfaces: `in` lines 224-317.  The three loops read lines of the same stream; the mode is the loop that reads. -/
def surfacesStep (s : Solid D) : RState × Mode → Str → Res (Option (RState × Mode))
  | (st, .faces), l => faceLine st l
  | (st, .key), _ => .ok (some (st, .triangles))
  | (st, .triangles), l =>
    if startsWith l cs!"TRGL" then do
      let st ← readTriangle s st l
      pure (some (st, .triangles))
    else faceLine st l

/-- The lines of the surfaces: what is read, the first line after them, and the following ones. -/
def readSurfacesLoop (s : Solid D) : RState × Mode → File → Res (RState × Str × File)
  | (st, _), [] => .ok (st, [], [])
  | (st, mode), l :: ls => do
    match ← surfacesStep s (st, mode) l with
    | none => pure (st, l, ls)
    | some r => readSurfacesLoop s r ls

/-- `read_surfaces`, `in` lines 224-246. -/
def readSurfaces (s : Solid D) (l : Str) (f : File) : Res (RState × Str × File) := do
  let f ← (if startsWith l cs!"MODEL" then .ok f else do
    let (_, f) ← gotoKeyword cs!"MODEL" f
    pure f)
  match f with
  | [] => pure ({}, [], [])
  | l :: ls =>
    match ← surfaceLine {} l with
    | none => pure ({}, l, ls)
    | some r => readSurfacesLoop s r ls

/-! ## Blocks -/

/-- A block read: `vertices` has the vertices of the solid that its points are made from. -/
structure RBlock (D : Type) where
  name : Str
  vertices : List Nat := []
  tetras : List (List Nat) := []
  boundaries : List Nat := []
  internals : List Nat := []
  vstore : Store D := []
  tstore : Store D := []
  deriving DecidableEq, Repr

/-- The tetrahedra of the solid that have the name of a block. -/
def tetrasNamed (s : Solid D) (name : Str) : List (List Nat) := ((s.tetras.zip s.names).filter fun e => e.2 = name).map Prod.fst

/-- The loop of `build_block_mesh`, `in` lines 367-395. -/
def localCells : List Nat → List (List Nat) → List Nat × List (List Nat)
  | used, [] => (used, [])
  | used, t :: ts =>
    let (used, t) := localCell used t
    let (used, ts) := localCells used ts
    (used, t :: ts)

/-- Number of facets of the tetrahedra of a block that belong to a surface: `find_block_relations`, `in` lines 408-441. -/
def relationCount (facetIds : List (List Nat × Nat)) (tetras : List (List Nat)) (surface : Nat) : Nat :=
  ((tetras.flatMap facets).filter fun k => Sides.find facetIds k = some surface).length

/-- `nb_relations` of `build_block_relations`, `in` lines 443-469; `none` when the surface has no facet in the block. -/
def relation (st : RState) (tetras : List (List Nat)) (i : Nat) (surface : RSurface) : Option Nat :=
  let n := relationCount st.facetIds tetras i
  if n = 0 then none else some (n / surface.triangles.length)

/-- The property headers and the values read. -/
structure Headers (D : Type) where
  vertices : PropHeader D := {}
  tetras : PropHeader D := {}

/-- The relations of a block with the surfaces. -/
def relationsOf (st : RState) (tetras : List (List Nat)) : List (Nat × Option Nat) :=
  st.surfaces.zipIdx.map fun e => (e.2, relation st tetras e.2 e.1)

/-- `create_attributes` with the number of vertices and the inverse vertex mapping, for an attribute manager with `size` elements. -/
def blockAttributes (h : PropHeader D) (values : List (List D)) (size : Nat) (inverse : List Nat) : Res (Store D) :=
  createAttributes size inverse [] h.names h.esizes h.noData values

/-- One `MODEL_REGION` line, `in` lines 341-406 and 443-469: the block, and whether the model has to be inspected.  The attributes of the
tetrahedra are filled with the number and the mapping of the vertices, `in` lines 402-405. -/
def readBlock (h : Headers D) (s : Solid D) (st : RState) (l : Str) : Res (RBlock D × Bool) := do
  let name ← Res.index (split l) 1
  let mine := tetrasNamed s name
  let (used, tetras) := localCells [] mine
  let vstore ← blockAttributes h.vertices s.vattrs used.length used
  let tstore ← blockAttributes h.tetras s.tattrs tetras.length used
  let rel := relationsOf st mine
  pure ({ name, vertices := used, tetras, vstore, tstore
          boundaries := (rel.filter fun r => r.2 = some 1).map Prod.fst
          internals := (rel.filter fun r => r.2 = some 2).map Prod.fst },
        rel.any fun r => r.2 ≠ none ∧ r.2 ≠ some 1 ∧ r.2 ≠ some 2)

/-- `read_blocks`, `in` lines 341-354. -/
def readBlocks (h : Headers D) (s : Solid D) (st : RState) : List (RBlock D) × Bool → Str → File → Res (List (RBlock D) × Bool)
  | (bs, i), l, [] =>
    if startsWith l cs!"MODEL_REGION" then do
      let (b, j) ← readBlock h s st l
      pure (bs ++ [b], i || j)
    else .ok (bs, i)
  | (bs, i), l, l2 :: ls =>
    if startsWith l cs!"MODEL_REGION" then do
      let (b, j) ← readBlock h s st l
      readBlocks h s st (bs ++ [b], i || j) l2 ls
    else .ok (bs, i)

/-- What is loaded, before the corners and lines are built. -/
structure Loaded (D : Type) where
  name : Option Str := none
  solid : Solid D := {}
  horizons : List Str := []
  surfaces : List RSurface := []
  blocks : List (RBlock D) := []
  inspect : Bool := false
  deriving DecidableEq, Repr

/-- `read_file`, `in` lines 90-118. -/
def loadLso (f : File) : Res (Loaded D) := do
  let (_, f) ← gotoKeyword cs!"GOCAD LightTSolid" f
  let (name, f) ← readHeader f
  let (crs, f) ← readCrs f
  let (vh, f) ← readPropHeader [] f
  let (th, f) ← readPropHeader cs!"TETRA_" f
  let s0 : Solid D := { vattrs := vh.names.map fun _ => [], tattrs := th.names.map fun _ => [] }
  let (s, l, f) ← readVertices crs.zPos vh.esizes s0 f
  let (l, f) ← skipSection cs!"VERTEX" l f
  let (s, l, f) ← readTetras th.esizes s l f
  let (l, f) ← skipSection cs!"TETRA" l f
  let (st, l, f) ← readSurfaces s l f
  let (blocks, inspect) ← readBlocks ⟨vh, th⟩ s st ([], false) l f
  pure { name, solid := s, horizons := st.horizons, surfaces := st.surfaces, blocks, inspect := st.inspect || inspect }

/-- Points of a loaded mesh: those of its vertices in the solid. -/
def meshPoints (s : Solid D) (vertices : List Nat) : Res (List (Pt D)) := Res.mapM' (Res.index s.points) vertices

end Verif.Lso
