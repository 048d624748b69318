import Verif.Model.GocadMesh
import Verif.Model.Sides

/-!
# GOCAD structural models (`.ml`)

Model of `/repo/include/geode/geosciences_io/model/internal/ml_output_impl.hpp` (called `impl` below), `ml_output_brep.cpp`,
`ml_output_structural_model.cpp` (called `sm`) and of the reading of components and surfaces in `ml_input.cpp` (called `in`), all in
`/repo/src/geode/geosciences_io/model/internal/`.  Identifiers (`uuid`) of surfaces and of blocks are natural numbers; a surface and a block never
have the same `uuid`, so the map `components_` is modelled as one map for the surfaces and one for the blocks.
-/

namespace Verif.Ml

open Verif Verif.Gocad Verif.GocadMesh

variable {D : Type} [Num D]

/-! ## Models to save -/

/-- `Fault3D::FAULT_TYPE`. -/
inductive FaultType | noType | normal | reverse | strikeSlip | listric | decollement
  deriving DecidableEq, Repr

/-- `Horizon3D::CONTACT_TYPE`. -/
inductive Contact | conformal | topography | intrusion | discontinuity | erosion | baselap
  deriving DecidableEq, Repr

/-- `fault_map_`, `sm` lines 216-222. -/
def faultText : FaultType → Str
  | .normal => cs!"normal_fault"
  | .reverse => cs!"reverse_fault"
  | _ => cs!"fault"

/-- `horizon_map_.at( contact )`, `sm` lines 223-229. -/
def contactText : Contact → Res Str
  | .conformal => .ok cs!"top"
  | .topography => .ok cs!"topographic"
  | .intrusion => .ok cs!"intrusive"
  | .discontinuity => .ok cs!"unconformity"
  | .erosion => .throw
  | .baselap => .throw

/-- A surface.  `name` is its name, or its identifier when it has none; `starts` has the pairs of vertices found by
`add_corners_and_line_starts` (`impl` lines 318-368): a vertex on a corner and the one before it along the border. -/
structure Surface (D : Type) where
  id : Nat
  name : Str := []
  points : List (Pt D) := []
  triangles : List Tri := []
  starts : List (Nat × Nat) := []

/-- A block, with its boundary and internal surfaces. -/
structure Block where
  id : Nat
  name : Str := []
  boundaries : List Nat := []
  internals : List Nat := []

/-- A model: its surfaces, the collections of surfaces, the blocks and the collections of blocks.  `others` has the surfaces that belong to
another kind of collection. -/
structure Model (D : Type) where
  name : Option Str := none
  surfaces : List (Surface D) := []
  boundaries : List (Str × List Nat) := []
  faults : List (FaultType × Option Str × List Nat) := []
  horizons : List (Contact × Option Str × List Nat) := []
  others : List Nat := []
  blocks : List Block := []
  units : List (Option Str × List Nat) := []
  faultBlocks : List (Option Str × List Nat) := []
  isBRep : Bool := false

/-- `component_name`, `impl` lines 479-485. -/
def componentName (s : Str) : Str := s.map fun c => if c = ' ' then '_' else c

/-- `name().value()`, which throws when there is no name. -/
def nameValue (o : Option Str) : Res Str := Res.ofParse o

/-- `model_.surface( id )`. -/
def surfaceOf (m : Model D) (id : Nat) : Res (Surface D) := Res.ofParse (m.surfaces.find? fun s => s.id = id)

/-- `unclassified_tsurfs`, `ml_output_brep.cpp` lines 52-73 and `sm` lines 109-120. -/
def unclassified (m : Model D) : List (Surface D) :=
  m.surfaces.filter fun s =>
    !(m.boundaries.any fun b => b.2.contains s.id) &&
      (m.isBRep || (!(m.faults.any fun f => f.2.2.contains s.id) && !(m.horizons.any fun h => h.2.2.contains s.id)
        && !(m.others.contains s.id)))

/-- The faults and horizons that are written: a `BRep` has none (`ml_output_brep.cpp` lines 48-50, 75-77). -/
def faultsOf (m : Model D) : List (FaultType × Option Str × List Nat) := if m.isBRep then [] else m.faults
/-- See `faultsOf`. -/
def horizonsOf (m : Model D) : List (Contact × Option Str × List Nat) := if m.isBRep then [] else m.horizons

/-! ## Writing the components -/

/-- `write_tsurfs`, `impl` lines 161-175 and `sm` lines 97-107. -/
def writeTsurfs (m : Model D) : Res File := do
  let faults ← Res.mapM' (fun f => nameValue f.2.1) (faultsOf m)
  let horizons ← Res.mapM' (fun h => nameValue h.2.1) (horizonsOf m)
  pure ((m.boundaries.map (fun b => componentName b.1) ++ faults ++ horizons
    ++ (unclassified m).map (fun s => componentName s.name)).map fun n => cs!"TSURF" ++ spaced [n])

/-- One line of `write_key_triangle`, `impl` lines 148-154. -/
def keyLine (s : Surface D) (v : Nat) : Res Str := do
  let p ← Res.index s.points v
  pure (cs!"  " ++ join p.toks)

/-- `write_key_triangle`, `impl` lines 144-155. -/
def keyTriangle (s : Surface D) : Res File := do
  let t ← Res.index s.triangles 0
  let a ← keyLine s t.1
  let b ← keyLine s t.2.1
  let c ← keyLine s t.2.2
  pure [a, b, c]

/-- `components_` for the surfaces, and the lines written so far.  The next number `component_id_` is one more than the size of the map, as a
surface is written when it is not yet in it. -/
structure Faces where
  comps : List (Nat × Nat) := []
  next : Nat := 1
  out : File := []

/-- Line `TFACE` of a surface, and its entry in `components_`. -/
def writeFace (st : Faces) (kind name : Str) (s : Surface D) : Res Faces := do
  let key ← keyTriangle s
  let line := cs!"TFACE" ++ spaced [showNat st.next, kind, name]
  pure { comps := Sides.emplace st.comps s.id st.next, next := st.next + 1, out := st.out ++ line :: key }

/-- Body of the loops of `impl` lines 183-199, `sm` lines 59-74 and 78-93: a surface of a collection, unless it is already written. -/
def writeItem (m : Model D) (kind name : Res Str) (st : Faces) (item : Nat) : Res Faces :=
  if st.comps.any (fun e => e.1 = item) then .ok st
  else do
    let kind ← kind
    let name ← name
    let s ← surfaceOf m item
    writeFace st kind name s

/-- The collections in the order they are written. -/
def collections (m : Model D) : List (Res Str × Res Str × List Nat) :=
  m.boundaries.map (fun b => (.ok cs!"boundary", .ok (componentName b.1), b.2))
    ++ (faultsOf m).map (fun f => (.ok (faultText f.1), nameValue f.2.1, f.2.2))
    ++ (horizonsOf m).map (fun h => (contactText h.1, nameValue h.2.1, h.2.2))

/-- `write_tfaces`, `impl` lines 179-210 and `sm` lines 55-95. -/
def writeTfaces (m : Model D) : Res Faces := do
  let st ← Res.foldM' (fun st c => Res.foldM' (writeItem m c.1 c.2.1) st c.2.2) {} (collections m)
  Res.foldM' (fun st s => writeFace st cs!"boundary" (componentName s.name) s) st (unclassified m)

/-- The numbers of a list: two blanks, each number followed by two blanks, a new line and two blanks every five numbers, and 0 at the end;
`impl` lines 215-236, 246-280, `sm` lines 126-139, 144-157.  `cur` is the line being written, `count` the number of entries so far. -/
def wrapped (cur : Str) (count : Nat) : List Str → File
  | [] => [cur ++ cs!"0"]
  | x :: xs =>
    if (count + 1) % 5 = 0 then (cur ++ x ++ cs!"  ") :: wrapped cs!"  " (count + 1) xs
    else wrapped (cur ++ x ++ cs!"  ") (count + 1) xs

/-- A number with its sign. -/
def signed (side : Bool) (n : Nat) : Str := (if side then '+' else '-') :: showNat n

/-- `map.at( key )`. -/
def atKey {K V : Type} [DecidableEq K] (m : List (K × V)) (k : K) : Res V := Res.ofParse (Sides.find m k)

/-- `write_universe`, `impl` lines 212-238. -/
def writeUniverse (m : Model D) (sides : Sides.AllSides) (comps : List (Nat × Nat)) (next : Nat) : Res File := do
  let items ← Res.mapM' (fun i => do
    let side ← atKey sides.outside i
    let n ← atKey comps i
    pure (signed side n)) (m.boundaries.flatMap Prod.snd)
  pure ((cs!"REGION " ++ showNat next ++ cs!"  Universe ") :: wrapped cs!"  " 0 items)

/-- Line of a region, and the list of its surfaces: `impl` lines 245-281. -/
def writeRegion (sides : Sides.AllSides) (comps : List (Nat × Nat)) (next : Nat) (b : Block) : Res File := do
  let bounds ← Res.mapM' (fun i => do
    let side ← atKey sides.regions (b.id, i)
    let n ← atKey comps i
    pure (signed side n)) b.boundaries
  let inner ← Res.mapM' (fun i => do
    let n ← atKey comps i
    pure [signed true n, signed false n]) b.internals
  pure ((cs!"REGION" ++ spaced [showNat next, componentName b.name]) :: wrapped cs!"  " 0 (bounds ++ inner.flatten))

/-- The loop of `write_regions`, `impl` lines 243-282. -/
def writeBlocks (sides : Sides.AllSides) (comps : List (Nat × Nat)) : Nat → List Block → Res File
  | _, [] => .ok []
  | n, b :: bs => do
    let l ← writeRegion sides comps n b
    let r ← writeBlocks sides comps (n + 1) bs
    pure (l ++ r)

/-- `components_` for the blocks. -/
def blockNumbers : Nat → List Block → List (Nat × Nat)
  | _, [] => []
  | n, b :: bs => (b.id, n) :: blockNumbers (n + 1) bs

/-- One `LAYER` or `FAULT_BLOCK` record, `sm` lines 126-139 and 144-157. -/
def writeLayer (keyword : Str) (numbers : List (Nat × Nat)) (l : Option Str × List Nat) : Res File := do
  let name ← nameValue l.1
  let items ← Res.mapM' (fun i => do
    let n ← atKey numbers i
    pure (showNat n)) l.2
  pure ((keyword ++ spaced [name]) :: wrapped cs!"  " 0 items)

/-- `write_geological_regions`, `sm` lines 122-159; nothing for a `BRep`. -/
def writeLayers (m : Model D) (numbers : List (Nat × Nat)) : Res File :=
  if m.isBRep then .ok []
  else do
    let layers ← Res.mapM' (writeLayer cs!"LAYER" numbers) m.units
    let fblocks ← Res.mapM' (writeLayer cs!"FAULT_BLOCK" numbers) m.faultBlocks
    pure (layers.flatten ++ fblocks.flatten)

/-- `write_model_components`, `impl` lines 288-294. -/
def writeComponents (m : Model D) (sides : Sides.AllSides) : Res File := do
  let tsurfs ← writeTsurfs m
  let faces ← writeTfaces m
  let uni ← writeUniverse m sides faces.comps faces.next
  let regions ← writeBlocks sides faces.comps (faces.next + 1) m.blocks
  let layers ← writeLayers m (blockNumbers (faces.next + 1) m.blocks)
  pure (tsurfs ++ faces.out ++ uni ++ regions ++ layers ++ [cs!"END"])

/-! ## Writing the surfaces -/

/-- `write_surface`, `impl` lines 296-316, and the line `TFACE` before it. -/
def writeSurface (offset : Nat) (s : Surface D) : File :=
  cs!"TFACE" :: (List.range s.points.length).zipWith (fun v (p : Pt D) => cs!"VRTX" ++ spaced (showNat (offset + v) :: p.toks)) s.points
    ++ s.triangles.map fun t => trglLine (offset + t.1, offset + t.2.1, offset + t.2.2)

/-- The surfaces of a TSurf one after the other: `impl` lines 441-447, `sm` lines 173-178 and 198-203. -/
def writeSurfaces : Nat → List (Surface D) → File
  | _, [] => []
  | offset, s :: ss => writeSurface offset s ++ writeSurfaces (offset + s.points.length) ss

/-- Line starts of the surfaces of a TSurf: `impl` lines 370-395. -/
def lineStarts : Nat → List (Surface D) → List (Nat × Nat)
  | _, [] => []
  | offset, s :: ss => s.starts.map (fun e => (e.1 + offset, e.2 + offset)) ++ lineStarts (offset + s.points.length) ss

/-- `write_line_starts`, `impl` lines 417-425. -/
def borderLines : Nat → List (Nat × Nat) → File
  | _, [] => []
  | n, e :: es => (cs!"BORDER" ++ spaced [showNat n, showNat e.1, showNat e.2]) :: borderLines (n + 1) es

/-- One TSurf: `impl` lines 433-453 and 458-475, `sm` lines 165-185 and 189-210. -/
def writeTSurf (kind name : Str) (ss : List (Surface D)) : File :=
  let starts := lineStarts 1 ss
  [cs!"GOCAD TSurf 1"] ++ writeHeader (some name) ++ writeCrs {}
    ++ [cs!"GEOLOGICAL_FEATURE" ++ spaced [name], cs!"GEOLOGICAL_TYPE" ++ spaced [kind]]
    ++ writeSurfaces 1 ss
    ++ starts.map (fun e => cs!"BSTONE" ++ spaced [showNat e.1])
    ++ borderLines (1 + (ss.map fun s => s.points.length).sum) starts
    ++ [cs!"END"]

/-- `write_model_surfaces`, `impl` lines 429-477 and `sm` lines 161-212: all the surfaces of every collection, also those already written
for another one. -/
def writeModelSurfaces (m : Model D) : Res File := do
  let colls ← Res.mapM' (fun (c : Res Str × Res Str × List Nat) => do
    let name ← c.2.1
    let kind ← c.1
    let ss ← Res.mapM' (surfaceOf m) c.2.2
    pure (writeTSurf kind name ss)) (collections m)
  pure (colls.flatten ++ ((unclassified m).map fun s => writeTSurf cs!"boundary" (componentName s.name) [s]).flatten)

/-- `write_file`, `impl` lines 104-116. -/
def saveMl (m : Model D) (sides : Sides.AllSides) : Res File := do
  let comps ← writeComponents m sides
  let surfs ← writeModelSurfaces m
  pure ([cs!"GOCAD Model3d 1"] ++ writeHeader m.name ++ writeCrs {} ++ comps ++ surfs)

/-! ## Reading the components -/

/-- `TSurfMLData`, `in` lines 122-133; the identifiers of the surfaces are their ranks. -/
structure RTsurf where
  name : Str
  feature : Str := []
  tfaces : List Nat := []
  deriving DecidableEq, Repr

/-- A block read, with the surfaces of its relations in the order they are added. -/
structure RBlock where
  name : Str
  boundaries : List Nat := []
  internals : List Nat := []
  deriving DecidableEq, Repr

/-- What has been read: `in` lines 1021-1027. -/
structure RState where
  tsurfs : List RTsurf := []
  names : List (Str × Nat) := []
  surfaces : List Str := []
  outside : List Nat := []
  blocks : List RBlock := []
  units : List (Str × List Nat) := []
  faultBlocks : List (Str × List Nat) := []
  deriving DecidableEq, Repr

/-- The list being read, if any.  The loops of `read_universe`, `create_block_topology`, `create_stratigraphic_unit_topology` and
`create_fault_block_topology` read lines of the same stream as the loop of `read_model_components`: the model has one loop over the lines and
remembers which of them it is in. -/
inductive Mode
  | top
  | outside
  | block (name : Str) (acc : List Nat)
  | layer (name : Str) (acc : List Nat)
  | faultBlock (name : Str) (acc : List Nat)
  deriving DecidableEq, Repr

/-- `string_to_int( token )` then `std::abs( ... ) - OFFSET_START`, `none` for 0.  The absolute value of the smallest integer is undefined. -/
def surfaceToken (t : Str) : Res (Option Nat) := do
  let z ← Res.ofParse (parseInt t)
  if z = 0 then pure none
  else if z = -2147483648 then .ub
  else pure (some (z.natAbs - 1))

/-- A token of `read_universe`, `in` lines 867-877. -/
def universeToken (st : RState) (t : Str) : Res (Option Nat) := do
  match ← surfaceToken t with
  | none => pure none
  | some i =>
    let _ ← Res.at_ st.surfaces i
    pure (some i)

/-- A token of a layer or of a fault block, `in` lines 944-970, 986-1012. -/
def layerToken (st : RState) (t : Str) : Res (Option Nat) := do
  let n ← readIndex t
  if n = 0 then pure none
  else pure (some (sub32 n ((1 + st.surfaces.length) % W)))

/-- The tokens of one line, up to 0: the values, and whether 0 was found. -/
def untilZero (f : Str → Res (Option Nat)) : List Nat → List Str → Res (List Nat × Bool)
  | acc, [] => .ok (acc, false)
  | acc, t :: ts => do
    match ← f t with
    | none => pure (acc, true)
    | some n => untilZero f (acc ++ [n]) ts

/-- Insertion in a sorted list. -/
def insertSorted (a : Nat) : List Nat → List Nat
  | [] => [a]
  | b :: l => if a ≤ b then a :: b :: l else b :: insertSorted a l

/-- `std::sort`. -/
def sortNat (l : List Nat) : List Nat := l.foldr insertSorted []

/-- The loop of `in` lines 895-914 over the sorted list: boundary (true) and internal (false) surfaces. -/
def pairUp : List Nat → List (Bool × Nat)
  | a :: b :: r => if a ≠ b then (true, a) :: pairUp (b :: r) else (false, b) :: pairUp r
  | _ => []

/-- The relations of a block, `in` lines 894-921, for the list of its numbers: with fewer than two numbers, `surfaces[last - 1]` is out of
bounds. -/
def relations (numbers : List Nat) : Res (List (Bool × Nat)) :=
  let l := sortNat numbers
  if l.length < 2 then .ub
  else do
    let a ← Res.index l (l.length - 2)
    let b ← Res.index l (l.length - 1)
    pure (pairUp l ++ if a ≠ b then [(true, b)] else [])

/-- End of `create_block_topology`: `surfaces_[...]` is out of bounds for a number that is not one of a surface. -/
def closeBlock (st : RState) (name : Str) (numbers : List Nat) : Res RState := do
  let rel ← relations numbers
  let _ ← Res.mapM' (fun r => Res.index st.surfaces r.2) rel
  let b : RBlock := ⟨name, (rel.filter fun r => r.1).map Prod.snd, (rel.filter fun r => !r.1).map Prod.snd⟩
  pure { st with blocks := st.blocks ++ [b] }

/-- The blocks of a layer or of a fault block, `in` lines 947-967, 989-1009. -/
def layerBlocks (st : RState) (acc : List Nat) : List Nat :=
  (acc.filter fun b => decide (b ≠ 0 ∧ b - 1 < st.blocks.length)).map fun b => b - 1

/-- `process_TSURF_keyword`, `in` lines 801-807. -/
def readTsurfKeyword (st : RState) (tokens : List Str) : RState :=
  let name := readName tokens
  { st with names := Sides.emplace st.names name st.tsurfs.length, tsurfs := st.tsurfs ++ [{ name }] }

/-- `process_TFACE_keyword`, `in` lines 809-822.  The tokens are those after the keyword. -/
def readTfaceKeyword (st : RState) (tokens : List Str) : Res RState := do
  let feature ← Res.index tokens 1
  let _ ← Res.index tokens 2
  let name := readName (tokens.drop 2)
  let i ← atKey st.names name
  let t ← Res.index st.tsurfs i
  pure { st with
    surfaces := st.surfaces ++ [name]
    tsurfs := st.tsurfs.set i { t with feature, tfaces := t.tfaces ++ [st.surfaces.length] } }

/-- `process_REGION_keyword`, `in` lines 824-839, as far as the list that follows. -/
def readRegionKeyword (tokens : List Str) : Res Mode := do
  let _ ← Res.index tokens 1
  let name := readName (tokens.drop 1)
  pure (if name = cs!"Universe" then .outside else .block name [])

/-- A line of the component section outside of the lists, `in` lines 693-716.  `tokens.front()` is undefined for a blank line, and so is
`tokens[1]` for a line of one word. -/
def topLine (st : RState) (l : Str) : Res (RState × Mode) :=
  match split l with
  | [] => .ub
  | [_] => .ub
  | kw :: tokens =>
    if kw = cs!"TSURF" then .ok (readTsurfKeyword st tokens, .top)
    else if kw = cs!"TFACE" then do
      let st ← readTfaceKeyword st tokens
      pure (st, .top)
    else if kw = cs!"REGION" then do
      let mode ← readRegionKeyword tokens
      pure (st, mode)
    else if kw = cs!"LAYER" then .ok (st, .layer (readName tokens) [])
    else if kw = cs!"FAULT_BLOCK" then .ok (st, .faultBlock (readName tokens) [])
    else .ok (st, .top)

/-- A line of the component section other than its end. -/
def step : RState × Mode → Str → Res (RState × Mode)
  | (st, .top), l => topLine st l
  | (st, .outside), l => do
    let (acc, closed) ← untilZero (universeToken st) [] (split l)
    pure ({ st with outside := st.outside ++ acc }, if closed then .top else .outside)
  | (st, .block name acc), l => do
    let (acc, closed) ← untilZero surfaceToken acc (split l)
    if closed then do
      let st ← closeBlock st name acc
      pure (st, .top)
    else pure (st, .block name acc)
  | (st, .layer name acc), l => do
    let (acc, closed) ← untilZero (layerToken st) acc (split l)
    if closed then pure ({ st with units := st.units ++ [(name, layerBlocks st acc)] }, .top)
    else pure (st, .layer name acc)
  | (st, .faultBlock name acc), l => do
    let (acc, closed) ← untilZero (layerToken st) acc (split l)
    if closed then pure ({ st with faultBlocks := st.faultBlocks ++ [(name, layerBlocks st acc)] }, .top)
    else pure (st, .faultBlock name acc)

/-- `read_model_components`, `in` lines 682-721, with the loops of the lists.  At the end of the file the main loop throws; the loops of the
lists read empty lines for ever. -/
def readLines : RState × Mode → File → Res (RState × File)
  | (_, .top), [] => .throw
  | _, [] => .diverge
  | (st, mode), l :: ls =>
    if mode = .top ∧ startsWith l cs!"END" = true then .ok (st, ls)
    else step (st, mode) l >>= fun s => readLines s ls

/-! ## Collections read -/

/-- What is loaded. -/
structure Loaded (D : Type) where
  name : Option Str := none
  surfaces : List Str := []
  boundaries : List (Str × List Nat) := []
  faults : List (FaultType × Str × List Nat) := []
  horizons : List (Contact × Str × List Nat) := []
  blocks : List RBlock := []
  units : List (Str × List Nat) := []
  faultBlocks : List (Str × List Nat) := []
  meshes : List (Nat × List (Pt D) × List Tri) := []
  deriving DecidableEq, Repr

/-- `fault_map_.at( feature )`, `in` lines 1029-1032. -/
def faultOf (s : Str) : Res FaultType :=
  if s = cs!"fault" then .ok .noType
  else if s = cs!"reverse_fault" then .ok .reverse
  else if s = cs!"normal_fault" then .ok .normal
  else .throw

/-- `horizon_map_.at( feature )`, `in` lines 1033-1040. -/
def contactOf (s : Str) : Res Contact :=
  if s = cs!"top" then .ok .conformal
  else if s = cs!"none" then .ok .conformal
  else if s = cs!"topographic" then .ok .topography
  else if s = cs!"intrusive" then .ok .intrusion
  else if s = cs!"unconformity" then .ok .discontinuity
  else .throw

/-- One turn of the loop of `create_tsurfs`, `in` lines 727-769. -/
def addTsurf (m : Loaded D) (t : RTsurf) : Res (Loaded D) :=
  if contains cs!"fault" t.feature then do
    let k ← faultOf t.feature
    pure { m with faults := m.faults ++ [(k, t.name, t.tfaces)] }
  else if t.feature = cs!"boundary" ∨ t.feature = cs!"lease" then
    .ok { m with boundaries := m.boundaries ++ [(t.name, t.tfaces)] }
  else do
    let k ← contactOf t.feature
    pure { m with horizons := m.horizons ++ [(k, t.name, t.tfaces)] }

/-- `process_unassigned_model_boundaries`, `in` lines 773-799. -/
def addUnassigned (outside : List Nat) (m : Loaded D) : Loaded D :=
  let diff := (m.boundaries.flatMap Prod.snd).filter fun i => !outside.contains i
  if diff.isEmpty then m else { m with boundaries := m.boundaries ++ [(cs!"undefined boundary", diff)] }

/-- `create_tsurfs`, `in` lines 723-771, and the other components. -/
def createTsurfs (name : Option Str) (st : RState) : Res (Loaded D) := do
  let m ← Res.foldM' addTsurf { name, surfaces := st.surfaces, blocks := st.blocks, units := st.units, faultBlocks := st.faultBlocks } st.tsurfs
  pure (addUnassigned st.outside m)

/-! ## Reading the surfaces -/

/-- `[ list[i], list[j] )`. -/
def slice {A : Type} (l : List A) (i j : Nat) : List A := (l.drop i).take (j - i)

/-- One surface of `build_surfaces`, `in` lines 493-518: the `k`-th face of the TSurf goes to the `k`-th surface announced. -/
def buildFace (ts : TSurf D) (k surface : Nat) : Res (Nat × List (Pt D) × List Tri) := do
  let current ← Res.index ts.tfaceVertices k
  let next ← Res.index ts.tfaceVertices (k + 1)
  let tcurrent ← Res.index ts.tfaceTriangles k
  let tnext ← Res.index ts.tfaceTriangles (k + 1)
  let points := slice ts.points current next
  let tris ← Res.mapM' (fun t : Tri => createTriangle points.length (sub32 t.1 current, sub32 t.2.1 current, sub32 t.2.2 current))
    (slice ts.triangles tcurrent tnext)
  pure (surface, points, tris)

/-- The loop of `build_surfaces`. -/
def buildFaces (ts : TSurf D) : Nat → List Nat → Res (List (Nat × List (Pt D) × List Tri))
  | _, [] => .ok []
  | k, s :: ss => do
    let f ← buildFace ts k s
    let r ← buildFaces ts (k + 1) ss
    pure (f :: r)

/-- The loop of `read_file`, `in` lines 111-115: `value()` throws when there is no further TSurf. -/
def readSurfaces : List RTsurf → File → Res (List (Nat × List (Pt D) × List Tri))
  | [], _ => .ok []
  | t :: ts, f => do
    match ← (readTSurf f : Res (Option (TSurf D × File))) with
    | none => .throw
    | some (data, f) => do
      let faces ← buildFaces data 0 t.tfaces
      let r ← readSurfaces ts f
      pure (faces ++ r)

/-- `read_file`, `in` lines 96-115 (the corners and lines are modelled apart). -/
def loadMl (f : File) : Res (Loaded D) := do
  let (_, f) ← gotoKeyword cs!"GOCAD Model3d" f
  let (name, f) ← readHeader f
  let (_, f) ← readCrs f
  let (st, f) ← readLines ({}, .top) f
  let m : Loaded D ← createTsurfs name st
  let meshes ← readSurfaces st.tsurfs f
  pure { m with meshes }

end Verif.Ml
