import Verif.Base.NumIO

/-!
# The FEFLOW writer

Model of `/repo/src/geode/geosciences_io/mesh/fem_output.cpp`.

A tetrahedral mesh is given by what its public API shows: points, vertices of the polyhedra, attributes in the order of
`attribute_names()`, tagged facets and edges.  `absl::flat_hash_map< K, std::vector< index_t > >` is an association list in order of
insertion; where the code iterates over a map without sorting, the order is a parameter.  Numbers come with their two ways of being
written: `Num.fmt` (`operator<<`) and `toStr` (`std::to_string`).  Sections of lines are lists of lines; the discrete feature section,
whose line ends are written separately, is a text.
-/

namespace Verif.Fem

open Verif

/-! ## Ranges -/

/-- `CHUNK_SIZE`, `fem_output.cpp` line 45. -/
def CHUNK_SIZE : Nat := 1500

/-- The text of one range, lambda `append_value`, `fem_output.cpp` lines 60-68. -/
def token (s p : Nat) : Str := if s = p then showNat s else showNat s ++ '-' :: showNat p

/-- The rest of `append_value`, lines 69-80, on `results` and `current`. -/
def appendValue (max : Nat) (st : List Str × Str) (tmp : Str) : List Str × Str :=
  let st := if st.2.length + tmp.length + 1 > max then (st.1 ++ [st.2], []) else st
  (st.1, (if st.2 = [] then [] else st.2 ++ [' ']) ++ tmp)

/-- State of the loop of `format_range_chunks`. -/
structure ChunkState where
  results : List Str
  current : Str
  start : Nat
  prev : Nat

/-- Body of the loop, lines 81-90; `prev + 1` is computed in 32 bits. -/
def chunkStep (max : Nat) (st : ChunkState) (e : Nat) : ChunkState :=
  if e = (st.prev + 1) % W then { st with prev := e }
  else
    let r := appendValue max (st.results, st.current) (token st.start st.prev)
    { results := r.1, current := r.2, start := e, prev := e }

/-- `format_range_chunks`, `fem_output.cpp` lines 47-97. -/
def formatRangeChunks (max : Nat) : List Nat → List Str
  | [] => []
  | e :: es =>
    let st := es.foldl (chunkStep max) ⟨[], [], e, e⟩
    let r := appendValue max (st.results, st.current) (token st.start st.prev)
    if r.2 = [] then r.1 else r.1 ++ [r.2]

/-- `write_chunks`, `fem_output.cpp` lines 207-228. -/
def writeChunks (elements : List Nat) (value : Str) (max : Nat) : File :=
  (formatRangeChunks max elements).map fun c => cs!"  " ++ value ++ cs!"  " ++ c ++ cs!" "

/-! ## Maps from values to indices -/

section Maps

variable {K : Type} [DecidableEq K]

/-- `map[key].push_back( i )`, creating the entry when it does not exist. -/
def push : List (K × List Nat) → K → Nat → List (K × List Nat)
  | [], k, i => [(k, [i])]
  | (k', l) :: m, k, i => if k' = k then (k', l ++ [i]) :: m else (k', l) :: push m k i

/-- `map[key]`. -/
def getIds : List (K × List Nat) → K → List Nat
  | [], _ => []
  | (k', l) :: m, k => if k' = k then l else getIds m k

/-- Insertion in a sorted list. -/
def insertKey (le : K → K → Bool) (k : K) : List K → List K
  | [] => [k]
  | k' :: ks => if le k k' then k :: k' :: ks else k' :: insertKey le k ks

/-- `absl::c_sort( values )`. -/
def sortKeys (le : K → K → Bool) (ks : List K) : List K := ks.foldr (insertKey le) []

/-- `create_attribute_distribution`, `fem_output.cpp` lines 250-268: over the polyhedra, whatever the attribute is about.  Reading a
value after the end of the attribute is undefined behaviour. -/
def distribution (nbPolyhedra : Nat) (values : List K) : Res (List (K × List Nat)) :=
  Res.foldM' (fun m elem => do
    let value ← Res.index values elem
    pure (push m value (elem + 1))) [] (List.range nbPolyhedra)

/-- The lines of `write_property` after the name, `fem_output.cpp` lines 232-247. -/
def distributionLines (toStr : K → Str) (le : K → K → Bool) (dist : List (K × List Nat)) : File :=
  (sortKeys le (dist.map Prod.fst)).flatMap fun v => writeChunks (getIds dist v) (toStr v) CHUNK_SIZE

/-- `write_property`, `fem_output.cpp` lines 230-248. -/
def writeProperty (toStr : K → Str) (le : K → K → Bool) (nbPolyhedra : Nat) (name : Str) (values : List K) : Res File := do
  let dist ← distribution nbPolyhedra values
  pure (name :: distributionLines toStr le dist)

end Maps

/-! ## The mesh -/

/-- A scalar or other attribute. -/
structure Attr (D : Type) where
  name : Str
  genericable : Bool
  /-- `generic_value` of each item, when the attribute is genericable. -/
  values : List D

/-- A tagged facet or edge. -/
structure Tagged (D : Type) where
  vertices : List Nat
  /-- Aperture of a facet or conduit area of an edge. -/
  size : D
  /-- Conductivity, `-1` when the attribute did not exist. -/
  conductivity : D

/-- The mesh to write. -/
structure Mesh (D : Type) where
  points : List (Pt D)
  polyhedra : List (List Nat)
  vertexAttrs : List (Attr D)
  polyhedronAttrs : List (Attr D)
  /-- `Block_ID_vertex`, when it exists. -/
  vertexBlocks : Option (List (List Str)) := none
  /-- `Block_ID_polyhedron`, when it exists. -/
  polyhedronBlocks : Option (List Str) := none
  /-- The facets, when facets are enabled and have the aperture attribute. -/
  facets : Option (List (Tagged D)) := none
  /-- The edges, when edges are enabled and have the conduit area attribute. -/
  edges : Option (List (Tagged D)) := none

variable {D : Type}

/-- `write_var_node`, `fem_output.cpp` lines 177-194. -/
def writeVarNode (m : Mesh D) : File :=
  cs!"VARNODE" :: (cs!" " ++ showNat m.polyhedra.length ++ cs!" 4 4") ::
    m.polyhedra.map fun vs => cs!" 6 " ++ vs.flatMap fun v => showNat (v + 1) ++ cs!" "

/-- `write_node_coordinates`, `fem_output.cpp` lines 196-205. -/
def writeNodeCoordinates [Num D] (m : Mesh D) : File :=
  cs!"XYZCOOR" :: m.points.map fun p => cs!" " ++ Num.fmt p.x ++ cs!", " ++ Num.fmt p.y ++ cs!", " ++ Num.fmt p.z

/-- `create_coord_dist`, `fem_output.cpp` lines 353-373. -/
def coordDist [DecidableEq D] (coords : List D) : List (D × List Nat) :=
  (coords.zipIdx).foldl (fun m c => push m c.1 c.2) []

/-- `write_one_coord_component_dist`, `fem_output.cpp` lines 375-399. -/
def writeCoordDist [Num D] [DecidableEq D] (le : D → D → Bool) (name : Str) (coords : List D) : File :=
  let dist := coordDist coords
  name :: (sortKeys le (dist.map Prod.fst)).map fun v =>
    cs!"     " ++ Num.fmt v ++ cs!"  " ++ (getIds dist v).flatMap fun i => showNat (i + 1) ++ cs!" "

/-- The attributes written by `write_ref_nodal_dist`, `fem_output.cpp` lines 276-290. -/
def nodalAttrs (m : Mesh D) : List (Attr D) := m.vertexAttrs.filter fun a => a.genericable && !(a.name == cs!"points")

/-- `write_ref_nodal_dist`, `fem_output.cpp` lines 270-299. -/
def writeRefNodalDist [Num D] [DecidableEq D] (toStr : D → Str) (le : D → D → Bool) (m : Mesh D) : Res File := do
  let attrs := nodalAttrs m
  let bodies ← Res.mapM' (fun a => writeProperty toStr le m.polyhedra.length a.name a.values) attrs
  pure (cs!"REF_DIS_I" :: (cs!" " ++ showNat (3 + attrs.length) ++ cs!", " ++ showNat m.points.length ++ cs!", 0") ::
    (writeCoordDist le cs!"X" (m.points.map Pt.x) ++ writeCoordDist le cs!"Y" (m.points.map Pt.y) ++
      writeCoordDist le cs!"Z" (m.points.map Pt.z) ++ bodies.flatten))

/-- The attributes written by `write_ref_element_dist`, `fem_output.cpp` lines 424-436. -/
def elementAttrs (m : Mesh D) : List (Attr D) :=
  m.polyhedronAttrs.filter fun a => a.genericable &&
    !(a.name == cs!"tetrahedron_vertices" || a.name == cs!"tetrahedron_adjacents" || a.name == cs!"geode_active")

/-- `nb_elem_att`, `fem_output.cpp` lines 418-420. -/
def nbElemAtt (m : Mesh D) : Int := (m.polyhedronAttrs.length : Int) - 3

/-- `write_ref_element_dist`, `fem_output.cpp` lines 415-438. -/
def writeRefElementDist [DecidableEq D] (toStr : D → Str) (le : D → D → Bool) (m : Mesh D) : Res File := do
  let bodies ← Res.mapM' (fun a => writeProperty toStr le m.polyhedra.length a.name a.values) (elementAttrs m)
  pure (cs!"REF_DISE_I" :: (cs!" " ++ showInt (nbElemAtt m) ++ cs!", " ++ showNat m.polyhedra.length ++ cs!", 0") :: bodies.flatten)

/-! ## Sets -/

/-- `create_region_map` for lists of names, `fem_output.cpp` lines 505-536: the keys are views of the strings of the attribute. -/
def vertexRegionMap (blocks : List (List Str)) : List (Str × List Nat) :=
  (blocks.zipIdx).foldl (fun m b => b.1.foldl (fun m name => push m name (b.2 + 1)) m) []

/-- `create_region_map` for one name, `fem_output.cpp` lines 479-503: `value` is a local copy, so that the keys are views of strings
that are destroyed at the end of each turn of the loop.  Any later use of the map is undefined behaviour, including the next turn (which
compares keys) and the copy of the keys by the caller. -/
def elementRegionMap (blocks : List Str) : Res (List (Str × List Nat)) :=
  match blocks with
  | [] => .ok []
  | _ :: _ => .ub

/-- `write_nodal_sets`, `fem_output.cpp` lines 440-458; `ord` is the order of iteration of the map. -/
def writeNodalSets (ord : List (Str × List Nat) → List (Str × List Nat)) (m : Mesh D) : File :=
  match m.vertexBlocks with
  | none => []
  | some blocks => cs!"NODALSETS" :: (ord (vertexRegionMap blocks)).flatMap fun r => writeChunks r.2 r.1 CHUNK_SIZE

/-- `write_element_sets`, `fem_output.cpp` lines 460-477. -/
def writeElementSets (ord : List (Str × List Nat) → List (Str × List Nat)) (m : Mesh D) : Res File :=
  match m.polyhedronBlocks with
  | none => .ok []
  | some blocks => do
    let r ← elementRegionMap blocks
    pure (cs!"ELEMENTALSETS" :: (ord r).flatMap fun r => writeChunks r.2 r.1 CHUNK_SIZE)

/-! ## Discrete features -/

/-- A discrete feature. -/
structure Feature where
  nodes : List Nat
  id : Nat
  deriving DecidableEq, Repr

/-- `Property`, `fem_output.cpp` lines 544-549. -/
structure Property (D : Type) where
  name : Str
  values : List (D × List Nat)
  deriving DecidableEq, Repr

/-- `FeatureGroup`, `fem_output.cpp` lines 568-597. -/
structure Group (D : Type) where
  features : List Feature := []
  featureIds : List Nat := []
  properties : List (Property D) := []
  deriving DecidableEq, Repr

/-- `get_property`, `fem_output.cpp` lines 583-596. -/
def getProperty (ps : List (Property D)) (name : Str) : Option Nat := ps.findIdx? fun p => p.name == name

/-- Adds a feature to the property of that name, `fem_output.cpp` lines 697-715, 720-741, 802-821 and 826-847. -/
def addProperty [DecidableEq D] (ps : List (Property D)) (name : Str) (value : D) (id : Nat) : List (Property D) :=
  match getProperty ps name with
  | none => ps ++ [⟨name, [(value, [id])]⟩]
  | some i => ps.modify i fun p => { p with values := push p.values value id }

def APERTURE : Str := cs!"diagres_discontinuity_aperture"
def CONDUIT_AREA : Str := cs!"diagres_conduit_area"
def CONDUCTIVITY : Str := cs!"diagres_conductivity"

/-- Body of the loops over the facets (`fem_output.cpp` lines 678-745) and over the edges (lines 783-851); `neg` and `pos` compare with
zero; the state is the group and `feature_id_`. -/
def featureStep [DecidableEq D] (neg pos : D → Bool) (sizeName : Str) (st : Group D × Nat) (t : Tagged D) : Group D × Nat :=
  if neg t.size then st
  else
    let g := st.1
    let id := st.2
    let ps := addProperty g.properties sizeName t.size id
    let ps := if pos t.conductivity then addProperty ps CONDUCTIVITY t.conductivity id else ps
    let f : Feature := ⟨t.vertices.map (· + 1), id⟩
    (⟨g.features ++ [f], g.featureIds ++ [id], ps⟩, id + 1)

/-- `build_2d_feature_groups` (`fem_output.cpp` lines 663-751) and `build_1d_feature_groups` (lines 767-857). -/
def buildGroup [DecidableEq D] (neg pos : D → Bool) (sizeName : Str) (id : Nat) (ts : List (Tagged D)) : Res (Group D × Nat) := do
  let r := ts.foldl (featureStep neg pos sizeName) ({}, id)
  Res.check (!r.1.features.isEmpty)
  pure r

/-- `DiscreteFeatures`, `fem_output.cpp` lines 599-624: at most one group of each kind. -/
structure Features (D : Type) where
  group2 : Option (Group D) := none
  group1 : Option (Group D) := none
  deriving DecidableEq, Repr

/-- The group of optional items, and the next feature number. -/
def optGroup [DecidableEq D] (neg pos : D → Bool) (sizeName : Str) (id : Nat) (ts : Option (List (Tagged D))) :
    Res (Option (Group D) × Nat) :=
  match ts with
  | none => .ok (none, id)
  | some ts => do
    let r ← buildGroup neg pos sizeName id ts
    pure (some r.1, r.2)

/-- `build_discrete_features`, `fem_output.cpp` lines 636-646. -/
def buildFeatures [DecidableEq D] (neg pos : D → Bool) (m : Mesh D) : Res (Features D) := do
  let g2 ← optGroup neg pos APERTURE 1 m.facets
  let g1 ← optGroup neg pos CONDUIT_AREA g2.2 m.edges
  pure ⟨g2.1, g1.1⟩

/-- Items written one after the other with `EOL` after item number `iterator` when `iterator < size - 1`, the loops of
`write_feature_signature` (`fem_output.cpp` lines 890-903), `write_feature_nodal_incidence_matrix` (lines 929-949) and
`write_discrete_feature_group` (lines 993-1001).  The first index is `i`. -/
def sepLines (size : Nat) : Nat → List Str → Str
  | _, [] => []
  | i, l :: ls => l ++ (if i < size - 1 then cs!"\n" else []) ++ sepLines size (i + 1) ls

/-- The features of an optional group. -/
def featuresOf (g : Option (Group D)) : List Feature := (g.map Group.features).getD []

/-- Text between the CDATA marks of `write_discrete_feature_signatures`, `fem_output.cpp` lines 905-927. -/
def signaturesText (fs : Features D) : Str :=
  let sig (n : Nat) (s : Str) : Str := sepLines n 0 (List.replicate n (cs!" " ++ s))
  sig (featuresOf fs.group2).length cs!"c2d3,darcy" ++ cs!"\n" ++ sig (featuresOf fs.group1).length cs!"c1d2,darcy"

/-- A line of `write_feature_nodal_incidence_matrix`, `fem_output.cpp` lines 936-941. -/
def incidenceLine (f : Feature) : Str :=
  cs!"     " ++ showNat f.nodes.length ++ f.nodes.flatMap fun n => cs!", " ++ showNat n

/-- Text between the CDATA marks of `write_discrete_feature_nodal_incidence_matrix`, `fem_output.cpp` lines 951-973. -/
def incidenceText (fs : Features D) : Str :=
  let part (l : List Feature) : Str := sepLines l.length 0 (l.map incidenceLine)
  part (featuresOf fs.group2) ++ cs!"\n" ++ part (featuresOf fs.group1)

/-- Text between the CDATA marks of a group, `write_discrete_feature_group`, `fem_output.cpp` lines 990-1001. -/
def groupText (g : Group D) : Str :=
  let chunks := formatRangeChunks CHUNK_SIZE g.featureIds
  sepLines chunks.length 0 chunks

/-- The lines of one value in `write_material_property`, `fem_output.cpp` lines 1047-1073; `last` is the negation of
`iterator < property_values_to_features.size() - 1`. -/
def materialValue [Num D] (max : Nat) (last : Bool) (value : D) (ids : List Nat) : Str :=
  let chunks := formatRangeChunks max ids
  let text (c : Str) : Str := List.replicate 14 ' ' ++ Num.fmt value ++ cs!" " ++ c
  match chunks with
  | [c] => text c ++ (if last then [] else cs!"\n")
  | _ => if last then chunks.flatMap text else sepLines chunks.length 0 (chunks.map text)

/-- Text between the CDATA marks of `write_material_property`, `fem_output.cpp` lines 1036-1078, for the entries of the map in the order of
iteration. -/
def materialText [Num D] (max : Nat) : List (D × List Nat) → Str
  | [] => cs!" "
  | [(v, ids)] => materialValue max true v ids ++ cs!" "
  | (v, ids) :: es => materialValue max false v ids ++ materialText max es

/-- `combine_maps`, `fem_output.cpp` lines 1080-1095. -/
def combineMaps [DecidableEq D] (m1 m2 : List (D × List Nat)) : List (D × List Nat) :=
  m2.foldl (fun m e => if m.any (fun x => x.1 = e.1) then m.map (fun x => if x.1 = e.1 then (x.1, x.2 ++ e.2) else x) else m ++ [e]) m1

/-- The property of a group, if any. -/
def propertyIndex (g : Option (Group D)) (name : Str) : Option Nat :=
  match g with
  | none => none
  | some g => getProperty g.properties name

/-- `features_groups.front().properties[index].values_to_features`. -/
def propertyValues (g : Option (Group D)) (i : Nat) : Res (List (D × List Nat)) :=
  match g with
  | none => .ub
  | some g => do
    let p ← Res.index g.properties i
    pure p.values

/-- The map written from a property of the facets and a property of the edges, of indices `i2` and `i1` when they exist.  When both exist
the property of the edges is taken at the index `both i2 i1`. -/
def joinValues [DecidableEq D] (both : Nat → Nat → Nat) (fs : Features D) (i2 i1 : Option Nat) : Res (Option (List (D × List Nat))) :=
  match i2, i1 with
  | some i, some j => do
    let m2 ← propertyValues fs.group2 i
    let m1 ← propertyValues fs.group1 (both i j)
    pure (some (combineMaps m2 m1))
  | some i, none => do
    let m2 ← propertyValues fs.group2 i
    pure (some m2)
  | none, some j => do
    let m1 ← propertyValues fs.group1 j
    pure (some m1)
  | none, none => .ok none

/-- The two maps written by `write_discrete_feature_properties`, `fem_output.cpp` lines 1097-1191, under `AREA` and `COND`.  When facets and
edges have a size, that of the edges is looked up with the index of the aperture of the facets (line 1130). -/
def materials [DecidableEq D] (fs : Features D) : Res (Option (List (D × List Nat)) × Option (List (D × List Nat))) := do
  let area ← joinValues (fun i _ => i) fs (propertyIndex fs.group2 APERTURE) (propertyIndex fs.group1 CONDUIT_AREA)
  let cond ← joinValues (fun _ j => j) fs (propertyIndex fs.group2 CONDUCTIVITY) (propertyIndex fs.group1 CONDUCTIVITY)
  pure (area, cond)

end Verif.Fem
