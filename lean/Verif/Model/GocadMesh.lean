import Verif.Model.Gocad

/-!
# Loading and saving of `.ts`, `.vs` and `.pl` meshes

Models of `/repo/src/geode/geosciences_io/mesh/{ts,vs,pl}_{input,output}.cpp`.
-/

namespace Verif.GocadMesh

open Verif Verif.Gocad

variable {D : Type} [Num D]

/-! ## What the writers see of a mesh -/

/-- A vertex attribute, as the writers see it: name, `is_genericable()`, and one value per vertex. -/
structure Attr (D : Type) where
  name : Str
  genericable : Bool := true
  /-- `generic_value( v )` before the cast to `float`. -/
  val : Nat → D

/-- A mesh to be saved: name, points, simplices (triangles for a surface, edges for a curve, nothing for a point set), vertex
attributes in the order of `attribute_names()`. -/
structure Mesh (S D : Type) where
  name : Option Str := none
  points : List (Pt D)
  cells : List S
  attrs : List (Attr D) := []

/-- A loaded mesh: name, points, simplices and attribute columns. -/
structure Loaded (S D : Type) where
  name : Option Str := none
  points : List (Pt D) := []
  cells : List S := []
  store : Store D := []
  deriving DecidableEq, Repr

/-! ## Common part of the writers -/

/-- The attributes written: `ts_output.cpp` lines 83-93, `vs_output.cpp` lines 86-96. -/
def written (attrs : List (Attr D)) : List (Attr D) :=
  attrs.filter fun a => a.genericable && a.name != cs!"points"

/-- The property header built by `write_prop_header`, `ts_output.cpp` lines 94-107 (same text in `vs_output.cpp` and
`pl_output.cpp`). -/
def propHeaderOf (names : List Str) : PropHeader D where
  names := names
  ranges := names.map fun _ => (cs!"**none**", cs!"**none**")
  noData := names.map fun _ => Num.noData
  classes := names
  kinds := names.map fun _ => cs!"Real Number"
  subclasses := names.map fun _ => (cs!"QUANTITY", cs!"Float")
  esizes := names.map fun _ => 1
  units := names.map fun _ => cs!"unitless"

/-- `write_xyz_prop_class_header`, `ts_output.cpp` lines 123-145. -/
def xyzHeaders : List PropClassHeader :=
  [ { name := cs!"X", kind := cs!"X", unit := cs!"m" },
    { name := cs!"Y", kind := cs!"Y", unit := cs!"m" },
    { name := cs!"Z", kind := cs!"Z", unit := cs!"m", isZ := true } ]

/-- Lines written by `write_prop_header`, `ts_output.cpp` lines 112-120, for the given property names. -/
def writeProps (D : Type) [Num D] (names : List Str) : List Str :=
  (if names.isEmpty then [] else writePropHeader (propHeaderOf names : PropHeader D))
    ++ (xyzHeaders ++ names.map fun n => ({ name := n } : PropClassHeader)).flatMap writePropClassHeader

/-- `VRTX_KEYWORD`: `ts_output.cpp` line 85, `vs_output.cpp` lines 81-84, `pl_output.cpp` line 69. -/
def vrtxKeyword (attrs : List (Attr D)) : Str := if attrs.isEmpty then cs!"VRTX" else cs!"PVRTX"

/-- The written values of one vertex: `file_ << SPACE << att->generic_value( v )`. -/
def valueToks (attrs : List (Attr D)) (v : Nat) : List Str :=
  attrs.map fun a => Num.fmt (Num.castF (a.val v))

/-- A vertex line: `write_vrtx`, `ts_output.cpp` lines 161-170, `vs_output.cpp` lines 151-160; `write_pvrtx`, `pl_output.cpp`
lines 129-141. -/
def vrtxLine (kw : Str) (attrs : List (Attr D)) (id v : Nat) (p : Pt D) : Str :=
  kw ++ spaced (showNat id :: (p.toks ++ valueToks attrs v))

/-- Vertex lines of a whole mesh, numbered from 0. -/
def vrtxLines (kw : Str) (attrs : List (Attr D)) : Nat → List (Pt D) → List Str
  | _, [] => []
  | v, p :: ps => vrtxLine kw attrs v v p :: vrtxLines kw attrs (v + 1) ps

/-! ## TSurf -/

/-- A triangle, by its three vertices. -/
abbrev Tri := Nat × Nat × Nat

/-- `write_triangle`, `ts_output.cpp` lines 172-178. -/
def trglLine (t : Tri) : Str :=
  cs!"TRGL" ++ spaced [showNat t.1, showNat t.2.1, showNat t.2.2]

/-- `write_file`, `ts_output.cpp` lines 56-71. -/
def saveTS (m : Mesh Tri D) : File :=
  [cs!"GOCAD TSurf 1"] ++ writeHeader m.name ++ writeCrs {}
    ++ writeProps D ((written m.attrs).map Attr.name)
    ++ [cs!"TFACE"]
    ++ vrtxLines (vrtxKeyword m.attrs) (written m.attrs) 0 m.points
    ++ m.cells.map trglLine
    ++ [cs!"END"]

/-- `vertex += offset` on `index_t`. -/
def shift32 (offset v : Nat) : Nat := (v + offset) % W

/-- The triangle given to `create_triangle`: `ts_input.cpp` lines 72-88. -/
def shiftTri (offset : Nat) (t : Tri) : Tri :=
  (shift32 offset t.1, shift32 offset t.2.1, shift32 offset t.2.2)

/-- `create_triangle`: a vertex that does not exist violates its precondition. -/
def createTriangle (nb : Nat) (t : Tri) : Res Tri :=
  if t.1 < nb ∧ t.2.1 < nb ∧ t.2.2 < nb then .ok t else .ub

/-- `build_surface`, `ts_input.cpp` lines 64-101. -/
def buildSurface (m : Loaded Tri D) (ts : TSurf D) : Res (Loaded Tri D) := do
  let offset := m.points.length
  let points := m.points ++ ts.points
  let tris ← Res.mapM' (fun t => createTriangle points.length (if offset = 0 then t else shiftTri offset t)) ts.triangles
  let store ← createAttributes points.length (List.range ts.points.length) (growStore points.length m.store)
    ts.props.names ts.props.esizes ts.props.noData ts.attrs
  pure { name := ts.name <|> m.name, points, cells := m.cells ++ tris, store }

/-- The loop of `read_file`, `ts_input.cpp` lines 54-61. -/
def loadTSLoop : Nat → Loaded Tri D → File → Res (Loaded Tri D)
  | 0, _, _ => .diverge
  | fuel + 1, m, f => do
    match ← readTSurf f with
    | none => pure m
    | some (ts, f) =>
      let m ← buildSurface m ts
      loadTSLoop fuel m f

/-- Loading a `.ts` file.  Each turn of the loop consumes a line, so the fuel is never exhausted (`loadTS_terminates`). -/
def loadTS (f : File) : Res (Loaded Tri D) := loadTSLoop (f.length + 1) {} f

/-! ## VSet -/

/-- `write_file`, `vs_output.cpp` lines 56-72. -/
def saveVS (m : Mesh Empty D) : File :=
  [cs!"GOCAD VSet 1"] ++ writeHeader m.name ++ writeCrs {}
    ++ writeProps D ((written m.attrs).map Attr.name)
    ++ vrtxLines (vrtxKeyword m.attrs) (written m.attrs) 0 m.points
    ++ [cs!"END"]

/-- `build_point_set`, `vs_input.cpp` lines 62-80. -/
def buildPointSet (m : Loaded Empty D) (vs : VSet D) : Res (Loaded Empty D) := do
  let points := m.points ++ vs.points
  let store ← createAttributes points.length (List.range vs.points.length) (growStore points.length m.store)
    vs.props.names vs.props.esizes vs.props.noData vs.attrs
  pure { name := vs.name <|> m.name, points, store }

/-- The loop of `read_file`, `vs_input.cpp` lines 52-59. -/
def loadVSLoop : Nat → Loaded Empty D → File → Res (Loaded Empty D)
  | 0, _, _ => .diverge
  | fuel + 1, m, f => do
    match ← readVSet f with
    | none => pure m
    | some (vs, f) =>
      let m ← buildPointSet m vs
      loadVSLoop fuel m f

/-- Loading a `.vs` file. -/
def loadVS (f : File) : Res (Loaded Empty D) := loadVSLoop (f.length + 1) {} f

/-! ## PLine -/

/-- An edge, by its two vertices. -/
abbrev Edge := Nat × Nat

/-- `build_curve`, `pl_input.cpp` lines 61-80. -/
def buildCurve (m : Loaded Edge D) (ec : ECurve D) : Res (Loaded Edge D) := do
  let offset := m.points.length
  let points := m.points ++ ec.points
  let edges ← Res.mapM' (fun e =>
    let e' : Edge := (shift32 offset e.1, shift32 offset e.2)
    if e'.1 < points.length ∧ e'.2 < points.length then .ok e' else .ub) ec.edges
  pure { name := ec.name <|> m.name, points, cells := m.cells ++ edges }

/-- The loop of `read_file`, `pl_input.cpp` lines 53-59. -/
def loadPLLoop : Nat → Loaded Edge D → File → Res (Loaded Edge D)
  | 0, _, _ => .diverge
  | fuel + 1, m, f => do
    match ← readECurve f with
    | none => pure m
    | some (ec, f) =>
      let m ← buildCurve m ec
      loadPLLoop fuel m f

/-- Loading a `.pl` file. -/
def loadPL (f : File) : Res (Loaded Edge D) := loadPLLoop (f.length + 1) {} f

/-- `EdgeVertex`: edge and local vertex (`false` = 0, `true` = 1). -/
abbrev EV := Nat × Bool

/-- `edge_vertex( ev )`. -/
def evVertex (edges : List Edge) (ev : EV) : Res Nat := do
  let e ← Res.index edges ev.1
  pure (if ev.2 then e.2 else e.1)

/-- `edges_around_vertex( v )` from edge `i` on, in creation order (0 before 1 for an edge that starts and ends at `v`). -/
def edgesAroundFrom (v : Nat) : Nat → List Edge → List EV
  | _, [] => []
  | i, e :: es =>
    (if e.1 = v then [(i, false)] else []) ++ (if e.2 = v then [(i, true)] else []) ++ edgesAroundFrom v (i + 1) es

/-- `edges_around_vertex( v )`. -/
def edgesAround (edges : List Edge) (v : Nat) : List EV := edgesAroundFrom v 0 edges

/-- `edge_done_[e]`. -/
def isDone (done : List Nat) (e : Nat) : Bool := done.contains e

/-- The loop of `get_edged_vertex_on_iline`, `pl_output.cpp` lines 142-179.  `done` is the set of edges with `edge_done_` set.
Returns the vertices pushed and the new `done`. -/
def walk (edges : List Edge) : Nat → List Nat → EV → Res (List EV × List Nat)
  | 0, _, _ => .diverge
  | fuel + 1, done, ev => do
    let done := ev.1 :: done
    let opp : EV := (ev.1, !ev.2)
    let around := edgesAround edges (← evVertex edges opp)
    if around.length = 2 then
      -- the last edge around that is not done, lines 165-172
      match (around.filter fun a => !isDone done a.1).getLast? with
      | some next => do
        let (evs, done) ← walk edges fuel done next
        pure (ev :: evs, done)
      | none => pure ([ev], done)
    else pure ([ev, opp], done)

/-- State of `write_ilines`: lines written so far, `current_offset`, `nb_edges_done`, `edge_done_`. -/
structure PLState where
  out : File := []
  offset : Nat := 1
  nbDone : Nat := 0
  done : List Nat := []

/-- Vertex lines of an iline, `pl_output.cpp` lines 238-243. -/
def ilineVrtx (kw : Str) (attrs : List (Attr D)) (pts : List (Pt D)) : Nat → List Nat → Res File
  | _, [] => .ok []
  | id, v :: vs => do
    let p ← Res.index pts v
    let r ← ilineVrtx kw attrs pts (id + 1) vs
    pure (vrtxLine kw attrs id v p :: r)

/-- `SEG a b`. -/
def segLine (a b : Nat) : Str := cs!"SEG" ++ spaced [showNat a, showNat b]

/-- Segment lines of an iline, `pl_output.cpp` lines 244-249: `n` segments numbered from `offset`. -/
def segLines (offset n : Nat) : File := (List.range n).map fun i => segLine (offset + i) (offset + i + 1)

/-- `write_edge_and_vertex`, `pl_output.cpp` lines 231-251. -/
def writeIline (m : Mesh Edge D) (kw : Str) (attrs : List (Attr D)) (ev : EV) (s : PLState) : Res PLState := do
  let (evs, done) ← walk m.cells (m.cells.length + 1) s.done ev
  let vs ← Res.mapM' (evVertex m.cells) evs
  let vl ← ilineVrtx kw attrs m.points s.offset vs
  pure { out := s.out ++ [cs!"ILINE"] ++ vl ++ segLines s.offset (evs.length - 1),
         offset := s.offset + evs.length,
         nbDone := s.nbDone + (evs.length - 1),
         done }

/-- `start_point`, `pl_output.cpp` lines 183-190. -/
def startPoints (m : Mesh Edge D) : List Nat :=
  (List.range m.points.length).filter fun v => (edgesAround m.cells v).length != 2

/-- First loop of `write_ilines`, `pl_output.cpp` lines 193-205, over the edges around the start points. -/
def openIlines (m : Mesh Edge D) (kw : Str) (attrs : List (Attr D)) : List EV → PLState → Res PLState
  | [], s => .ok s
  | ev :: evs, s =>
    if isDone s.done ev.1 then openIlines m kw attrs evs s
    else do
      let s ← writeIline m kw attrs ev s
      openIlines m kw attrs evs s

/-- `starting_edge`, `pl_output.cpp` lines 217-229: the first edge not done (0 when all are). -/
def startingEdge (nb : Nat) (done : List Nat) : Nat :=
  ((List.range nb).find? fun e => !isDone done e).getD 0

/-- Second loop of `write_ilines`, `pl_output.cpp` lines 206-214: closed loops. -/
def closedIlines (m : Mesh Edge D) (kw : Str) (attrs : List (Attr D)) : Nat → PLState → Res PLState
  | 0, s => if s.nbDone = m.cells.length then .ok s else .diverge
  | fuel + 1, s =>
    if s.nbDone = m.cells.length then .ok s
    else do
      let start := startingEdge m.cells.length s.done
      let s ← writeIline m kw attrs (start, false) s
      let e ← Res.index m.cells start
      closedIlines m kw attrs fuel
        { s with out := s.out ++ [segLine (s.offset - 1) (e.1 + 1)], nbDone := s.nbDone + 1 }

/-- The attributes written by `pl_output.cpp` lines 71-76 (the name `points` is not excluded). -/
def writtenPL (attrs : List (Attr D)) : List (Attr D) := attrs.filter Attr.genericable

/-- `write_ilines`, `pl_output.cpp` lines 181-215. -/
def writeIlines (m : Mesh Edge D) : Res PLState := do
  let kw := vrtxKeyword m.attrs
  let attrs := writtenPL m.attrs
  let s ← openIlines m kw attrs ((startPoints m).flatMap (edgesAround m.cells)) {}
  closedIlines m kw attrs m.cells.length s

/-- `write_file`, `pl_output.cpp` lines 253-265.  The name of the curve is not written. -/
def savePL (m : Mesh Edge D) : Res File := do
  let s ← writeIlines m
  pure ([cs!"GOCAD PLine 1"] ++ writeHeader (some cs!"edged_curve_name") ++ writeCrs {}
    ++ writeProps D ((writtenPL m.attrs).map Attr.name) ++ s.out ++ [cs!"END"])

end Verif.GocadMesh
