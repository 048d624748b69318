import Verif.Model.Ml

/-!
# Corners and line starts announced in `.ml` files

`in` is `/repo/src/geode/geosciences_io/model/internal/ml_input.cpp` and `hpp` is
`/repo/include/geode/geosciences_io/mesh/internal/gocad_common.hpp`.

The records `BSTONE` and `BORDER` of a TSurf refer to vertices by their rank among the vertices of all the faces of the TSurf.  A corner is the pair of
a surface (by its number) and a vertex of its mesh.  The search of points at one place (`NNSearch::colocated_index_mapping`) belongs to another
library and is a parameter (`Merge`).
-/

namespace Verif.Ml

open Verif Verif.Gocad

variable {D : Type}

/-- The loop of `TSurfData::tface_id`, `hpp` lines 129-135, from the second offset on. -/
def tfaceIdFrom : Nat → List Nat → Nat → Nat
  | i, [], _ => i
  | i, o :: os, v => if v < o then i else tfaceIdFrom (i + 1) os v

/-- `TSurfData::tface_id`, `hpp` lines 127-137. -/
def tfaceId (offsets : List Nat) (v : Nat) : Nat := tfaceIdFrom 0 offsets.tail v

/-- `tsurf.tfaces[tface_id]` and `corner - data.tface_vertices_offset[tface_id]`, `in` lines 174-178 and 227-231.  `tfaces` are the surfaces of the
TSurf. -/
def located (offsets tfaces : List Nat) (v : Nat) : Res (Nat × Nat × Nat) := do
  let k := tfaceId offsets v
  let surface ← Res.index tfaces k
  let offset ← Res.index offsets k
  pure (surface, sub32 v offset, offset)

/-- A record of a corner, `in` lines 171-181: its point, its surface and its vertex. -/
def stoneOf (ts : TSurf D) (tfaces : List Nat) (corner : Nat) : Res (Pt D × Nat × Nat) := do
  let p ← Res.index ts.points corner
  let (s, v, _) ← located ts.tfaceVertices tfaces corner
  pure (p, s, v)

/-- The loop of `build_corners`, `in` lines 168-183, for one TSurf. -/
def stones (ts : TSurf D) (tfaces : List Nat) : Res (List (Pt D × Nat × Nat)) := Res.mapM' (stoneOf ts tfaces) ts.bstones

/-- A record of a line start, `in` lines 225-238: its surface, its corner and the next vertex. -/
def startAt (ts : TSurf D) (tfaces : List Nat) (border : Nat × Nat) : Res (Nat × Nat × Nat) := do
  let (s, v, offset) ← located ts.tfaceVertices tfaces border.1
  pure (s, v, sub32 border.2 offset)

/-- `compute_line_starts`, `in` lines 215-241, for one TSurf. -/
def startsAt (ts : TSurf D) (tfaces : List Nat) : Res (List (Nat × Nat × Nat)) := Res.mapM' (startAt ts tfaces) ts.borders

/-- `NNSearch::colocated_index_mapping`: the points kept, and for each point the rank of the one kept in its place. -/
abbrev Merge (P : Type) := List P → List P × List Nat

/-- `build_corners`, `in` lines 164-211: the points of the corners, and the corner given to the vertices of surfaces, in the order they are set. -/
def cornersMade {P : Type} (merge : Merge P) (records : List (P × Nat × Nat)) : List P × List ((Nat × Nat) × Nat) :=
  let (points, mapping) := merge (records.map Prod.fst)
  (points, (records.map Prod.snd).zip mapping)

/-- The corner of a vertex of a surface, `unique_vertex`: the last one set. -/
def cornerAt (set : List ((Nat × Nat) × Nat)) (surface vertex : Nat) : Option Nat :=
  (set.reverse.find? fun e => decide (e.1 = (surface, vertex))).map Prod.snd

/-- The records of the corners of all the TSurfs, `in` lines 166-183. -/
def allStones : List (TSurf D × List Nat) → Res (List (Pt D × Nat × Nat))
  | [] => .ok []
  | t :: ts => do
    let a ← stones t.1 t.2
    let r ← allStones ts
    pure (a ++ r)

/-- The line starts of all the TSurfs, `compute_line_starts`, `in` lines 215-241. -/
def allStarts : List (TSurf D × List Nat) → Res (List (Nat × Nat × Nat))
  | [] => .ok []
  | t :: ts => do
    let a ← startsAt t.1 t.2
    let r ← allStarts ts
    pure (a ++ r)

/-- `tsurf.data = read_tsurf( ... ).value()` for every TSurf announced, `in` lines 111-115. -/
def readData [Num D] : List RTsurf → File → Res (List (TSurf D × List Nat))
  | [], _ => .ok []
  | t :: ts, f => do
    match ← (readTSurf f : Res (Option (TSurf D × File))) with
    | none => .throw
    | some (data, f) => do
      let r ← readData ts f
      pure ((data, t.tfaces) :: r)

/-- The records of corners and the line starts of a file, `in` lines 96-118. -/
def loadCorners [Num D] (f : File) : Res (List (Pt D × Nat × Nat) × List (Nat × Nat × Nat)) := do
  let (_, f) ← gotoKeyword cs!"GOCAD Model3d" f
  let (_, f) ← readHeader f
  let (_, f) ← readCrs f
  let (st, f) ← readLines ({}, .top) f
  let data ← readData st.tsurfs f
  let corners ← allStones data
  let starts ← allStarts data
  pure (corners, starts)

end Verif.Ml
