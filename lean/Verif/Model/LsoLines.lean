import Verif.Base.Outcome

/-!
# Corners and lines of `.lso` files

`in` is `/repo/src/geode/geosciences_io/model/internal/lso_input.cpp`.  Vertices are unique vertices of the model.
The mesh library gives the edges on the border of each surface and the next edge on the border: they are parameters.
-/

namespace Verif.LsoLines

open Res

/-- Border of a surface.  `ends` has the unique vertices at the two ends of each border edge (`polygon_edge_vertex`), in the order of
`polygon_edges_on_border` over the polygons; `next` is `next_on_border`, on positions in `ends`. -/
structure Border where
  ends : List (Nat × Nat)
  next : Nat → Nat

/-- `containing_surfaces_ids`, `in` lines 519-533: one entry per vertex of a surface.  `surfaces` has the unique vertices of the vertices
of each surface. -/
def containingSurfaces (surfaces : List (List Nat)) (u : Nat) : List Nat :=
  surfaces.zipIdx.flatMap fun s => (s.1.filter (· = u)).map fun _ => s.2

/-- `are_equal`, `in` lines 535-555. -/
def areEqual (l r : List Nat) : Bool := l.all fun a => r.contains a

/-- The vertices that `build_corner_from_edge` makes corners of, `in` lines 488-517. -/
def edgeCorners (around : Nat → List Nat) (e : Nat × Nat) : List Nat :=
  if (around e.1).length > (around e.2).length then [e.1]
  else if (around e.1).length < (around e.2).length then [e.2]
  else if areEqual (around e.1) (around e.2) then []
  else [e.1, e.2]

/-- `create_corner`, `in` lines 557-568. -/
def createCorner (corners : List Nat) (u : Nat) : List Nat := if corners.contains u then corners else corners ++ [u]

/-- `build_corners`, `in` lines 471-486. -/
def buildCorners (around : Nat → List Nat) (borders : List Border) : List Nat :=
  ((borders.flatMap Border.ends).flatMap (edgeCorners around)).foldl createCorner []

/-- The loop of `build_line`, `in` lines 663-675: the vertices after the edge `i` up to the next corner.  The first argument bounds the
number of turns: after as many turns as there are edges the loop is in a state it was in before, and never ends. -/
def walk (b : Border) (corners : List Nat) : Nat → Nat → Res (List Nat)
  | 0, _ => .diverge
  | n + 1, i => do
    let e ← Res.index b.ends (b.next i)
    if corners.contains e.1 then pure [e.1]
    else do
      let r ← walk b corners n (b.next i)
      pure (e.1 :: r)

/-- `build_line`, `in` lines 645-692: the vertices of the line. -/
def buildLine (b : Border) (corners : List Nat) (i : Nat) : Res (List Nat) := do
  let e ← Res.index b.ends i
  let r ← walk b corners b.ends.length i
  pure (e.1 :: r)

/-- Consecutive vertices of a line. -/
def pairs : List Nat → List (Nat × Nat)
  | a :: b :: l => (a, b) :: pairs (b :: l)
  | _ => []

/-- The edge between two vertices is an edge of the line, in one direction or the other. -/
def onLine (l : List Nat) (e : Nat × Nat) : Bool := (pairs l).contains e || (pairs l).contains (e.2, e.1)

/-- `common_line`, `in` lines 694-720; lines are met in the order of their creation. -/
def commonLine (lines : List (List Nat)) (e : Nat × Nat) : Option Nat := lines.findIdx? fun l => onLine l e

/-- The lines built so far, and the lines met along the border of the surface, as often as they were counted in `line_relations`. -/
structure State where
  lines : List (List Nat) := []
  hits : List Nat := []
  deriving DecidableEq, Repr

/-- One border edge in the loop of `build_lines`, `in` lines 584-616. -/
def edgeStep (b : Border) (corners : List Nat) (st : State) (i : Nat) : Res State := do
  let e ← Res.index b.ends i
  if corners.contains e.1 then
    match commonLine st.lines e with
    | some k => pure { st with hits := st.hits ++ [k] }
    | none => do
      let l ← buildLine b corners i
      pure { lines := st.lines ++ [l], hits := st.hits ++ [st.lines.length] }
  else pure st

/-- Relations of the lines with one surface. -/
structure Relations where
  boundaries : List Nat
  internals : List Nat
  deriving DecidableEq, Repr

/-- `build_line_relations`, `in` lines 622-643, over the `n` lines. -/
def lineRelations (n : Nat) (hits : List Nat) : Res Relations :=
  if (List.range n).any fun k => decide (2 < hits.count k) then .throw
  else .ok { boundaries := (List.range n).filter fun k => hits.count k = 1, internals := (List.range n).filter fun k => hits.count k = 2 }

/-- One surface in the loop of `build_lines`, `in` lines 577-619. -/
def surfaceLines (corners : List Nat) (st : List (List Nat) × List Relations) (b : Border) : Res (List (List Nat) × List Relations) := do
  let s ← Res.foldM' (edgeStep b corners) { lines := st.1 } (List.range b.ends.length)
  let r ← lineRelations s.lines.length s.hits
  pure (s.lines, st.2 ++ [r])

/-- `build_lines`, `in` lines 575-620: the lines and their relations with each surface. -/
def buildLines (corners : List Nat) (borders : List Border) : Res (List (List Nat) × List Relations) :=
  Res.foldM' (surfaceLines corners) ([], []) borders

/-- The relations that `split_on_internal_lines` adds, `in` lines 722-744: each surface that has the first edge of a line and no relation
with it gets it as an internal line.  `edges` has the edges of the triangles of the surface. -/
def missingInternals (lines : List (List Nat)) (edges : List (Nat × Nat)) (r : Relations) : List Nat :=
  (List.range lines.length).filter fun k =>
    (match (lines[k]?.getD []) with
      | a :: b :: _ => edges.contains (a, b) || edges.contains (b, a)
      | _ => false)
    && !(r.boundaries.contains k || r.internals.contains k)

/-- What the corners and lines of a model are. -/
structure Topology where
  corners : List Nat
  lines : List (List Nat)
  relations : List Relations
  deriving DecidableEq, Repr

/-- `build_corners` and `build_lines`, as called by `read_file`, `in` lines 119-120. -/
def topology (around : Nat → List Nat) (borders : List Border) : Res Topology := do
  let corners := buildCorners around borders
  let (lines, relations) ← buildLines corners borders
  pure { corners, lines, relations }

end Verif.LsoLines
