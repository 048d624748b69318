import Verif.Model.MlLines

/-!
# Unique vertices of `.ml` files

`in` is `/repo/src/geode/geosciences_io/model/internal/ml_input.cpp`.

A unique vertex is a number: those of the corners come first (`build_corners`, `in` lines 184-194), then those made for the lines, then those made for the
surfaces.
-/

namespace Verif.MlLines

open Res

/-- A surface read, with the number of its vertices. -/
structure USurface (P : Type) extends MSurface P where
  nb : Nat

/-- `create_line_topology`, `in` lines 536-565, for all the lines in the order they are made: the unique vertices of the vertices of each line.  The two
ends have those of their corners, the others have new ones.  A line has at least two points. -/
def lineVertices {P : Type} : Nat → List (Line P) → List (List Nat)
  | _, [] => []
  | fresh, l :: ls =>
    (l.corner0 :: ((List.range (l.points.length - 2)).map (fresh + ·) ++ [l.corner1])) :: lineVertices (fresh + (l.points.length - 2)) ls

/-- `nb_unique_vertices` once the lines are made. -/
def nbUniques {P : Type} (fresh : Nat) (lines : List (Line P)) : Nat := fresh + (lines.map fun l => l.points.length - 2).sum

/-- `create_unique_vertices_search`, `in` lines 395-415: the point of a unique vertex, on the first line that has it. -/
def searchPoint {P : Type} (lines : List (Line P)) (vertices : List (List Nat)) (u : Nat) : Res P :=
  match vertices.findIdx? (·.contains u) with
  | none => .throw
  | some k => do
    let l ← Res.index lines k
    let vs ← Res.index vertices k
    Res.index l.points (vs.idxOf u)

/-- `create_unique_vertices_search`, `in` lines 393-417. -/
def searchPoints {P : Type} (lines : List (Line P)) (vertices : List (List Nat)) (nb : Nat) : Res (List P) :=
  Res.mapM' (searchPoint lines vertices) (List.range nb)

/-- `radius_neighbors( point, epsilon )`. -/
def neighbours {P : Type} (close : P → P → Bool) (search : List P) (p : P) : List Nat :=
  (List.range search.length).filter fun u =>
    match search[u]? with
    | some q => close q p
    | none => false

/-- `absl::c_sort` of the pieces of a surface by line, `in` lines 259-262. -/
def insertPiece (p : Piece) : List Piece → List Piece
  | [] => [p]
  | q :: qs => if p.line ≤ q.line then p :: q :: qs else q :: insertPiece p qs

def sortPieces (ps : List Piece) : List Piece := ps.foldr insertPiece []

/-- The pieces whose vertices are tied to those of the line by the loop of `create_line_surface_relationships`, `in` lines 273-289. -/
def tiedPairs : List Piece → List Piece
  | p :: q :: r => if p.line ≠ q.line then p :: tiedPairs (q :: r) else p :: q :: tiedPairs r
  | _ => []

/-- The last piece, `in` lines 290-298. -/
def tiedLast (ps : List Piece) : List Piece :=
  match ps.reverse with
  | q :: p :: _ => if p.line ≠ q.line then [q] else []
  | _ => []

/-- The pieces of a surface whose vertices are tied to those of the line, `in` lines 265-299. -/
def tied (ps : List Piece) : List Piece := tiedPairs (sortPieces ps) ++ tiedLast (sortPieces ps)

/-- `register_line_surface_vertex_identifier`, `in` lines 598-608. -/
def tie (vertices : List (List Nat)) (uniques : List (Option Nat)) (p : Piece) : List (Option Nat) :=
  (p.indices.zip (vertices[p.line]?.getD [])).foldl (fun u x => u.set x.1 (some x.2)) uniques

/-- The unique vertices of a surface after `create_line_surface_relationships`; `number` is the number of the surface. -/
def tiedUniques {P : Type} (vertices : List (List Nat)) (pieces : List Piece) (number : Nat) (s : USurface P) : List (Option Nat) :=
  (tied (pieces.filter fun p => p.surface = number)).foldl (tie vertices) ((List.range s.nb).map s.corner)

/-- The lines internal to a surface after `create_line_surface_relationships`. -/
def tiedInternals (pieces : List Piece) (number : Nat) : List Nat :=
  ((lineRelations ((pieces.filter fun p => p.surface = number).map Piece.line)).filter fun r => r.1 = false).map Prod.snd

/-- The loop of `create_missing_line_surface_relationships` over the surfaces, `in` lines 312-373.  The splitting of the meshes belongs to another
library. -/
def missingAll {P : Type} (close : P → P → Bool) (search : List P) (vertices : List (List Nat)) (pieces : List Piece) :
    Nat → Nat → List (USurface P) → Res (List (List (Option Nat) × List Nat))
  | _, _, [] => .ok []
  | number, fresh, s :: ss => do
    let r ← missingLines (fun v => neighbours close search (s.point v)) vertices (List.range s.nb)
      (tiedUniques vertices pieces number s, tiedInternals pieces number, fresh)
    let rs ← missingAll close search vertices pieces (number + 1) r.2.2 ss
    pure ((r.1, r.2.1) :: rs)

/-- The lines of a model and, for each surface, the unique vertices of its vertices and its internal lines. -/
structure Built (P : Type) where
  lines : List (Line P)
  vertices : List (List Nat)
  surfaces : List (List (Option Nat) × List Nat)

/-- `build_lines`, `in` lines 301-307, for a model with `nb` corners. -/
def buildLines {P : Type} (close : P → P → Bool) (nb : Nat) (surfaces : List (USurface P)) (starts : List (Nat × Nat × Nat)) : Res (Built P) := do
  let r ← createLines close (surfaces.map USurface.toMSurface) starts
  let vertices := lineVertices nb r.1
  let search ← searchPoints r.1 vertices (nbUniques nb r.1)
  let done ← missingAll close search vertices r.2 0 (nbUniques nb r.1) surfaces
  pure { lines := r.1, vertices, surfaces := done }

end Verif.MlLines
