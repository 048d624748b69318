import Verif.Model.LsoLines
import Verif.Model.Ml

/-!
# Corners and lines of `.ml` files

`in` is `/repo/src/geode/geosciences_io/model/internal/ml_input.cpp` and `impl` is
`/repo/include/geode/geosciences_io/model/internal/ml_output_impl.hpp`.

The mesh library gives the border edges of a surface and the next and previous ones: they are parameters (`Border`).  `back` is the border
walked with `previous_on_border`: the ends of its edges are swapped.  Vertices are those of the mesh of the surface.
-/

namespace Verif.MlLines

open Verif.LsoLines Res

/-! ## Writing -/

/-- `process_surface_edge`, `impl` lines 318-346: the edge is `(v1, v0)`, as walked backwards. -/
def startOf (back : Border) (corners : List Nat) (i : Nat) : Res (List (Nat × Nat)) := do
  let e ← Res.index back.ends i
  pure (if corners.contains e.1 then [e] else [])

/-- The loop of `add_corners_and_line_starts`, `impl` lines 363-369.  The first argument bounds the number of turns: after as many turns as
there are edges the loop is in a state it was in before, and never ends. -/
def startsFrom (back : Border) (corners : List Nat) : Nat → Nat → Res (List (Nat × Nat))
  | 0, _ => .diverge
  | n + 1, cur =>
    if cur = 0 then .ok []
    else do
      let s ← startOf back corners cur
      let r ← startsFrom back corners n (back.next cur)
      pure (s ++ r)

/-- `add_corners_and_line_starts`, `impl` lines 348-370, without the offset; `get_one_border_edge` gives the first border edge, if any. -/
def surfaceStarts (back : Border) (corners : List Nat) : Res (List (Nat × Nat)) :=
  if back.ends.isEmpty then .ok []
  else do
    let s ← startOf back corners 0
    let r ← startsFrom back corners back.ends.length (back.next 0)
    pure (s ++ r)

/-! ## Reading -/

/-- A surface read: its border walked both ways, the points of its vertices, and the corner at a vertex (`unique_vertex`, set by
`build_corners`, `in` lines 164-211; the merging of the points of the corners belongs to another library). -/
structure MSurface (P : Type) where
  fwd : Border
  back : Border
  point : Nat → P
  corner : Nat → Option Nat

/-- The loops of `compute_line`, `in` lines 633-647 and 651-663: the vertices after the edge `i` up to the next corner.  The first argument
bounds the number of turns, as above. -/
def follow {P : Type} (s : MSurface P) (b : Border) : Nat → Nat → Res (List Nat)
  | 0, _ => .diverge
  | n + 1, i => do
    let e ← Res.index b.ends i
    if (s.corner e.2).isSome then pure [e.2]
    else do
      let r ← follow s b n (b.next i)
      pure (e.2 :: r)

/-- `find_edge`, `in` lines 60-79, for an edge on the border, and the loop that follows. -/
def followStart {P : Type} (s : MSurface P) (start : Nat × Nat) : Res (List Nat) :=
  match s.back.ends.findIdx? (· = start) with
  | some i => follow s s.back s.back.ends.length i
  | none =>
    match s.fwd.ends.findIdx? (· = start) with
    | some i => follow s s.fwd s.fwd.ends.length i
    | none => .throw

/-- `LineData`, `in` lines 135-148. -/
structure LineData (P : Type) where
  corner0 : Nat
  corner1 : Nat
  indices : List Nat
  points : List P

/-- End of `compute_line`, `in` lines 664-676: the corner at the last vertex. -/
def endLine {P : Type} (s : MSurface P) (c0 : Nat) (indices : List Nat) : Res (LineData P) :=
  match s.corner (indices.getLastD 0) with
  | none => .ub
  | some c1 => .ok { corner0 := c0, corner1 := c1, indices, points := indices.map s.point }

/-- `compute_line`, `in` lines 610-676; the unique vertex of a vertex that has none is out of bounds. -/
def computeLine {P : Type} (s : MSurface P) (start : Nat × Nat) : Res (LineData P) :=
  match s.corner start.1 with
  | none => .ub
  | some c0 => followStart s start >>= fun r => endLine s c0 (start.1 :: r)

/-- A line of the model. -/
structure Line (P : Type) where
  corner0 : Nat
  corner1 : Nat
  points : List P
  deriving DecidableEq, Repr

/-- `are_lines_equal`, `in` lines 450-468; `close` is `point_point_distance <= epsilon`. -/
def linesEqual {P : Type} (close : P → P → Bool) : List P → List P → Bool
  | [], [] => true
  | p :: ps, q :: qs => close p q && linesEqual close ps qs
  | _, _ => false

/-- `find_or_create_line`, `in` lines 419-448: the lines, the number of the line and the vertices of the surface along it.  The second test is
`are_lines_reverse_equal`, `in` lines 470-488. -/
def findOrCreate {P : Type} (close : P → P → Bool) (lines : List (Line P)) (d : LineData P) : List (Line P) × Nat × List Nat :=
  match lines.findIdx? fun l => decide (l.corner0 = d.corner0 ∧ l.corner1 = d.corner1) && linesEqual close l.points d.points with
  | some k => (lines, k, d.indices)
  | none =>
    match lines.findIdx? fun l => decide (l.corner0 = d.corner1 ∧ l.corner1 = d.corner0) && linesEqual close l.points d.points.reverse with
    | some k => (lines, k, d.indices.reverse)
    | none => (lines ++ [⟨d.corner0, d.corner1, d.points⟩], lines.length, d.indices)

/-- The part of a line along a surface: the surface, the line, the vertices of the surface. -/
structure Piece where
  surface : Nat
  line : Nat
  indices : List Nat
  deriving DecidableEq, Repr

/-- One turn of the loop of `create_lines`, `in` lines 249-257. -/
def lineStep {P : Type} (close : P → P → Bool) (surfaces : List (MSurface P)) (st : List (Line P) × List Piece) (x : Nat × Nat × Nat) :
    Res (List (Line P) × List Piece) := do
  let s ← Res.index surfaces x.1
  let d ← computeLine s x.2
  let r := findOrCreate close st.1 d
  pure (r.1, st.2 ++ [⟨x.1, r.2.1, r.2.2⟩])

/-- `create_lines`, `in` lines 243-263, before the sort. -/
def createLines {P : Type} (close : P → P → Bool) (surfaces : List (MSurface P)) (starts : List (Nat × Nat × Nat)) :
    Res (List (Line P) × List Piece) := Res.foldM' (lineStep close surfaces) ([], []) starts

/-- `in` lines 291-298: the last of several lines, unless it is the same as the one before. -/
def lastLine (l : List Nat) : List (Bool × Nat) :=
  match l.reverse with
  | b :: a :: _ => if a ≠ b then [(true, b)] else []
  | _ => []

/-- `create_line_surface_relationships`, `in` lines 265-299, for one surface: boundary (true) and internal (false) lines.  The lines are
sorted; a single line is left out. -/
def lineRelations (numbers : List Nat) : List (Bool × Nat) :=
  let l := Ml.sortNat numbers
  if l.length < 2 then []
  else Ml.pairUp l ++ lastLine l

/-- `create_missing_line_surface_relationships`, `in` lines 309-374, for one surface of `vertices.length` vertices: `vertices` has their unique
vertices, `near v` the unique vertices found at their point, `lines` the unique vertices of each line, `fresh` the next unique vertex.
The result has the unique vertices and the lines made internal. -/
def missingLines (near : Nat → List Nat) (lines : List (List Nat)) :
    List Nat → List (Option Nat) × List Nat × Nat → Res (List (Option Nat) × List Nat × Nat)
  | [], st => .ok st
  | v :: vs, (uniques, internals, fresh) => do
    let u ← Res.index uniques v
    match u with
    | some _ => missingLines near lines vs (uniques, internals, fresh)
    | none =>
      match near v with
      | [] => missingLines near lines vs (uniques.set v (some fresh), internals, fresh + 1)
      | [w] =>
        let uniques := uniques.set v (some w)
        let more := (List.range lines.length).filter fun k =>
          (lines[k]?.getD []).contains w && !internals.contains k && (lines[k]?.getD []).all fun x => uniques.contains (some x)
        missingLines near lines vs (uniques, internals ++ more, fresh)
      | _ => .throw

end Verif.MlLines
