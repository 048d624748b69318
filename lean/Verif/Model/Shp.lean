import Verif.Base.Text
import Verif.Model.Sides

/-!
# Shapefiles

Model of `/repo/src/geode/geosciences_io/model/internal/shp_input.cpp`.  The file is what GDAL gives: layers with a geometry type and
features.  `P` is the type of the 2D points; two points are the same when their coordinates are equal.  The triangulation of large
polygons (`Polygon2D::triangulate`) is a parameter.
-/

namespace Verif.Shp

open Verif Verif.Sides

/-- A geometry, `OGRGeometry`.  The types that the reader does not know are `other`. -/
inductive Geometry (P : Type) where
  | point (p : P)
  | line (pts : List P)
  | multiLine (parts : List (List P))
  | polygon (rings : List (List P))
  | multiPolygon (polygons : List (List (List P)))
  | other

/-- Type of a layer, `OGRLayer::GetGeomType`. -/
inductive Kind where
  | point | line | polygon | other
  deriving DecidableEq

/-- A layer; a feature may have no geometry. -/
structure Layer (P : Type) where
  name : Str
  kind : Kind
  features : List (Option (Geometry P))

/-- A mesh: points and cells (edges or polygons) as lists of vertices. -/
structure Mesh (P : Type) where
  points : List P := []
  cells : List (List Nat) := []
  deriving DecidableEq

/-- Type of a component of the section. -/
inductive Comp where
  | corner | line | surface
  deriving DecidableEq

/-- Vertex of the mesh of the component of given type and rank. -/
structure Key where
  comp : Comp
  rank : Nat
  vertex : Nat
  deriving DecidableEq

/-- Unique vertices of the section: the last assignment of a vertex comes first in `assigned`. -/
structure Uniques where
  nb : Nat := 0
  assigned : List (Key × Nat) := []
  deriving DecidableEq

/-- `unique_vertex`: the unique vertex of a component vertex, `none` for `NO_ID`. -/
def Uniques.of (u : Uniques) (k : Key) : Option Nat := find u.assigned k

/-- `Section`. -/
structure Section (P : Type) where
  corners : List (Str × Mesh P) := []
  lines : List (Str × Mesh P) := []
  surfaces : List (Str × Mesh P) := []
  uniques : Uniques := {}
  deriving DecidableEq

/-- Mesh of the component in construction and unique vertices of the section. -/
abbrev State (P : Type) := Mesh P × Uniques

variable {P : Type} [DecidableEq P]

/-- `OGRCurve::get_IsClosed`: the first point is the last one.  The points of a curve without points are read out of bounds. -/
def isClosed (pts : List P) : Res Bool := do
  let a ← Res.index pts 0
  let b ← Res.index pts (pts.length - 1)
  pure (decide (a = b))

/-- The assignments of `n` vertices from `v` to unique vertices from `u`, last first. -/
def assignments (c : Comp) (r : Nat) : Nat → Nat → Nat → List (Key × Nat)
  | _, _, 0 => []
  | v, u, n + 1 => assignments c r (v + 1) (u + 1) n ++ [(⟨c, r, v⟩, u)]

/-- `read_points`, `shp_input.cpp` lines 170-193. -/
def readPoints (c : Comp) (r : Nat) (st : State P) (pts : List P) : Res (State P) := do
  let closed ← isClosed pts
  let nb := if closed then pts.length - 1 else pts.length
  pure ({ st.1 with points := st.1.points ++ pts.take nb },
    { nb := st.2.nb + nb, assigned := assignments c r st.1.points.length st.2.nb nb ++ st.2.assigned })

/-- `create_edge`: vertices that do not exist break the contract of the builder. -/
def createEdge (m : Mesh P) (a b : Nat) : Res (Mesh P) :=
  if a < m.points.length ∧ b < m.points.length then .ok { m with cells := m.cells ++ [[a, b]] } else .ub

/-- The loop of lines 160-163 from `p`, `n` times. -/
def edgeLoop (p : Nat) : Nat → Mesh P → Res (Mesh P)
  | 0, m => .ok m
  | n + 1, m => createEdge m p (p + 1) >>= edgeLoop (p + 1) n

/-- `read_line`, `shp_input.cpp` lines 154-168.  `nb_vertices() - 1` is a 32-bit difference. -/
def readLine (r : Nat) (st : State P) (pts : List P) : Res (State P) := do
  let start := st.1.points.length
  let st ← readPoints .line r st pts
  let last := sub32 st.1.points.length 1
  let m ← edgeLoop start (last - start) st.1
  let closed ← isClosed pts
  if closed then
    let m ← createEdge m start last
    pure (m, st.2)
  else pure (m, st.2)

/-- `read_polygon`, `shp_input.cpp` lines 229-264, for one ring.  `NO_LID` is 255.  The number of vertices of a polygon is not checked. -/
def readRing (triangulate : List P → List (List Nat)) (r : Nat) (st : State P) (pts : List P) : Res (State P) := do
  let start := st.1.points.length
  let st ← readPoints .surface r st pts
  let nb := pts.length - 1
  if nb < 255 then pure ({ st.1 with cells := st.1.cells ++ [List.range' start nb] }, st.2)
  else
    let corners ← Res.mapM' (fun p => Res.index st.1.points (start + p)) (List.range nb)
    pure ({ st.1 with cells := st.1.cells ++ (triangulate corners).map fun t => t.map (start + ·) }, st.2)

/-- One feature of `create_corner`, lines 93-116. -/
def cornerFeature (r : Nat) (st : State P) : Option (Geometry P) → Res (State P)
  | none => .throw
  | some (.point p) => .ok ({ st.1 with points := st.1.points ++ [p] }, { nb := st.2.nb + 1, assigned := (⟨.corner, r, 0⟩, st.2.nb) :: st.2.assigned })
  | some _ => .ok st

/-- One feature of `create_line`, lines 124-151. -/
def lineFeature (r : Nat) (st : State P) : Option (Geometry P) → Res (State P)
  | none => .throw
  | some (.line pts) => readLine r st pts
  | some (.multiLine parts) => Res.foldM' (readLine r) st parts
  | some _ => .ok st

/-- One feature of `create_surface`, lines 200-226. -/
def surfaceFeature (triangulate : List P → List (List Nat)) (r : Nat) (st : State P) : Option (Geometry P) → Res (State P)
  | none => .throw
  | some (.polygon rings) => Res.foldM' (readRing triangulate r) st rings
  | some (.multiPolygon polygons) => Res.foldM' (fun st rings => Res.foldM' (readRing triangulate r) st rings) st polygons
  | some _ => .ok st

/-- One layer of `read_file`, `shp_input.cpp` lines 61-85. -/
def readLayer (triangulate : List P → List (List Nat)) (s : Section P) (l : Layer P) : Res (Section P) :=
  match l.kind with
  | .point => do
    let st ← Res.foldM' (cornerFeature s.corners.length) ({}, s.uniques) l.features
    pure { s with corners := s.corners ++ [(l.name, st.1)], uniques := st.2 }
  | .line => do
    let st ← Res.foldM' (lineFeature s.lines.length) ({}, s.uniques) l.features
    pure { s with lines := s.lines ++ [(l.name, st.1)], uniques := st.2 }
  | .polygon => do
    let st ← Res.foldM' (surfaceFeature triangulate s.surfaces.length) ({}, s.uniques) l.features
    pure { s with surfaces := s.surfaces ++ [(l.name, st.1)], uniques := st.2 }
  | .other => .ok s

/-- `read_file`, `shp_input.cpp` lines 61-85. -/
def loadShp (triangulate : List P → List (List Nat)) (layers : List (Layer P)) : Res (Section P) := Res.foldM' (readLayer triangulate) {} layers

/-- `SHPInput::is_loadable`, `shp_input.cpp` lines 294-302: a file is recognised when it has a layer. -/
def isLoadableShp (layers : List (Layer P)) : Bool := layers.length ≠ 0

end Verif.Shp
