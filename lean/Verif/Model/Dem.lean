import Verif.Base.NumIO

/-!
# Elevation rasters

Models of `/repo/src/geode/geosciences_io/mesh/dem_input.cpp` and `polytiff_input.cpp`.  What GDAL delivers is the input: the sizes, the
elevations of the first band in row order, the test "is the no-data value" and the position of a pixel.
-/

namespace Verif.Dem

open Verif

variable {D : Type}

/-- What GDAL delivers. -/
structure Raster (D : Type) where
  width : Nat
  height : Nat
  /-- The elevations, row after row. -/
  elevation : List D
  /-- `elevation == no_data_value`. -/
  noData : D → Bool
  /-- `origin + direction( 1 ) * i + direction( 0 ) * j` for row `i` and column `j`. -/
  pos : Nat → Nat → D × D

/-- A loaded surface. -/
structure Surface (D : Type) where
  points : List (Pt D) := []
  polygons : List (List Nat) := []
  deriving DecidableEq, Repr

/-- Body of the loops of `read_vertices`, `dem_input.cpp` lines 106-126, at row `i` and column `j`; the state is the points created and
the array `vertices`. -/
def vertexStep (r : Raster D) (s : List (Pt D) × List Nat) (ij : Nat × Nat) : Res (List (Pt D) × List Nat) := do
  let vertex := (ij.1 * r.width + ij.2) % W
  let e ← Res.index r.elevation vertex
  if r.noData e then pure s
  else
    let p := r.pos ij.1 ij.2
    if vertex < s.2.length then pure (s.1 ++ [⟨p.1, p.2, e⟩], s.2.set vertex s.1.length) else .ub

/-- The pixels in the order of the loops. -/
def pixels (h w : Nat) : List (Nat × Nat) := (List.range h).flatMap fun i => (List.range w).map fun j => (i, j)

/-- `read_vertices`, `dem_input.cpp` lines 89-129. -/
def readVertices (r : Raster D) : Res (List (Pt D) × List Nat) :=
  Res.foldM' (vertexStep r) ([], List.replicate (r.width * r.height % W) NO_ID) (pixels r.height r.width)

/-- Loop over the four vertices, `dem_input.cpp` lines 71-80: `none` when one of them does not exist. -/
def lookup (vertices : List Nat) : List Nat → Res (Option (List Nat))
  | [] => .ok (some [])
  | v :: vs => do
    let id ← Res.index vertices v
    if id = NO_ID then pure none
    else
      match ← lookup vertices vs with
      | none => pure none
      | some ids => pure (some (id :: ids))

/-- The indices of `polygon`, `dem_input.cpp` lines 63-69. -/
def square (w i j : Nat) : List Nat :=
  [(i * w + j) % W, (i * w + j + 1) % W, (i * w + (j + w)) % W, (i * w + (j + w) + 1) % W]

/-- `create_polygons`, `dem_input.cpp` lines 59-87.  The sizes minus one wrap when a size is 0. -/
def createPolygons (w h : Nat) (vertices : List Nat) : Res (List (List Nat)) := do
  let r ← Res.mapM' (fun ij => lookup vertices (square w ij.1 ij.2)) (pixels (sub32 h 1) (sub32 w 1))
  pure (r.filterMap id)

/-- `read_file`, `dem_input.cpp` lines 51-56. -/
def load (r : Raster D) : Res (Surface D) := do
  let (points, vertices) ← readVertices r
  let polygons ← createPolygons r.width r.height vertices
  pure { points, polygons }

/-! ## Surfaces from images -/

/-- Elevation of the vertices, `polytiff_input.cpp` lines 48-84: `load_light_regular_grid` makes one cell per pixel, hence
`(width + 1) * (height + 1)` vertices; the array `elevation` has that size, and only its `width * height` first values are read from the
file.  `none` is the vertex of the converted surface left at the no-data elevation. -/
def polyElevations (r : Raster D) : Res (List (Option D)) :=
  let array := r.elevation.map some ++ List.replicate ((r.width + 1) * (r.height + 1) - r.elevation.length) none
  Res.mapM' (fun v => do
    match ← Res.index array v with
    | none => .ub
    | some e => if r.noData e then pure none else pure (some e)) (List.range ((r.width + 1) * (r.height + 1)))

end Verif.Dem
