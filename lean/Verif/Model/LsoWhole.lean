import Verif.Model.Lso
import Verif.Model.LsoLines

/-!
# Loading of `.lso` files up to the corners and lines

`in` is `/repo/src/geode/geosciences_io/model/internal/lso_input.cpp`.  `read_file`, `in` lines 90-123: the components are those of `Verif.Model.Lso`, the
corners and lines those of `Verif.Model.LsoLines`, here put together.  The mesh library is a parameter: it gives the border of a surface mesh, on the vertices
of the mesh.  `build_model_boundaries`, `in` line 118, and the split of the meshes along the lines, `in` lines 747-750, are in another library and left out.
-/

namespace Verif.LsoWhole

open Verif Verif.Gocad Verif.Lso Verif.LsoLines

variable {D : Type} [Num D]

/-- The unique vertices of the vertices of a surface, set `in` lines 292-296.  The vertices of the surfaces read are vertices of the solid, so the
default values are never used. -/
def uniquesOf (s : Solid D) (r : RSurface) : List Nat := r.vertices.map fun v => s.ids[v]?.getD 0

/-- The unique vertex of a vertex of a surface. -/
def uniqueOf (s : Solid D) (r : RSurface) (v : Nat) : Nat := (uniquesOf s r)[v]?.getD 0

/-- The border of a surface on the unique vertices. -/
def borderOf (mesh : RSurface → Border) (s : Solid D) (r : RSurface) : Border :=
  { ends := (mesh r).ends.map fun e => (uniqueOf s r e.1, uniqueOf s r e.2), next := (mesh r).next }

/-- The edges of a triangle. -/
def triangleEdges : List Nat → List (Nat × Nat)
  | [a, b, c] => [(a, b), (b, c), (c, a)]
  | _ => []

/-- The edges of the triangles of a surface on the unique vertices. -/
def edgesOf (s : Solid D) (r : RSurface) : List (Nat × Nat) :=
  (r.triangles.flatMap triangleEdges).map fun e => (uniqueOf s r e.1, uniqueOf s r e.2)

/-- A model with its corners and lines; `added` has the lines made internal to each surface by `split_on_internal_lines`. -/
structure Whole (D : Type) where
  model : Loaded D
  topology : Topology
  added : List (List Nat)
  inspect : Bool
  deriving DecidableEq, Repr

/-- `split_on_internal_lines`, `in` lines 722-744, for all the surfaces. -/
def addedLines (m : Loaded D) (t : Topology) : List (List Nat) :=
  List.zipWith (fun r rel => missingInternals t.lines (edgesOf m.solid r) rel) m.surfaces t.relations

/-- `read_file`, `in` lines 90-123. -/
def loadModel (mesh : RSurface → Border) (f : File) : Res (Whole D) := do
  let m : Loaded D ← loadLso f
  let t ← LsoLines.topology (containingSurfaces (m.surfaces.map (uniquesOf m.solid))) (m.surfaces.map (borderOf mesh m.solid))
  let added := addedLines m t
  pure { model := m, topology := t, added, inspect := m.inspect || added.any fun l => !l.isEmpty }

end Verif.LsoWhole
