import Verif.Model.MlCorners
import Verif.Model.MlUniques

/-!
# Whole `.ml` files

`in` is `/repo/src/geode/geosciences_io/model/internal/ml_input.cpp` and `impl` is
`/repo/include/geode/geosciences_io/model/internal/ml_output_impl.hpp`.

The parts of the other models put together: the components and the surfaces (`Model.Ml`), the corners (`Model.MlCorners`), the lines (`Model.MlLines`) and
the unique vertices (`Model.MlUniques`).
-/

namespace Verif.MlWhole

open Verif Verif.Gocad Verif.GocadMesh Verif.Ml Verif.MlLines Verif.LsoLines Res

variable {D : Type}

/-- A surface read: its number, its points and its triangles. -/
abbrev Mesh (D : Type) := Nat × List (Pt D) × List Tri

/-- What other libraries compute: the border of a triangulated surface, walked with `next_on_border` and with `previous_on_border`, the merging of points and
the comparison of points.  The last two use `epsilon_`, found from the bounding box of the meshes by `compute_epsilon`, `in` lines 154-162. -/
structure Library (D : Type) where
  border : List Tri → Border × Border
  merge : List (Mesh D) → Merge (Pt D)
  close : List (Mesh D) → Pt D → Pt D → Bool

/-! ## Writing -/

/-- The line starts of one surface, `impl` lines 348-370; `corners` has the vertices of the surface at the corners of the model. -/
def startsOf (lib : Library D) (corners : Nat → List Nat) (s : Surface D) : Res (Surface D) := do
  let starts ← surfaceStarts (lib.border s.triangles).2 (corners s.id)
  pure { s with starts }

/-- `write_file`, `impl` lines 104-116.  The line starts are found for the surfaces as they are written; here they all are before. -/
def saveWhole [Num D] (lib : Library D) (corners : Nat → List Nat) (m : Ml.Model D) (sides : Sides.AllSides) : Res File := do
  let surfaces ← Res.mapM' (startsOf lib corners) m.surfaces
  saveMl { m with surfaces } sides

/-! ## Reading -/

/-- Points of vertices, when there are. -/
def closeAt (close : Pt D → Pt D → Bool) : Option (Pt D) → Option (Pt D) → Bool
  | some p, some q => close p q
  | _, _ => false

/-- The mesh of a surface; empty when no face was read for the surface. -/
def meshOf (meshes : List (Mesh D)) (n : Nat) : List (Pt D) × List Tri := ((meshes.find? fun F => F.1 = n).map Prod.snd).getD ([], [])

/-- A surface with the corners set by `build_corners`. -/
def surfaceRead (lib : Library D) (meshes : List (Mesh D)) (set : List ((Nat × Nat) × Nat)) (n : Nat) : USurface (Option (Pt D)) :=
  let mesh := meshOf meshes n
  { fwd := (lib.border mesh.2).1, back := (lib.border mesh.2).2, point := fun v => mesh.1[v]?, corner := cornerAt set n, nb := mesh.1.length }

/-- A model loaded, with the points of its corners, its lines and the unique vertices of its surfaces. -/
structure Whole (D : Type) where
  model : Ml.Loaded D
  corners : List (Pt D)
  built : Built (Option (Pt D))

/-- `read_file`, `in` lines 96-118. -/
def loadWhole [Num D] (lib : Library D) (f : File) : Res (Whole D) := do
  let model ← loadMl f
  let r ← loadCorners f
  let made := cornersMade (lib.merge model.meshes) r.1
  let surfaces := (List.range model.surfaces.length).map (surfaceRead lib model.meshes made.2)
  let built ← buildLines (closeAt (lib.close model.meshes)) made.1.length surfaces r.2
  pure { model, corners := made.1, built }

end Verif.MlWhole
