import Verif.Model.Lso
import Verif.Model.Ml

/-!
# Models that can be saved

Models of the functions `is_saveable` of `/repo/src/geode/geosciences_io/model/internal/{lso_output,ml_output_brep,ml_output_structural_model}.cpp` and of
the beginning of the functions `write` of the `.ml` writers.  The type of a mesh (`type_name`) is given beside the model.
-/

namespace Verif.Saveable

open Verif Verif.Gocad Verif.GocadMesh

variable {D : Type} [Num D]

/-- `LSOOutput::is_saveable`, `lso_output.cpp` lines 295-318.  `triangulated` and `tetrahedral` tell the types of the meshes of surfaces and blocks. -/
def isSaveableLso (m : Lso.Model D) (triangulated tetrahedral : Nat → Bool) : Bool :=
  m.surfaces.all (fun s => s.triangles.length ≠ 0 && triangulated s.id) && m.blocks.all (fun b => b.tetras.length ≠ 0 && tetrahedral b.id)

/-- `check_brep_polygons`, `/repo/include/geode/geosciences_io/model/internal/ml_output_impl.hpp` lines 61-77; `sizes` has the numbers of vertices of the
polygons of each surface. -/
def checkPolygons (sizes : List (List Nat)) : Bool := sizes.all fun s => s.all fun n => n = 3

/-- `is_saveable` of the `.ml` writers, `ml_output_brep.cpp` lines 109-112 and `ml_output_structural_model.cpp` lines 260-264. -/
def isSaveableMl (sizes : List (List Nat)) : Bool := checkPolygons sizes

/-- `write` of the `.ml` writers, `ml_output_brep.cpp` lines 87-107 and `ml_output_structural_model.cpp` lines 236-258.  `bounded` is the model with the
boundaries made by `clone_with_model_boundaries` (`build_model_boundaries` is in another library). -/
def writeMl (m bounded : Ml.Model D) (sizes : List (List Nat)) (sides : Sides.AllSides) : Res File := do
  Res.check (checkPolygons sizes)
  if 0 < m.boundaries.length then Ml.saveMl m sides else Ml.saveMl bounded sides

end Verif.Saveable
