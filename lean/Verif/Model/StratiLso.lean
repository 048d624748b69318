import Verif.Model.Lso
import Verif.Model.Recognise

/-!
# Stratigraphic models in LightSolid files

`/repo/src/geode/geosciences_io/model/internal/strati_lso_input.cpp`.  The stratigraphic coordinates of every vertex of the blocks come from
two properties of the vertices of the file.
-/

namespace Verif.StratiLso

open Verif.Gocad Verif.Lso

variable {D : Type} [Num D]

/-- `GEOL_ATTRIBUTE_NAME`, lines 33-34. -/
def GEOL : Str := cs!"SnS!ingridStructuralWorkflow/skua_model_Geology"
/-- `STRATI_ATTRIBUTE_NAME`, lines 35-36. -/
def STRATI : Str := cs!"SnS!ingridStructuralWorkflow/skua_model_stratigraphy"

/-- `find_attribute< T >( name )->value( v )`, for a `T` that holds `n` values: when the attribute has another type, the pointer is null and
using it is undefined.  `find_attribute` belongs to another library. -/
def typedValue (c : Column D) (n : Nat) (v : Nat) : Res (List D) :=
  if storageKind c.esize = n then Res.index c.vals v else .ub

/-- The coordinates of one vertex, lines 75-83. -/
def vertexCoords (geol strati : Column D) (v : Nat) : Res (Pt D) := do
  let g ← typedValue geol 2 v
  let x ← Res.index g 0
  let y ← Res.index g 1
  let s ← typedValue strati 1 v
  let z ← Res.index s 0
  pure ⟨x, y, z⟩

/-- The coordinates of the vertices of one block, lines 51-85.  The blocks that are loaded are always meshed with tetrahedra, so that the
check of lines 61-68 cannot fail. -/
def blockCoords (b : RBlock D) : Res (List (Pt D)) := do
  let strati ← Res.ofParse (b.vstore.lookup STRATI)
  let geol ← Res.ofParse (b.vstore.lookup GEOL)
  Res.mapM' (vertexCoords geol strati) (List.range b.vertices.length)

/-- `read_file`, lines 43-88: the structural model, and the stratigraphic coordinates of the vertices of each block. -/
def loadStrati (f : File) : Res (Loaded D × List (List (Pt D))) := do
  let m ← loadLso f
  let coords ← Res.mapM' blockCoords m.blocks
  pure (m, coords)

/-- `is_loadable`, lines 104-128. -/
def isLoadableStrati (f : File) : Bool :=
  Recognise.isLoadableLso f &&
    match gotoKeyword? cs!"PROPERTIES" f with
    | none => false
    | some (l, _) => contains GEOL l && contains STRATI l

end Verif.StratiLso
