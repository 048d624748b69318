import Verif.Base.NumIO
import Verif.Model.Sides

/-!
# Exports for GEOS

Model of `/repo/src/geode/geosciences_io/model/internal/geos_export.cpp` and of the two exporters of
`/repo/src/geode/geosciences_io/model/helpers/{brep,structural_model}_geos_export.cpp`.  The conversion of the model into one solid
(`convert_brep_into_solid`) is in another library: its result `cells` gives for each polyhedron of the solid the block and the polyhedron it
comes from.  Files are not modelled; what is modelled is the content of the attributes of the solid and of the XML nodes.
-/

namespace Verif.Geos

open Verif Verif.Sides

variable {D : Type}

/-- An attribute of the polyhedra of a block: number of components of a value (1: `double`, 2 and 3: arrays; 0 for other types) and values. -/
structure Attr (D : Type) where
  name : Str
  dim : Nat
  values : List (List D)
  deriving DecidableEq

/-- A block with its polyhedra. -/
structure Block (D : Type) where
  id : Nat
  nb : Nat
  attrs : List (Attr D)
  deriving DecidableEq

/-- A model; `units` has the blocks of each stratigraphic unit. -/
structure Model (D : Type) where
  blocks : List (Block D)
  units : List (List Nat) := []
  deriving DecidableEq

/-- `create_region_attribute_map` of a `BRep`, `brep_geos_export.cpp` lines 50-60. -/
def brepRegions (m : Model D) : List (Nat × Nat) :=
  (m.blocks.foldl (fun (s : List (Nat × Nat) × Nat) b => (emplace s.1 b.id s.2, s.2 + 1)) ([], 0)).1

/-- `create_region_attribute_map` of a `StructuralModel`, `structural_model_geos_export.cpp` lines 55-70. -/
def unitRegions (m : Model D) : List (Nat × Nat) :=
  (m.units.foldl (fun (s : List (Nat × Nat) × Nat) u => (u.foldl (fun r i => emplace r i s.2) s.1, s.2 + 1)) ([], 0)).1

/-- The region of a polyhedron, `geos_export.cpp` lines 180-187: the iterator of a block that is not in the map is dereferenced. -/
def regionOf (regions : List (Nat × Nat)) (cell : Nat × Nat) : Res Nat :=
  match find regions cell.1 with
  | some r => .ok r
  | none => .ub

/-- `initialize_solid_region_attribute`, `geos_export.cpp` lines 175-190. -/
def regionAttribute (regions : List (Nat × Nat)) (cells : List (Nat × Nat)) : Res (List Nat) := Res.mapM' (regionOf regions) cells

/-- Names of the properties to export. -/
structure Names where
  one : List Str := []
  two : List Str := []
  three : List Str := []
  deriving DecidableEq

/-- `check_property_name`, lines 306-323. -/
def isDefined (m : Model D) (name : Str) : Bool := m.blocks.all fun b => b.attrs.any fun a => a.name = name

/-- `add_cell_property1d`, `2d` and `3d`, lines 130-155. -/
def addProperty (m : Model D) (ns : Names) (dim : Nat) (name : Str) : Names :=
  if isDefined m name then
    match dim with
    | 1 => { ns with one := ns.one ++ [name] }
    | 2 => { ns with two := ns.two ++ [name] }
    | _ => { ns with three := ns.three ++ [name] }
  else ns

/-- The value of a polyhedron of the solid, lines 334-350: an attribute of another type is a null pointer. -/
def cellValue (m : Model D) (dim : Nat) (name : Str) (cell : Nat × Nat) : Res (List D) := do
  let b ← Res.ofParse (m.blocks.find? fun b => b.id = cell.1)
  match b.attrs.find? fun a => a.name = name with
  | none => .ub
  | some a => if a.dim = dim then Res.index a.values cell.2 else .ub

/-- Name of the attribute of the regions. -/
def regionName : Str := cs!"attribute"

/-- The attribute of the solid for a property, lines 326-404.  The name of the attribute of the regions is refused by `find_or_create_attribute`. -/
def transfer (m : Model D) (cells : List (Nat × Nat)) (dim : Nat) (name : Str) : Res (Attr D) := do
  Res.check (decide (name ≠ regionName))
  let vs ← Res.mapM' (cellValue m dim name) cells
  pure ⟨name, dim, vs⟩

/-- `prepare_export`, lines 157-161, with the region map of the exporter. -/
def prepare (m : Model D) (regions : List (Nat × Nat)) (cells : List (Nat × Nat)) (ns : Names) : Res (List Nat × List (Attr D)) := do
  let rs ← regionAttribute regions cells
  let a ← Res.mapM' (transfer m cells 1) ns.one
  let b ← Res.mapM' (transfer m cells 2) ns.two
  let c ← Res.mapM' (transfer m cells 3) ns.three
  pure (rs, a ++ b ++ c)

/-- Comma before every name but the first. -/
def appendNames (s : Str × Bool) (names : List Str) : Str × Bool :=
  names.foldl (fun s n => (s.1 ++ (if s.2 then [] else cs!",") ++ n, false)) s

/-- The value of `fieldsToImport`, `write_mesh_files`, lines 260-300. -/
def fieldsToImport (ns : Names) : Str :=
  (appendNames (appendNames (appendNames (cs!"{", true) ns.one) ns.two) ns.three).1 ++ cs!"}"

/-! ## Wells -/

/-- A bounding box; `none` is the initial one, whose minimum is the largest number and whose maximum is the smallest. -/
abbrev Box (D : Type) := Option (Pt D × Pt D)

variable [Min D] [Max D] [LT D] [DecidableLT D]

/-- `BoundingBox3D::add_point`. -/
def addPoint (b : Box D) (p : Pt D) : Box D :=
  match b with
  | none => some (p, p)
  | some (lo, hi) => some (⟨min lo.x p.x, min lo.y p.y, min lo.z p.z⟩, ⟨max hi.x p.x, max hi.y p.y, max hi.z p.z⟩)

/-- The choice of a cell, lines 208-223: `dist` is the distance from the point to the centre of a cell. -/
def selectCell (dist : Nat → D) (cells : List Nat) : Option Nat :=
  cells.foldl (fun best c => match best with
    | none => some c
    | some b => if dist b < dist c then some b else some c) none

/-- One perforation, lines 200-229.  `near p` are the cells whose bounding box contains the point, `dist p` the distances to the centres. -/
def perforation (corners : Nat → List (Pt D)) (near : Pt D → List Nat) (dist : Pt D → Nat → D) (b : Box D) (p : Pt D) : Box D :=
  match selectCell (dist p) (near p) with
  | none => b
  | some c => (corners c).foldl addPoint b

/-- The box of a well, `write_well_perforations_boxes`, lines 193-246, before the safety offset. -/
def wellBox (corners : Nat → List (Pt D)) (near : Pt D → List Nat) (dist : Pt D → Nat → D) (well : List (Pt D)) : Box D :=
  well.foldl (perforation corners near dist) none

end Verif.Geos
