import Verif.Model.BrepFem
import Verif.Model.FemFile

/-!
# Models saved as FEFLOW files

Model of `write_file` and `is_saveable` of `/repo/src/geode/geosciences_io/model/internal/brep_fem_output.cpp`: the solid of a model is painted
(`Verif.Model.BrepFem`) and saved as a mesh (`Verif.Model.FemFile`).  The solid given by `convert_brep_into_solid` of another library is part of the input.
-/

namespace Verif.BrepFem

open Verif

variable {D : Type}

/-- The solid of a model before it is painted: its kind of mesh, its points, the vertices of its polyhedra, facets and edges, and its own attributes. -/
structure Solid (D : Type) where
  tetrahedral : Bool
  points : List (Pt D)
  polyhedra : List (List Nat)
  facets : List (List Nat)
  edges : List (List Nat)
  vertexAttrs : List (Fem.Attr D)
  polyhedronAttrs : List (Fem.Attr D)

/-- A model and its solid. -/
structure Model (D : Type) where
  blocks : List (Block D)
  surfaces : List (Comp D)
  lines : List (Comp D)
  solid : Solid D
  /-- For each unique vertex, whether a block has a mesh vertex there. -/
  inBlock : List Bool

/-- `BRepFemOutput::is_saveable`, lines 355-367. -/
def isSaveable (m : Model D) : Bool := m.inBlock.all id

/-- The facets, or the edges, that `fem_output.cpp` goes through: none when there is no attribute of that name (lines 648-660 and 753-765), otherwise
with the value of the attribute and the conductivity (lines 668-677 and 772-782).  After the painting both have a value for each. -/
def tag (items : List (List Nat)) (own conductivity : Str) (p : Painted D) : Option (List (Fem.Tagged D)) :=
  match find p.attrs own, find p.attrs conductivity with
  | some a, some c => some ((items.zip (a.values.zip c.values)).map fun x => ⟨x.1, x.2.1, x.2.2⟩)
  | _, _ => none

/-- An attribute of text: `is_genericable` is false. -/
def textAttr (name : Str) : Fem.Attr D := ⟨name, false, []⟩

/-- The mesh that is saved, lines 92-99.  Attributes come in the order of their creation. -/
def paint (dflt : D) (m : Model D) : Res (Fem.Mesh D) := do
  let attrs ← copyAttrs m.solid.polyhedra.length m.blocks
  let cells ← paintCells m.solid.polyhedra.length m.blocks
  let vertices ← paintVertices m.solid.points.length m.blocks
  let facets ← paintInfos m.solid.facets.length dflt Fem.APERTURE Fem.CONDUCTIVITY m.surfaces
  let edges ← paintInfos m.solid.edges.length dflt Fem.CONDUIT_AREA Fem.CONDUCTIVITY m.lines
  pure {
    points := m.solid.points
    polyhedra := m.solid.polyhedra
    vertexAttrs := m.solid.vertexAttrs ++ [textAttr cs!"Block_ID_vertex"]
    polyhedronAttrs := m.solid.polyhedronAttrs ++ attrs.map (fun a => ⟨a.name, true, a.values⟩) ++ [textAttr cs!"Block_ID_polyhedron"]
    vertexBlocks := some vertices
    polyhedronBlocks := some cells
    facets := tag m.solid.facets Fem.APERTURE Fem.CONDUCTIVITY facets
    edges := tag m.solid.edges Fem.CONDUIT_AREA Fem.CONDUCTIVITY edges }

/-- `write_file`, lines 78-101: the solid is taken for a tetrahedral one without a check (lines 90-91). -/
def write [Num D] [DecidableEq D] (dflt : D) (toStr : D → Str) (le : D → D → Bool) (neg pos : D → Bool)
    (ordS : List (Str × List Nat) → List (Str × List Nat)) (ord : List (D × List Nat) → List (D × List Nat)) (m : Model D) : Res Str :=
  if m.solid.tetrahedral then do
    let mesh ← paint dflt m
    Fem.saveFem toStr le neg pos ordS ord mesh
  else .ub

end Verif.BrepFem
