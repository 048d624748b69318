import Verif.Base.Outcome
import Verif.Base.Text

/-!
# FEM exports of models

Model of `/repo/src/geode/geosciences_io/model/internal/brep_fem_output.cpp`: what is painted on the solid before it is saved as a `.fem` mesh
(the saving is in `Verif.Model.Fem`).  `convert_brep_into_solid` is in another library: its mappings from the elements of components to the elements of
the solid are part of the input, as the lists `out` of each component.  Painting out of the range of the attribute is undefined behaviour.
-/

namespace Verif.BrepFem

open Verif

variable {D : Type}

/-- A numeric attribute of the elements of a component mesh; `values` are the results of `generic_value`. -/
structure Attr (D : Type) where
  name : Str
  values : List D
  deriving DecidableEq

/-- A surface (its polygons) or a line (its edges); `out` are the facets or edges of the solid for each element. -/
structure Comp (D : Type) where
  name : Option Str
  attrs : List (Attr D)
  out : List (List Nat)
  deriving DecidableEq

/-- The attributes of the facets, or of the edges, of the solid: the numeric ones by creation order, and the names of the components. -/
structure Painted (D : Type) where
  attrs : List (Attr D) := []
  names : List Str := []
  deriving DecidableEq

/-- `set_value`. -/
def setAt {α : Type} (l : List α) (i : Nat) (a : α) : Res (List α) := if i < l.length then .ok (l.set i a) else .ub

/-- `find_generic_attribute`. -/
def find (attrs : List (Attr D)) (name : Str) : Option (Attr D) := attrs.find? fun a => a.name = name

/-- Values and names in construction. -/
abbrev State (D : Type) := List D × List Str

/-- One element of the solid, lines 137-147 and 202-212. -/
def paintOne (name : Option Str) (v : D) (s : State D) (f : Nat) : Res (State D) := do
  let vs ← setAt s.1 f v
  match name with
  | none => pure (vs, s.2)
  | some n => do
    let ns ← setAt s.2 f n
    pure (vs, ns)

/-- One component, lines 121-149 and 186-214. -/
def paintComp (attr : Str) (s : State D) (c : Comp D) : Res (State D) :=
  match find c.attrs attr with
  | none => .ok s
  | some a => Res.foldM' (fun (s : State D) (e : List Nat × Nat) => do
      let v ← Res.index a.values e.2
      Res.foldM' (paintOne c.name v) s e.1) s c.out.zipIdx

/-- `paint_facets_attribute`, lines 104-149, and `paint_line_attribute`, lines 169-214, for a solid with `n` facets or edges. -/
def paintAttribute (n : Nat) (dflt : D) (comps : List (Comp D)) (p : Painted D) (attr : Str) : Res (Painted D) := do
  let s ← Res.foldM' (paintComp attr) (List.replicate n dflt, if p.names = [] then List.replicate n cs!"No_name" else p.names) comps
  pure ⟨p.attrs ++ [⟨attr, s.1⟩], s.2⟩

/-- The loop on the components of lines 154-164 and 219-229, which leaves after the first one. -/
def paintOwn (n : Nat) (dflt : D) (own : Str) (comps : List (Comp D)) : Res (Painted D) :=
  match comps with
  | [] => .ok {}
  | c :: _ => if (find c.attrs own).isSome then paintAttribute n dflt comps {} own else .ok {}

/-- `paint_surface_infos`, lines 151-167, and `paint_line_infos`, lines 216-232. -/
def paintInfos (n : Nat) (dflt : D) (own conductivity : Str) (comps : List (Comp D)) : Res (Painted D) := do
  let p ← paintOwn n dflt own comps
  paintAttribute n dflt comps p conductivity

/-- A block: its name, its identifier as text, its transferable attributes of type `double` or `float`, the polyhedra of the solid for each polyhedron and
the vertices of the solid for each vertex. -/
structure Block (D : Type) where
  name : Option Str
  uuid : Str
  attrs : List (Attr D)
  cells : List (List Nat)
  vertices : List Nat
  deriving DecidableEq

/-- `paint_polyhedron_block_id_attributes`, lines 234-259. -/
def paintCells (n : Nat) (blocks : List (Block D)) : Res (List Str) :=
  Res.foldM' (fun names b => match b.name with
    | none => .ok names
    | some k => Res.foldM' (fun names f => setAt names f k) names b.cells.flatten) (List.replicate n cs!"No_name") blocks

/-- The text of a block on its vertices, line 281. -/
def Block.label (b : Block D) : Str := b.name.getD b.uuid

/-- `paint_vertices_block_id_attributes`, lines 261-285. -/
def paintVertices (n : Nat) (blocks : List (Block D)) : Res (List (List Str)) :=
  Res.foldM' (fun lists b => Res.foldM' (fun (lists : List (List Str)) v => do
    let l ← Res.index lists v
    setAt lists v (l ++ [b.label])) lists b.vertices) (List.replicate n []) blocks

/-- The values of an attribute of the solid before it is painted, lines 316-320: a new attribute has everywhere the given value. -/
def startValues (n : Nat) (solid : List (Attr D)) (name : Str) (v0 : D) : List D :=
  match find solid name with
  | some x => x.values
  | none => List.replicate n v0

/-- One attribute of a block, lines 298-331: the value for a new attribute of the solid is that of the first polyhedron of the block. -/
def copyAttr (n : Nat) (b : Block D) (solid : List (Attr D)) (a : Attr D) : Res (List (Attr D)) := do
  let v0 ← Res.index a.values 0
  let vs ← Res.foldM' (fun (vs : List D) (e : List Nat × Nat) => do
    let f ← Res.index e.1 0
    let v ← Res.index a.values e.2
    setAt vs f v) (startValues n solid a.name v0) b.cells.zipIdx
  pure (solid.filter (fun x => x.name ≠ a.name) ++ [⟨a.name, vs⟩])

/-- `copy_tetrahedra_attributes_in_solid`, lines 287-333. -/
def copyAttrs (n : Nat) (blocks : List (Block D)) : Res (List (Attr D)) :=
  Res.foldM' (fun solid b => Res.foldM' (copyAttr n b) solid b.attrs) [] blocks

end Verif.BrepFem
