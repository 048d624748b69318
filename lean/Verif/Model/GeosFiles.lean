import Verif.Model.Geos
import Verif.Model.Paths

/-!
# Files of the exports for GEOS

Model of the files written by `/repo/src/geode/geosciences_io/model/internal/geos_export.cpp` (`write_files` and the functions it calls) and of the XML
document.  The contents of the mesh files are those of other libraries.  The numbers of the XML document are written by `absl::StrCat` (six digits):
`Num.fmt`.
-/

namespace Verif.Geos

open Verif Verif.Paths

variable {D : Type}

/-- A node of the XML document: name, attributes, children. -/
inductive Node
  | mk (name : Str) (attrs : List (Str × Str)) (children : List Node)

/-- Name of a node. -/
def Node.name : Node → Str
  | .mk n _ _ => n

/-- Children of a node. -/
def Node.children : Node → List Node
  | .mk _ _ cs => cs

/-- Value of an attribute. -/
def Node.attr : Node → Str → Option Str
  | .mk _ as _, k => (as.find? fun a => a.1 = k).map Prod.snd

/-- `prefix_`, line 76. -/
def prefix_ (filesDirectory : Str) : Str := stem filesDirectory

/-- The name of the mesh file, line 409. -/
def vtuName (filesDirectory : Str) : Str := prefix_ filesDirectory ++ cs!".vtu"

/-- A file of the directory, lines 115-116, 410-411 and 444-445. -/
def inDirectory (filesDirectory name : Str) : Str := filesDirectory ++ cs!"/" ++ name

/-- The file of a well, lines 444-445. -/
def wellFile (filesDirectory : Str) (i : Nat) : Str := inDirectory filesDirectory (prefix_ filesDirectory ++ cs!"_well" ++ showNat i ++ cs!".vtp")

/-- The XML file, lines 115-116. -/
def xmlFile (filesDirectory : Str) : Str := inDirectory filesDirectory (prefix_ filesDirectory ++ cs!"_simulation.xml")

/-- The files in the order they are written, lines 101-119, for a number of wells. -/
def filesWritten (filesDirectory : Str) (nbWells : Nat) : List Str :=
  [inDirectory filesDirectory (vtuName filesDirectory)] ++ (List.range nbWells).map (wellFile filesDirectory) ++ [xmlFile filesDirectory]

/-- The node of the mesh, `write_mesh_files`, lines 250-303. -/
def meshNode (filesDirectory : Str) (ns : Names) : Node :=
  .mk cs!"VTKMesh" [(cs!"name", prefix_ filesDirectory), (cs!"file", cs!"./" ++ vtuName filesDirectory), (cs!"fieldsToImport", fieldsToImport ns),
    (cs!"fieldNamesInGEOSX", cs!"{ please enter property name in Geos}")] []

/-- The corners of a box as they are written: moved by the safety offset, lines 233-245. -/
structure Moved (D : Type) where
  down : D → D
  up : D → D

/-- The text of a corner. -/
def cornerText [Num D] (p : Pt D) : Str := cs!"{" ++ Num.fmt p.x ++ cs!", " ++ Num.fmt p.y ++ cs!", " ++ Num.fmt p.z ++ cs!"}"

/-- The node of a well, lines 230-245; `box` has the corners of its box, those of an empty box being the extreme numbers. -/
def boxNode [Num D] (mv : Moved D) (i : Nat) (box : Pt D × Pt D) : Node :=
  .mk cs!"Box" [(cs!"name", cs!"well_" ++ showNat i),
    (cs!"xMin", cornerText ⟨mv.down box.1.x, mv.down box.1.y, mv.down box.1.z⟩),
    (cs!"xMax", cornerText ⟨mv.up box.2.x, mv.up box.2.y, mv.up box.2.z⟩)] []

/-- The nodes of the wells, `write_well_perforations_boxes`, lines 192-247. -/
def boxNodes [Num D] (mv : Moved D) (boxes : List (Pt D × Pt D)) : List Node := boxes.zipIdx.map fun e => boxNode mv e.2 e.1

/-- The document, `write_files`, lines 101-119. -/
def document [Num D] (mv : Moved D) (filesDirectory : Str) (ns : Names) (boxes : List (Pt D × Pt D)) : Node :=
  .mk cs!"Problem" [] ([.mk cs!"Mesh" [] [meshNode filesDirectory ns]] ++ if boxes = [] then [] else [.mk cs!"Geometry" [] (boxNodes mv boxes)])

end Verif.Geos
