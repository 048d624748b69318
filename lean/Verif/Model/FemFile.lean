import Verif.Model.Fem

/-!
# Whole FEFLOW files

Model of the layout of `/repo/src/geode/geosciences_io/mesh/fem_output.cpp`: the order of the sections and the XML text of the discrete
features.  The parts of the sections are in `Verif.Model.Fem`.
-/

namespace Verif.Fem

open Verif

variable {D : Type}

/-- Lines written with `EOL`. -/
def lines (f : File) : Str := f.flatMap fun l => l ++ cs!"\n"

/-- `add_spaces`, `fem_output.cpp` lines 99-102. -/
def blanks (n : Nat) : Str := List.replicate n ' '

/-- `xml_start_tag`, `fem_output.cpp` lines 864-872, in front of `EOL` and after blanks. -/
def startTag (n : Nat) (tag : Str) : Str := blanks n ++ '<' :: tag ++ cs!">\n"

/-- `xml_start_tag` with a value, lines 869-872: the value comes with its quotes. -/
def countTag (n : Nat) (tag : Str) (count : Nat) : Str := startTag n (tag ++ cs!"=\"" ++ showNat count ++ cs!"\"")

/-- `xml_end_tag`, lines 874-877. -/
def endTag (n : Nat) (tag : Str) : Str := blanks n ++ cs!"</" ++ tag ++ cs!">\n"

def CDATA_START : Str := cs!"<![CDATA["
def CDATA_END : Str := cs!"]]>"

/-- `write_discrete_feature_header`, lines 879-887. -/
def dfeHeader : Str :=
  cs!"DFE\n" ++ blanks 2 ++ cs!"<?xml version=\"1.0\" encoding=\"utf-8\" standalone=\"no\" ?>" ++ cs!"\n" ++ startTag 2 cs!"fractures"

/-- `nb_features`, lines 606-618. -/
def nbFeatures (fs : Features D) : Nat := (featuresOf fs.group1).length + (featuresOf fs.group2).length

/-- `write_discrete_feature_signatures`, lines 905-927. -/
def dfeSignatures (fs : Features D) : Str :=
  countTag 4 cs!"fep count" (nbFeatures fs) ++ blanks 6 ++ CDATA_START ++ cs!"\n" ++ signaturesText fs ++ CDATA_END ++ cs!"\n" ++ endTag 4 cs!"fep"

/-- `write_discrete_feature_nodal_incidence_matrix`, lines 951-973. -/
def dfeIncidence (fs : Features D) : Str :=
  countTag 4 cs!"nop count" (nbFeatures fs) ++ blanks 6 ++ CDATA_START ++ cs!"\n" ++ incidenceText fs ++ CDATA_END ++ cs!"\n" ++ endTag 4 cs!"nop"

/-- `write_discrete_feature_group`, lines 975-1007, for a group. -/
def dfeGroup (name : Str) (g : Group D) : Str :=
  startTag 6 (cs!"group name=\"" ++ name ++ cs!"\" law=\"darcy\" mode=\"unstructured\"") ++ countTag 8 cs!"elements count" g.features.length ++
    blanks 10 ++ CDATA_START ++ groupText g ++ CDATA_END ++ cs!"\n" ++ endTag 8 cs!"elements" ++ endTag 6 cs!"group"

def optDfeGroup (name : Str) : Option (Group D) → Str
  | none => []
  | some g => dfeGroup name g

/-- `write_discrete_feature_groups`, lines 1009-1021; names of lines 628-629. -/
def dfeGroups (fs : Features D) : Str :=
  countTag 4 cs!"groups count" (fs.group1.toList.length + fs.group2.toList.length) ++ optDfeGroup cs!"Surface_Feature_LDS" fs.group2 ++
    optDfeGroup cs!"Edge_Feature_LDS" fs.group1 ++ endTag 4 cs!"groups"

/-- `write_material_property`, lines 1037-1078, on the entries in the order of iteration. -/
def dfeMaterial [Num D] (id : Str) (es : List (D × List Nat)) : Str :=
  startTag 10 (cs!"material id=\"" ++ id ++ cs!"\"") ++ blanks 12 ++ CDATA_START ++ cs!"\n" ++ materialText CHUNK_SIZE es ++ CDATA_END ++ cs!"\n" ++
    endTag 10 cs!"material"

def optDfeMaterial [Num D] (ord : List (D × List Nat) → List (D × List Nat)) (id : Str) : Option (List (D × List Nat)) → Str
  | none => []
  | some es => dfeMaterial id (ord es)

/-- `write_discrete_feature_properties`, lines 1097-1191, when there is a group; `ord` is the order of iteration of a map. -/
def dfeProperties [Num D] [DecidableEq D] (ord : List (D × List Nat) → List (D × List Nat)) (fs : Features D) : Res Str := do
  let ms ← materials fs
  pure (startTag 4 cs!"properties" ++ startTag 6 cs!"flow" ++ startTag 8 cs!"materials" ++ optDfeMaterial ord cs!"AREA" ms.1 ++
    optDfeMaterial ord cs!"COND" ms.2 ++ endTag 8 cs!"materials" ++ endTag 6 cs!"flow" ++ endTag 4 cs!"properties")

/-- `write_discrete_features`, lines 1198-1214. -/
def writeDfe [Num D] [DecidableEq D] (neg pos : D → Bool) (ord : List (D × List Nat) → List (D × List Nat)) (m : Mesh D) : Res Str := do
  let fs ← buildFeatures neg pos m
  if fs.group1.toList.length + fs.group2.toList.length = 0 then pure []
  else do
    let props ← dfeProperties ord fs
    pure (dfeHeader ++ dfeSignatures fs ++ dfeIncidence fs ++ dfeGroups fs ++ props ++ endTag 1 cs!"fractures")

/-- The sections before the numbers: `write_problem`, `write_class`, `write_dimension`, `write_scale`, lines 155-175. -/
def writeHead (m : Mesh D) : File :=
  [cs!"PROBLEM:", cs!"CLASS (v.7.202.18152)", cs!"   0    0    0    3    0    0    8    8    0    0", cs!"DIMENS",
    cs!" " ++ showNat m.points.length ++ cs!" " ++ showNat m.polyhedra.length ++ cs!" 0 1 0 0 0 0 0 1 0 0 0 0 0 0 0 0", cs!"SCALE", []]

/-- `write_file`, lines 127-153, and `write_gravity`, `write_end`.  `ordS` and `ord` are the orders of iteration of the maps of names and of
values.  What is in the file when an exception is thrown is not modelled. -/
def saveFem [Num D] [DecidableEq D] (toStr : D → Str) (le : D → D → Bool) (neg pos : D → Bool)
    (ordS : List (Str × List Nat) → List (Str × List Nat)) (ord : List (D × List Nat) → List (D × List Nat)) (m : Mesh D) : Res Str := do
  let nodes ← writeRefNodalDist toStr le m
  let elements ← writeRefElementDist toStr le m
  let sets ← writeElementSets ordS m
  let dfe ← writeDfe neg pos ord m
  pure (lines (writeHead m) ++ lines (writeVarNode m) ++ lines (writeNodeCoordinates m) ++ lines nodes ++ lines elements ++
    lines (writeNodalSets ordS m) ++ lines sets ++ lines [cs!"GRAVITY", cs!" 0 0 -1"] ++ dfe ++ lines [cs!"END"])

end Verif.Fem
