import Verif.Base.Text

/-!
# Readers and writers of the library

Model of the registrations of `/repo/src/geode/geosciences_io/mesh/common.cpp` (lines 49-147, called by lines 149-164) and
`/repo/src/geode/geosciences_io/model/common.cpp` (lines 48-98, called by lines 100-112).  A factory is a map from extensions to classes: a second class
given for the same extension is not inserted.  The factories of the other libraries are not modelled: what they register is not looked at.
-/

namespace Verif.Registry

open Verif

/-- The objects of the factories. -/
inductive Kind
  | triangulatedSurface | polygonalSurface | tetrahedralSolid | edgedCurve | lightRegularGrid2 | regularGrid | hybridSolid | pointSet
  | structuralModel | section | brep | horizonsStack2 | horizonsStack3 | stratigraphicModel
  deriving DecidableEq, Repr

/-- Reading or writing. -/
inductive Way
  | input | output
  deriving DecidableEq, Repr

/-- The classes of the library, in `/repo/include/geode/geosciences_io/{mesh,model}/internal`. -/
inductive Cls
  | tsInput | tsOutput | demInput | polyTiffInput | solidFemOutput | plInput | plOutput | wlInput | wellDatInput | wellTxtInput | wellDevInput
  | geoTiffInput | voInput | grdeclInput | vsInput | vsOutput
  | mlInput | lsoInput | mlOutputModel | lsoOutput | shpInput | mlOutputBRep | brepFemOutput | skuaInput2 | skuaInput3 | stratigraphicLsoInput
  deriving DecidableEq, Repr

/-- The base class: `TriangulatedSurfaceInput< 3 >`, etc. -/
def Cls.base : Cls → Way × Kind
  | .tsInput => (.input, .triangulatedSurface)
  | .tsOutput => (.output, .triangulatedSurface)
  | .demInput => (.input, .polygonalSurface)
  | .polyTiffInput => (.input, .polygonalSurface)
  | .solidFemOutput => (.output, .tetrahedralSolid)
  | .plInput => (.input, .edgedCurve)
  | .plOutput => (.output, .edgedCurve)
  | .wlInput => (.input, .edgedCurve)
  | .wellDatInput => (.input, .edgedCurve)
  | .wellTxtInput => (.input, .edgedCurve)
  | .wellDevInput => (.input, .edgedCurve)
  | .geoTiffInput => (.input, .lightRegularGrid2)
  | .voInput => (.input, .regularGrid)
  | .grdeclInput => (.input, .hybridSolid)
  | .vsInput => (.input, .pointSet)
  | .vsOutput => (.output, .pointSet)
  | .mlInput => (.input, .structuralModel)
  | .lsoInput => (.input, .structuralModel)
  | .mlOutputModel => (.output, .structuralModel)
  | .lsoOutput => (.output, .structuralModel)
  | .shpInput => (.input, .section)
  | .mlOutputBRep => (.output, .brep)
  | .brepFemOutput => (.output, .brep)
  | .skuaInput2 => (.input, .horizonsStack2)
  | .skuaInput3 => (.input, .horizonsStack3)
  | .stratigraphicLsoInput => (.input, .stratigraphicModel)

/-- `extension()` or `extensions()`, in the headers of the classes. -/
def Cls.extensions : Cls → List Str
  | .tsInput | .tsOutput => [cs!"ts"]
  | .demInput => [cs!"dem"]
  | .polyTiffInput | .geoTiffInput => [cs!"tiff", cs!"tif"]
  | .solidFemOutput | .brepFemOutput => [cs!"fem"]
  | .plInput | .plOutput => [cs!"pl"]
  | .wlInput => [cs!"wl"]
  | .wellDatInput => [cs!"dat"]
  | .wellTxtInput => [cs!"txt"]
  | .wellDevInput => [cs!"dev"]
  | .voInput => [cs!"vo"]
  | .grdeclInput => [cs!"grdecl"]
  | .vsInput | .vsOutput => [cs!"vs"]
  | .mlInput | .mlOutputModel | .mlOutputBRep => [cs!"ml"]
  | .lsoInput | .lsoOutput | .stratigraphicLsoInput => [cs!"lso"]
  | .shpInput => [cs!"shp", cs!"shz"]
  | .skuaInput2 | .skuaInput3 => [cs!"xml"]

/-- `object_priority()`, in the headers of the readers: which kind of object a file of several kinds is loaded as when none is asked for.  Writers have none. -/
def Cls.priority : Cls → Option Nat
  | .polyTiffInput => some 2
  | .geoTiffInput | .stratigraphicLsoInput => some 1
  | .tsInput | .demInput | .plInput | .wlInput | .wellDatInput | .wellTxtInput | .wellDevInput | .voInput | .grdeclInput | .vsInput | .mlInput | .lsoInput
  | .shpInput | .skuaInput2 | .skuaInput3 => some 0
  | .tsOutput | .solidFemOutput | .plOutput | .vsOutput | .mlOutputModel | .lsoOutput | .mlOutputBRep | .brepFemOutput => none

/-- One call of `register_creator`: the factory, the key and the class. -/
structure Entry where
  way : Way
  kind : Kind
  ext : Str
  cls : Cls
  deriving DecidableEq, Repr

/-- The calls for one class with the factory `way`, `kind`: one call for each extension. -/
def register (way : Way) (kind : Kind) (c : Cls) : List Entry := c.extensions.map fun e => ⟨way, kind, e, c⟩

/-- The initialisation of the mesh library, `mesh/common.cpp` lines 149-164. -/
def meshEntries : List Entry :=
  register .input .triangulatedSurface .tsInput
    ++ register .output .triangulatedSurface .tsOutput
    ++ register .input .polygonalSurface .demInput ++ register .input .polygonalSurface .polyTiffInput
    ++ register .output .tetrahedralSolid .solidFemOutput
    ++ register .input .edgedCurve .wlInput ++ register .input .edgedCurve .wellDatInput ++ register .input .edgedCurve .wellTxtInput
    ++ register .input .edgedCurve .wellDevInput ++ register .input .edgedCurve .plInput
    ++ register .output .edgedCurve .plOutput
    ++ register .input .lightRegularGrid2 .geoTiffInput
    ++ register .input .regularGrid .voInput
    ++ register .input .hybridSolid .grdeclInput
    ++ register .input .pointSet .vsInput
    ++ register .output .pointSet .vsOutput

/-- The initialisation of the model library, `model/common.cpp` lines 100-112: that of the mesh library comes first. -/
def entries : List Entry :=
  meshEntries
    ++ register .input .structuralModel .mlInput ++ register .input .structuralModel .lsoInput
    ++ register .output .structuralModel .mlOutputModel ++ register .output .structuralModel .lsoOutput
    ++ register .input .section .shpInput
    ++ register .output .brep .mlOutputBRep ++ register .output .brep .brepFemOutput
    ++ register .input .horizonsStack2 .skuaInput2 ++ register .input .horizonsStack3 .skuaInput3

/-- `register_creator`: nothing changes when the factory has the key. -/
def addEntry (store : List Entry) (e : Entry) : List Entry :=
  if store.any (fun x => x.way = e.way && x.kind = e.kind && x.ext = e.ext) then store else store ++ [e]

/-- The factories once the library is initialised. -/
def store : List Entry := entries.foldl addEntry []

/-- `Factory::create( extension )`: the class used to read or to write a file with this extension, if any. -/
def create (way : Way) (kind : Kind) (ext : Str) : Option Cls :=
  (store.find? fun x => x.way = way && x.kind = kind && x.ext = ext).map Entry.cls

end Verif.Registry
