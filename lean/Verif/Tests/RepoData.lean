import Verif.Model.Grdecl
import Verif.Model.Wells
import Verif.Model.Skua

/-!
# The small test files of the repository

Tests, not properties: the model run on the small text files of `/repo/tests/data`, with the results that the tests of `/repo/tests` assert.  They show
that the model reads the files the program is tested with as the program does.  The larger files are too long to be copied here; see DESIGN.md, section 3.
The numbers are rational here, and read exactly.
-/

namespace Verif.Tests

open Verif

/-- Digits with an optional point. -/
def decimal (s : Str) : Option Rat :=
  let a := s.takeWhile (· ≠ '.')
  let b := (s.dropWhile (· ≠ '.')).drop 1
  (parseNat (a ++ b)).map fun n => mkRat n (10 ^ b.length)

/-- A decimal number with an optional sign. -/
def signed : Str → Option Rat
  | '-' :: r => (decimal r).map Rat.neg
  | r => decimal r

instance : Num Rat where
  parse := signed
  fmt := fun r => showInt r.num
  round := id
  neg := Rat.neg
  castF := id
  zero := 0
  noData := -99999

/-- `/repo/tests/data/2triangles.ts`. -/
def twoTriangles : File :=
  [cs!"GOCAD TSurf 1", cs!"HEADER {", cs!"name:2triangles.ts", cs!"*border:on", cs!"*border*bstone:on", cs!"}",
   cs!"GOCAD_ORIGINAL_COORDINATE_SYSTEM", cs!"NAME Default", cs!"AXIS_NAME \"X\" \"Y\" \"Z\"", cs!"AXIS_UNIT \"m\" \"m\" \"m\"",
   cs!"ZPOSITIVE Elevation", cs!"END_ORIGINAL_COORDINATE_SYSTEM", cs!"TFACE", cs!"VRTX 0 1066960.43428972 6894769.78384417 -2238.04224665696",
   cs!"VRTX 1 1066914.88849348 6895088.11333468 -2241.59911113388", cs!"VRTX 2 1066726.88380422 6894926.7917674 -2233.59422969156",
   cs!"VRTX 3 1066892.14153457 6895237.61382699 -2242.1307368514", cs!"TRGL 0 1 2", cs!"TRGL 1 2 3", cs!"END"]

/-- `/repo/tests/data/ts-2props.ts`. -/
def twoProps : File :=
  [cs!"GOCAD TSurf 1 \r", cs!"HEADER {\r", cs!"name: test\r", cs!"mesh: on\r", cs!"cn: on\r", cs!"*solid*color: 1 0.447059 0.337255 1\r", cs!"}\r",
   cs!"GOCAD_ORIGINAL_COORDINATE_SYSTEM\r", cs!"NAME \" Pdgm_Epic Local\" \r", cs!"PROJECTION Unknown\r", cs!"DATUM Unknown\r",
   cs!"AXIS_NAME X Y Z\r", cs!"AXIS_UNIT m m m\r", cs!"ZPOSITIVE Depth\r", cs!"END_ORIGINAL_COORDINATE_SYSTEM\r",
   cs!"PROPERTIES \" default property\"  def-prop\r", cs!"PROP_LEGAL_RANGES **none**  **none** **none**  **none** \r",
   cs!"NO_DATA_VALUES -99999 -99999 \r", cs!"PROPERTY_CLASSES \" default property\"  def-prop\r",
   cs!"PROPERTY_KINDS \" Real Number\"  \" Real Number\" \r", cs!"PROPERTY_SUBCLASSES QUANTITY Float QUANTITY Float\r", cs!"ESIZES 1  1 \r",
   cs!"UNITS unitless unitless\r", cs!"PROPERTY_CLASS_HEADER X {\r", cs!"kind: X\r", cs!"unit: m\r", cs!"}\r", cs!"PROPERTY_CLASS_HEADER Y {\r",
   cs!"kind: Y\r", cs!"unit: m\r", cs!"}\r", cs!"PROPERTY_CLASS_HEADER Z {\r", cs!"kind: Z\r", cs!"unit: m\r", cs!"is_z: on\r", cs!"}\r",
   cs!"PROPERTY_CLASS_HEADER vector3d {\r", cs!"kind: Length\r", cs!"unit: m\r", cs!"}\r", cs!"PROPERTY_CLASS_HEADER default property {\r",
   cs!"name: default property\r", cs!"}\r", cs!"PROPERTY_CLASS_HEADER def-prop {\r", cs!"kind: Real Number\r", cs!"unit: unitless\r",
   cs!"name: def-prop\r", cs!"}\r", cs!"TFACE\r", cs!"PVRTX 1 -745925.546875 -2618524.8125 -44070.2578125 -99999 -99999 CNXYZ\r",
   cs!"PVRTX 2 -883301.09375 -2717022.15625 -15210.8740234375 -99999 -99999 CNXYZ\r",
   cs!"PVRTX 3 -870695.75 -2463857.25 -110115.6171875 -99999 -99999 CNXYZ\r",
   cs!"PVRTX 4 -1008071.3125 -2562354.625 -81256.234375 -99999 -99999 CNXYZ\r", cs!"TRGL 3 2 1 \r", cs!"TRGL 4 2 3 \r", cs!"BSTONE 1 \r",
   cs!"BORDER 5 1 2 \r", cs!"END\r"]

/-- `/repo/tests/data/points.vs`. -/
def pointsVs : File :=
  [cs!"GOCAD VSet 1 \r", cs!"HEADER {\r", cs!"name: points\r", cs!"}\r", cs!"GOCAD_ORIGINAL_COORDINATE_SYSTEM\r", cs!"NAME from_column\r",
   cs!"PROJECTION Unknown\r", cs!"DATUM Unknown\r", cs!"AXIS_NAME U V W\r", cs!"AXIS_UNIT m m m\r", cs!"ZPOSITIVE Elevation\r",
   cs!"END_ORIGINAL_COORDINATE_SYSTEM\r", cs!"GEOLOGICAL_FEATURE Top_S1\r", cs!"PROPERTIES normal\r", cs!"PROP_LEGAL_RANGES **none**  **none** \r",
   cs!"NO_DATA_VALUES -99999 \r", cs!"PROPERTY_CLASSES vector3d\r", cs!"PROPERTY_KINDS Length\r",
   cs!"PROPERTY_SUBCLASSES LINEARFUNCTION Float 1  0 \r", cs!"ESIZES 3 \r", cs!"UNITS m\r", cs!"PROPERTY_CLASS_HEADER X {\r", cs!"kind: X\r",
   cs!"unit: m\r", cs!"}\r", cs!"PROPERTY_CLASS_HEADER Y {\r", cs!"kind: Y\r", cs!"unit: m\r", cs!"}\r", cs!"PROPERTY_CLASS_HEADER Z {\r",
   cs!"kind: Z\r", cs!"unit: m\r", cs!"is_z: on\r", cs!"}\r", cs!"PROPERTY_CLASS_HEADER vector3d {\r", cs!"kind: Length\r", cs!"unit: m\r", cs!"}\r",
   cs!"PVRTX 1 526771.3388671875 4845393.0419921875 216.72999572753906 0 0 0 \r",
   cs!"PVRTX 2 526798.7607421875 4845580.1118164062 217.63999938964844 0 0 0 \r",
   cs!"PVRTX 3 526798.88720703125 4845548.6440429688 214.69000244140625 0 0 0 \r",
   cs!"PVRTX 4 526760.10107421875 4845518.87109375 219.10000610351562 0 0 0 \r",
   cs!"PVRTX 5 526765.60107421875 4845485.5732421875 219.77000427246094 0 0 0 \r",
   cs!"PVRTX 6 526725.5615234375 4845433.5830078125 221.00999450683594 0 0 0 \r", cs!"END\r"]

/-- `/repo/tests/data/test_well.txt`. -/
def wellTxt : File :=
  [cs!"1061587.407\t6877152.488\t-1765.785518\r", cs!"1061574.69\t6877155.348\t-1864.022334\r", cs!"1061574.065\t6877155.353\t-1868.52563\r",
   cs!"1061573.441\t6877155.359\t-1872.90478\r", cs!"1061572.818\t6877155.614\t-1877.279658\r", cs!"1061571.569\t6877155.625\t-1886.096919\r",
   cs!"1061566.454\t6877156.419\t-1921.725215\r", cs!"1061565.83\t6877156.424\t-1926.150142\r", cs!"1061531.087\t6877161.974\t-2164.694087\r",
   cs!"1061530.464\t6877162.23\t-2169.062983\r", cs!"1061523.736\t6877164.287\t-2217.590327"]

/-- `/repo/tests/data/test_well.dat`. -/
def wellDat : File :=
  [cs!"    1062410.750    6884723.500        150.000\r", cs!"    1062410.750    6884723.500       -750.000\r",
   cs!"    1062410.748    6884723.494       -752.999\r", cs!"    1062410.686    6884723.302       -767.958\r",
   cs!"    1062410.663    6884723.230       -770.943\r", cs!"    1062410.636    6884723.148       -773.926\r",
   cs!"    1062408.692    6884717.137       -850.659\r", cs!"    1062402.520    6884698.049       -948.634\r",
   cs!"    1062393.306    6884669.553      -1035.627\r", cs!"    1062141.875    6883892.000      -2990.700\r",
   cs!"    1062106.278    6883781.916      -3267.493\r"]

/-- `/repo/tests/data/EclipseGridTest.grdecl`. -/
def eclipse : File :=
  [cs!"SPECGRID\r", cs!"2 3 4 1 F \r", cs!"/\r", cs!"COORD\r", cs!"1000 2000 1000\r", cs!"1100 2000 1100\r", cs!"1040 2000 1000\r",
   cs!"1150 2000 1100\r", cs!"1120 2000 1000\r", cs!"1200 2000 1100\r", cs!"1000 2200 1000\r", cs!"1100 2200 1100\r", cs!"1100 2200 1000\r",
   cs!"1200 2200 1100\r", cs!"1200 2200 1000\r", cs!"1300 2200 1100\r", cs!"1000 2600 1000\r", cs!"1100 2600 1100\r", cs!"1150 2600 1000\r",
   cs!"1250 2600 1100\r", cs!"1300 2600 1000\r", cs!"1400 2600 1100\r", cs!"1000 3200 1000\r", cs!"1100 3200 1100\r", cs!"1200 3200 1000\r",
   cs!"1300 3200 1100\r", cs!"1400 3200 1000\r", cs!"1500 3200 1100\r", cs!"/\r", cs!"ZCORN\r", cs!"1000.0000\r", cs!"1000.0000\r", cs!"1000.0000\r",
   cs!"1000.0000\r", cs!"1000.0000\r", cs!"1000.0000\r", cs!"1000.0000\r", cs!"1000.0000\r", cs!"1000.0000\r", cs!"1000.0000\r", cs!"1000.0000\r",
   cs!"1000.0000\r", cs!"1000.0000\r", cs!"1000.0000\r", cs!"1000.0000\r", cs!"1000.0000\r", cs!"1000.0000\r", cs!"1000.0000\r", cs!"1000.0000\r",
   cs!"1000.0000\r", cs!"1000.0000\r", cs!"1000.0000\r", cs!"1000.0000\r", cs!"1000.0000\r", cs!"1100.0000\r", cs!"1100.0000\r", cs!"1100.0000\r",
   cs!"1100.0000\r", cs!"1100.0000\r", cs!"1100.0000\r", cs!"1100.0000\r", cs!"1100.0000\r", cs!"1100.0000\r", cs!"1100.0000\r", cs!"1100.0000\r",
   cs!"1100.0000\r", cs!"1100.0000\r", cs!"1100.0000\r", cs!"1100.0000\r", cs!"1100.0000\r", cs!"1100.0000\r", cs!"1100.0000\r", cs!"1100.0000\r",
   cs!"1100.0000\r", cs!"1100.0000\r", cs!"1100.0000\r", cs!"1100.0000\r", cs!"1100.0000\r", cs!"1100.0000\r", cs!"1100.0000\r", cs!"1100.0000\r",
   cs!"1100.0000\r", cs!"1100.0000\r", cs!"1100.0000\r", cs!"1100.0000\r", cs!"1100.0000\r", cs!"1100.0000\r", cs!"1100.0000\r", cs!"1100.0000\r",
   cs!"1100.0000\r", cs!"1100.0000\r", cs!"1100.0000\r", cs!"1100.0000\r", cs!"1100.0000\r", cs!"1100.0000\r", cs!"1100.0000\r", cs!"1100.0000\r",
   cs!"1100.0000\r", cs!"1100.0000\r", cs!"1100.0000\r", cs!"1100.0000\r", cs!"1100.0000\r", cs!"1200.0000\r", cs!"1200.0000\r", cs!"1200.0000\r",
   cs!"1200.0000\r", cs!"1200.0000\r", cs!"1200.0000\r", cs!"1200.0000\r", cs!"1200.0000\r", cs!"1200.0000\r", cs!"1200.0000\r", cs!"1200.0000\r",
   cs!"1200.0000\r", cs!"1200.0000\r", cs!"1200.0000\r", cs!"1200.0000\r", cs!"1200.0000\r", cs!"1200.0000\r", cs!"1200.0000\r", cs!"1200.0000\r",
   cs!"1200.0000\r", cs!"1200.0000\r", cs!"1200.0000\r", cs!"1200.0000\r", cs!"1200.0000\r", cs!"1200.0000\r", cs!"1200.0000\r", cs!"1200.0000\r",
   cs!"1200.0000\r", cs!"1200.0000\r", cs!"1200.0000\r", cs!"1200.0000\r", cs!"1200.0000\r", cs!"1200.0000\r", cs!"1200.0000\r", cs!"1200.0000\r",
   cs!"1200.0000\r", cs!"1200.0000\r", cs!"1200.0000\r", cs!"1200.0000\r", cs!"1200.0000\r", cs!"1200.0000\r", cs!"1200.0000\r", cs!"1200.0000\r",
   cs!"1200.0000\r", cs!"1200.0000\r", cs!"1200.0000\r", cs!"1200.0000\r", cs!"1200.0000\r", cs!"1300.0000\r", cs!"1300.0000\r", cs!"1300.0000\r",
   cs!"1300.0000\r", cs!"1300.0000\r", cs!"1300.0000\r", cs!"1300.0000\r", cs!"1300.0000\r", cs!"1300.0000\r", cs!"1300.0000\r", cs!"1300.0000\r",
   cs!"1300.0000\r", cs!"1300.0000\r", cs!"1300.0000\r", cs!"1300.0000\r", cs!"1300.0000\r", cs!"1300.0000\r", cs!"1300.0000\r", cs!"1300.0000\r",
   cs!"1300.0000\r", cs!"1300.0000\r", cs!"1300.0000\r", cs!"1300.0000\r", cs!"1300.0000\r", cs!"1300.0000\r", cs!"1300.0000\r", cs!"1300.0000\r",
   cs!"1300.0000\r", cs!"1300.0000\r", cs!"1300.0000\r", cs!"1300.0000\r", cs!"1300.0000\r", cs!"1300.0000\r", cs!"1300.0000\r", cs!"1300.0000\r",
   cs!"1300.0000\r", cs!"1300.0000\r", cs!"1300.0000\r", cs!"1300.0000\r", cs!"1300.0000\r", cs!"1300.0000\r", cs!"1300.0000\r", cs!"1300.0000\r",
   cs!"1300.0000\r", cs!"1300.0000\r", cs!"1300.0000\r", cs!"1300.0000\r", cs!"1300.0000\r", cs!"1400.0000\r", cs!"1400.0000\r", cs!"1400.0000\r",
   cs!"1400.0000\r", cs!"1400.0000\r", cs!"1400.0000\r", cs!"1400.0000\r", cs!"1400.0000\r", cs!"1400.0000\r", cs!"1400.0000\r", cs!"1400.0000\r",
   cs!"1400.0000\r", cs!"1400.0000\r", cs!"1400.0000\r", cs!"1400.0000\r", cs!"1400.0000\r", cs!"1400.0000\r", cs!"1400.0000\r", cs!"1400.0000\r",
   cs!"1400.0000\r", cs!"1400.0000\r", cs!"1400.0000\r", cs!"1400.0000\r", cs!"1400.0000\r", cs!"/\r", cs!"LITHOLOGYTYPE\r", cs!"1 2 3 4 5 6\r",
   cs!"1 2 3 4 5 6\r", cs!"1 2 3 4 5 6\r", cs!"1 2 3 4 5 6 \r", cs!"/\r", cs!"FACIESASSOCIATION\r", cs!"10 20 30 40 50 60\r",
   cs!"10 20 30 40 50 60\r", cs!"10 20 30 40 50 60\r", cs!"10 20 30 40 50 60\r", cs!"/\r", cs!"AGE\r", cs!"1.0 1.0 1.0 1.0 1.0 1.0\r",
   cs!"2.0 2.0 2.0 2.0 2.0 2.0\r", cs!"3.0 3.0 3.0 3.0 3.0 3.0\r", cs!"4.0 4.0 4.0 4.0 4.0 4.0\r", cs!"/"]

/-- The tree of `/repo/tests/data/test_skua_horizons_stack.xml`, without the blanks between the elements. -/
def stackXml : Skua.Node :=
  .elem [] [] [
    .elem cs!"UserObjects" [] [
      .elem cs!"LocalStratigraphicColumn" [(cs!"version", cs!"2.0")] [
        .elem cs!"name" [] [.text cs!"skua_model"],
        .elem cs!"classification_type" [] [.text cs!"chronostratigraphy"],
        .elem cs!"rank_names" [] [.elem cs!"rank_name" [] [.text cs!"Eon"]],
        .elem cs!"units" [(cs!"use_base_names", cs!"false")] [
          .elem cs!"unit" [] [
            .elem cs!"name" [] [.text cs!"above_model_erosion"],
            .elem cs!"color" [] [.text cs!"0.827451 0.827451 0.827451 1"],
            .elem cs!"base" [] [
              .elem cs!"name" [] [.text cs!"model_erosion"],
              .elem cs!"relation" [] [.text cs!"stratigraphic"],
              .elem cs!"color" [] [.text cs!"1 0.270588 0 1"]]],
          .elem cs!"unit" [] [
            .elem cs!"name" [] [.text cs!"eroded_unit"],
            .elem cs!"color" [] [.text cs!"1 0.635294 0.498039 1"],
            .elem cs!"top" [] [
              .elem cs!"name" [] [.text cs!"model_erosion"],
              .elem cs!"relation" [] [.text cs!"structural"],
              .elem cs!"color" [] [.text cs!"1 0.270588 0 1"]],
            .elem cs!"base" [] [
              .elem cs!"name" [] [.text cs!"model_horizon_h1"],
              .elem cs!"relation" [] [.text cs!"stratigraphic"],
              .elem cs!"color" [] [.text cs!"0.313726 0.623529 0.411765 1"]]],
          .elem cs!"unit" [] [
            .elem cs!"name" [] [.text cs!"model_horizon_u1"],
            .elem cs!"color" [] [.text cs!"0.470588 0.937255 0.619608 1"],
            .elem cs!"top" [] [
              .elem cs!"name" [] [.text cs!"model_horizon_h1"],
              .elem cs!"relation" [] [.text cs!"stratigraphic"],
              .elem cs!"color" [] [.text cs!"0.313726 0.623529 0.411765 1"]],
            .elem cs!"base" [] [
              .elem cs!"name" [] [.text cs!"model_horizon_h2"],
              .elem cs!"relation" [] [.text cs!"stratigraphic"],
              .elem cs!"color" [] [.text cs!"0.588235 0.321569 0.176471 1"]]],
          .elem cs!"unit" [] [
            .elem cs!"name" [] [.text cs!"model_horizon_u2"],
            .elem cs!"color" [] [.text cs!"0.882353 0.482353 0.262745 1"],
            .elem cs!"top" [] [
              .elem cs!"name" [] [.text cs!"model_horizon_h2"],
              .elem cs!"relation" [] [.text cs!"stratigraphic"],
              .elem cs!"color" [] [.text cs!"0.588235 0.321569 0.176471 1"]],
            .elem cs!"base" [] [
              .elem cs!"name" [] [.text cs!"model_horizon_h3"],
              .elem cs!"relation" [] [.text cs!"stratigraphic"],
              .elem cs!"color" [] [.text cs!"0.854902 0.666667 0 1"]]],
          .elem cs!"unit" [] [
            .elem cs!"name" [] [.text cs!"model_horizon_u3"],
            .elem cs!"color" [] [.text cs!"1 0.843137 0.282353 1"],
            .elem cs!"top" [] [
              .elem cs!"name" [] [.text cs!"model_horizon_h3"],
              .elem cs!"relation" [] [.text cs!"stratigraphic"],
              .elem cs!"color" [] [.text cs!"0.854902 0.666667 0 1"]]]]]]]

/-- The name, the number of points and the number of cells. -/
def counts {C : Type} (r : Res (GocadMesh.Loaded C Rat)) : Option (Option Str × Nat × Nat) :=
  match r with
  | .ok m => some (m.name, m.points.length, m.cells.length)
  | _ => none

/-- Test, `/repo/tests/mesh/test-ts.cpp` lines 87-89. -/
example : counts (GocadMesh.loadTS twoTriangles) = some (some cs!"2triangles.ts", 4, 2) := by decide +kernel

/-- Test, `/repo/tests/mesh/test-ts.cpp` lines 96-98. -/
example : counts (GocadMesh.loadTS twoProps) = some (some cs!"test", 4, 2) := by decide +kernel

/-- Test, `/repo/tests/mesh/test-vs.cpp`. -/
example : counts (GocadMesh.loadVS pointsVs) = some (some cs!"points", 6, 0) := by decide +kernel

/-- The number of points and the number of edges of a well. -/
def wellCounts (r : Res (Wells.Well Rat)) : Option (Nat × Nat) :=
  match r with
  | .ok w => some (w.points.length, w.edges.length)
  | _ => none

/-- Test, `/repo/tests/mesh/test-well-txt.cpp`. -/
example : wellCounts (Wells.loadList wellTxt) = some (11, 10) := by decide +kernel

/-- Test, `/repo/tests/mesh/test-well-dat.cpp`. -/
example : wellCounts (Wells.loadList wellDat) = some (11, 10) := by decide +kernel

/-- Points are merged when they are equal. -/
def mergeEqual (ps : List (Pt Rat)) : List (Pt Rat) × List Nat :=
  let unique := ps.foldl (fun l p => if l.contains p then l else l ++ [p]) []
  (unique, ps.map unique.idxOf)

/-- Test, `/repo/tests/mesh/test-grdecl.cpp`. -/
example : (match (Grdecl.load mergeEqual (fun _ => none) eclipse : Res (Grdecl.Solid Rat)) with
    | .ok s => some (s.hexas.length, s.points.length)
    | _ => none) = some (24, 60) := by decide +kernel

/-- The stack read, if it is. -/
def stackRead : Option Skua.Stack :=
  match Skua.loadSkua (some stackXml) with
  | .ok s => some s
  | _ => none

/-- Test, `/repo/tests/model/test-skua-horizons-stack.cpp`: the name, 4 horizons and 5 units. -/
example : stackRead.map (fun s => (s.name, s.horizons.length, s.units.length)) = some (cs!"skua_model", 4, 5) := by decide +kernel

/-- Test, `/repo/tests/model/test-skua-horizons-stack.cpp`: the horizon `model_erosion` is above the unit `eroded_unit`, which is above the horizon
`model_horizon_h1`, and its contact is an erosion. -/
example : stackRead.map (fun s => (s.units[1]?, s.above.contains (cs!"model_erosion", 1), s.under.contains (cs!"model_horizon_h1", 1),
    s.horizons.contains (cs!"model_erosion", .erosion))) = some (some cs!"eroded_unit", true, true, true) := by decide +kernel

end Verif.Tests
