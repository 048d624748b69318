import Verif.Model.GocadMesh
import Verif.Model.Wells
import Verif.Model.Voxet
import Verif.Model.Grdecl
import Verif.Model.Ml
import Verif.Model.Lso

/-!
# Recognition of files

The functions `is_loadable` of the text formats of `/repo/src/geode/geosciences_io`: each looks for a line that starts with a keyword.
`true` stands for `Percentage{ 1 }` and `false` for `Percentage{ 0 }`.  A file that cannot be opened has no line.
-/

namespace Verif.Recognise

/-- `goto_keyword_if_it_exists( file, keyword )`, as a test. -/
def hasKeyword (kw : Str) (f : File) : Bool := (gotoKeyword? kw f).isSome

/-- `mesh/ts_input.cpp` lines 123-131. -/
def isLoadableTS (f : File) : Bool := hasKeyword cs!"GOCAD TSurf" f
/-- `mesh/vs_input.cpp` lines 101-109. -/
def isLoadableVS (f : File) : Bool := hasKeyword cs!"GOCAD VSet" f
/-- `mesh/pl_input.cpp` lines 101-109. -/
def isLoadablePL (f : File) : Bool := hasKeyword cs!"GOCAD PLine" f
/-- `mesh/wl_input.cpp` lines 133-141. -/
def isLoadableWl (f : File) : Bool := hasKeyword cs!"GOCAD Well" f
/-- `mesh/well_dev_input.cpp` lines 226-234. -/
def isLoadableDev (f : File) : Bool := hasKeyword cs!"# WELL TRACE" f
/-- `mesh/well_dat_input.cpp` lines 41-44 and `mesh/well_txt_input.cpp` lines 41-44. -/
def isLoadablePoints (_ : File) : Bool := true
/-- `mesh/vo_input.cpp` lines 247-256. -/
def isLoadableVo (f : File) : Bool := hasKeyword cs!"GOCAD Voxet" f
/-- `mesh/grdecl_input.cpp` lines 385-393. -/
def isLoadableGrdecl (f : File) : Bool := hasKeyword cs!"SPECGRID" f
/-- `model/internal/ml_input.cpp` lines 1056-1064. -/
def isLoadableMl (f : File) : Bool := hasKeyword cs!"GOCAD Model3d" f
/-- `model/internal/lso_input.cpp` lines 792-800. -/
def isLoadableLso (f : File) : Bool := hasKeyword cs!"GOCAD LightTSolid" f

end Verif.Recognise
