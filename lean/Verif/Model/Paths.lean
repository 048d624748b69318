import Verif.Base.Text
import Verif.Base.Outcome

/-!
# Names of files

What the readers and writers make of the name of the file they are given.  The functions of OpenGeode (`geode/basic/filename.hpp`) and of
`std::filesystem` are external: `fileName`, `directory`, `stem` and `withoutExtension` follow their documentation for POSIX paths.
-/

namespace Verif.Paths

open Verif

/-- `path::filename`: what follows the last separator. -/
def fileName (p : Str) : Str := (p.reverse.takeWhile (· ≠ '/')).reverse

/-- `filepath_without_filename`: the path up to the last separator, which is kept. -/
def directory (p : Str) : Str := (p.reverse.dropWhile (· ≠ '/')).reverse

/-- The name up to its last dot, which is kept. -/
def upToDot (n : Str) : Str := (n.reverse.dropWhile (· ≠ '.')).reverse

/-- `filename_without_extension`, which is `path::stem`: a dot at the beginning does not start an extension. -/
def stem (p : Str) : Str :=
  let n := fileName p
  if n = cs!".." then n
  else if (upToDot n).length ≤ 1 then n
  else (upToDot n).dropLast

/-- `filepath_without_extension`. -/
def withoutExtension (p : Str) : Str := directory p ++ stem p

/-- The name of the curve of a well, `/repo/include/geode/geosciences_io/mesh/internal/well_input.hpp` lines 51-52. -/
def wellName (filename : Str) : Str := stem filename

/-- The companion file of a shape file, `/repo/src/geode/geosciences_io/model/internal/shp_input.cpp` lines 284-292. -/
def shxFile (filename : Str) : Str := withoutExtension filename ++ cs!".shx"

/-- The data file of a voxet, `/repo/src/geode/geosciences_io/mesh/vo_input.cpp` lines 68-70 and 166-167: the text of the record after the folder.
`grdecl_input.cpp` does the same with the names of included files (lines 69-71). -/
def dataFile (filename record : Str) : Str := directory filename ++ record

/-! ## Saving FEM files -/

/-- The directories that exist, with their last separator; the current directory is the empty text. -/
abbrev Disk := List Str

/-- A file can be created in the directories that exist. -/
def opens (d : Disk) (p : Str) : Bool := d.contains (directory p)

/-- The ancestors of a directory, and itself. -/
def ancestors (p : Str) : List Str := (List.range (p.length + 1)).filterMap fun k => if (p.take k).getLast? = some '/' then some (p.take k) else none

/-- `std::filesystem::create_directories`. -/
def createDirectories (d : Disk) (p : Str) : Disk := d ++ (ancestors p).filter fun a => !d.contains a

/-- `SolidFemOutput::write` and `BRepFemOutput::write`, `/repo/src/geode/geosciences_io/mesh/fem_output.cpp` lines 119-137 and
`model/internal/brep_fem_output.cpp` lines 68-87: the file is opened by the constructor; the directory created is that of the text `filename`. -/
def saveFem (d : Disk) (filename : Str) : Res Disk := do
  Res.check (opens d filename)
  let directories := directory cs!"filename"
  pure (if directories ≠ [] then createDirectories d directories else d)

end Verif.Paths
