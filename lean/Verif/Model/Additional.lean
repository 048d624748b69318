import Verif.Model.Grdecl
import Verif.Model.Voxet

/-!
# The files that readers list

Model of the functions `additional_files` of the readers that open other files than the one they are given: what they list, and what they read from.  The
disk is a function from paths to contents; folders end with a separator.  The readers of `.ts`, `.vs`, `.pl`, `.wl`, `.dev`, `.txt`, `.dat`, `.ml`, `.lso`
and `.xml` files list nothing and their models read nothing but the file.
-/

namespace Verif.Additional

open Verif

/-- Contents by path. -/
abbrev Disk := Str → Option File

/-- `GRDECLInput::additional_files`, `/repo/include/geode/geosciences_io/mesh/internal/grdecl_input.hpp` lines 55-58: nothing, for every file. -/
def grdeclListed (_ : File) : List Str := []

/-- `VOInput::additional_files`, `/repo/src/geode/geosciences_io/mesh/vo_input.cpp` lines 231-245: the record of the data file, as it is. -/
def voListed (f : File) : List Str := (Voxet.dataFile f).toList

/-- Loading a `.grdecl` file of a folder: included files are opened in the folder, `/repo/src/geode/geosciences_io/mesh/grdecl_input.cpp` lines 200-204 and 232-236. -/
def loadGrdecl {D : Type} [Num D] [Add D] [Sub D] [Mul D] [Div D] [One D] (merge : List (Pt D) → List (Pt D) × List Nat) (disk : Disk) (folder : Str) (f : File) :
    Res (Grdecl.Solid D) :=
  Grdecl.load merge (fun n => disk (folder ++ n)) f

end Verif.Additional
