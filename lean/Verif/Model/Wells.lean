import Verif.Model.GocadMesh

/-!
# Wells: `.dat`, `.txt`, `.dev` and `.wl`

Models of `/repo/include/geode/geosciences_io/mesh/internal/well_input.hpp` and of
`/repo/src/geode/geosciences_io/mesh/{well_dev,wl}_input.cpp`.
-/

namespace Verif.Wells

open Verif Verif.Gocad Verif.GocadMesh

variable {D : Type} [Num D]

/-- A loaded well: points and edges of the curve; `vals` has, for each vertex, the values stored in attributes, in the order in which
they were stored. -/
structure Well (D : Type) where
  name : Option Str := none
  points : List (Pt D) := []
  edges : List Edge := []
  vals : List (List (Str × D)) := []
  deriving DecidableEq, Repr

/-- Value of an attribute at a vertex: the last value stored under that name, 0 when there is none (the default value given to
`find_or_create_attribute`, `well_dev_input.cpp` lines 156-166). -/
def Well.attr (w : Well D) (name : Str) (v : Nat) : D :=
  (((w.vals.getD v []).reverse.find? fun p => p.1 = name).map Prod.snd).getD Num.zero

/-- `for( pt_id : Range{ nb_vertices() - 1 } ) create_edge( pt_id, pt_id + 1 )`: `well_input.hpp` lines 62-65,
`well_dev_input.cpp` lines 79-82.  The subtraction wraps when there is no vertex. -/
def chainEdges (nb : Nat) : Res (List Edge) :=
  Res.mapM' (fun i => if i + 1 < nb then .ok (i, i + 1) else .ub) (List.range (sub32 nb 1))

/-! ## Point lists -/

/-- `read_coord`, `well_input.hpp` lines 69-79. -/
def readCoord3 (l : Str) : Res (Pt D) := do
  let tokens := split l
  Res.check (tokens.length == 3)
  let x ← readDouble (← Res.index tokens 0)
  let y ← readDouble (← Res.index tokens 1)
  let z ← readDouble (← Res.index tokens 2)
  pure ⟨x, y, z⟩

/-- `read_file`, `well_input.hpp` lines 55-66 (the name, taken from the file name, is not modelled). -/
def loadList (f : File) : Res (Well D) := do
  let points ← Res.mapM' readCoord3 f
  let edges ← chainEdges points.length
  pure { points, edges }

/-! ## Petrel deviation surveys -/

/-- `HeaderData`, `well_dev_input.cpp` lines 40-45.  A position never assigned is an uninitialised `index_t`: `none`. -/
structure DevHeader where
  name : Str := []
  names : List Str := []
  x : Option Nat := none
  y : Option Nat := none
  z : Option Nat := none
  deriving DecidableEq, Repr

/-- Loop over the titles, `well_dev_input.cpp` lines 119-138, from column `i` on. -/
def devTitles (h : DevHeader) : Nat → List Str → DevHeader
  | _, [] => h
  | i, t :: ts =>
    if t = cs!"X" then devTitles { h with x := some i } (i + 1) ts
    else if t = cs!"Y" then devTitles { h with y := some i } (i + 1) ts
    else if t = cs!"Z" then devTitles { h with z := some i } (i + 1) ts
    else devTitles { h with names := h.names ++ [t] } (i + 1) ts

/-- Reading an `index_t`: undefined behaviour when it was never assigned. -/
def initialised (o : Option Nat) : Res Nat :=
  match o with
  | some n => .ok n
  | none => .ub

/-- The test of lines 139-148: `x != y && x != z && y != z`, with short cuts. -/
def devCheck (h : DevHeader) : Res Unit := do
  let x ← initialised h.x
  let y ← initialised h.y
  if x = y then .throw
  else do
    let z ← initialised h.z
    Res.check (x != z && y != z)

/-- Loop of `read_header`, `well_dev_input.cpp` lines 90-151. -/
def devHeaderLoop : DevHeader → Bool → File → Res (DevHeader × File)
  | _, _, [] => .throw
  | h, first, l :: ls =>
    if startsWith l cs!"#===" then
      if first then devHeaderLoop h false ls else .ok (h, ls)
    else if startsWith l cs!"# WELL NAME:" then do
      let n ← Res.index (split l) 3
      devHeaderLoop { h with name := n } first ls
    else if first then devHeaderLoop h first ls
    else do
      Res.check (3 ≤ (split l).length)
      let h := devTitles h 0 (split l)
      devCheck h
      devHeaderLoop h first ls

/-- `read_header`, `well_dev_input.cpp` lines 86-154. -/
def devHeader (f : File) : Res (DevHeader × File) := do
  let f ← checkKeyword cs!"# WELL TRACE FROM PETREL" f
  devHeaderLoop {} true f

/-- `create_point`, `well_dev_input.cpp` lines 168-178. -/
def devPoint (h : DevHeader) (row : List Str) : Res (Pt D) := do
  let x ← readDouble (← Res.index row (← initialised h.x))
  let y ← readDouble (← Res.index row (← initialised h.y))
  let z ← readDouble (← Res.index row (← initialised h.z))
  pure ⟨x, y, z⟩

/-- `assign_point_attributes`, `well_dev_input.cpp` lines 180-201, from column `i` on; `attrs` are the attributes not used yet.  The
values stored, in order. -/
def devAttrs (h : DevHeader) : Nat → List Str → List Str → Res (List (Str × D))
  | _, _, [] => .ok []
  | i, attrs, t :: ts =>
    if h.x = some i ∨ h.y = some i ∨ h.z = some i then devAttrs h (i + 1) attrs ts
    else
      match attrs with
      | [] => .ub
      | a :: attrs => do
        let d ← readDouble t
        let r ← devAttrs h (i + 1) attrs ts
        pure ((a, d) :: r)

/-- One row of the table, `well_dev_input.cpp` lines 69-77. -/
def devRow (h : DevHeader) (l : Str) : Res (Pt D × List (Str × D)) := do
  let row := split l
  Res.check (row.length == h.names.length + 3)
  let p ← devPoint h row
  let a ← devAttrs h 0 h.names row
  pure (p, a)

/-- `read_file`, `well_dev_input.cpp` lines 61-83. -/
def loadDev (f : File) : Res (Well D) := do
  let (h, f) ← devHeader f
  let rows ← Res.mapM' (devRow h) f
  let edges ← chainEdges rows.length
  pure { name := some h.name, points := rows.map Prod.fst, edges, vals := rows.map Prod.snd }

/-! ## GOCAD wells -/

/-- `read_coord`, `wl_input.cpp` lines 81-92. -/
def wlCoord (l : Str) (offset : Nat) : Res (Pt D) := do
  let tokens := split l
  Res.check (tokens.length == 3 + offset)
  let x ← readDouble (← Res.index tokens offset)
  let y ← readDouble (← Res.index tokens (1 + offset))
  let z ← readDouble (← Res.index tokens (2 + offset))
  pure ⟨x, y, z⟩

/-- `d * ( z_sign_positive ? 1. : -1. )`. -/
def signed (z : Bool) (d : D) : D := if z then d else Num.neg d

/-- Loop of `read_paths`, `wl_input.cpp` lines 96-111, with the points created so far. -/
def wlPaths [Add D] (z : Bool) (ref : Pt D) : List (Pt D) → File → Res (List (Pt D))
  | ps, [] => .ok ps
  | ps, l :: ls =>
    if startsWith l cs!"PATH" then do
      let t ← wlCoord l 2
      wlPaths z ref (ps ++ [⟨t.y + ref.x, t.z + ref.y, signed z t.x⟩]) ls
    else .ok ps

/-- `read_file`, `wl_input.cpp` lines 52-69.  Each point of a path is joined to the point before it. -/
def loadWl [Add D] (f : File) : Res (Well D) :=
  match gotoKeyword? cs!"GOCAD Well" f with
  | none => .throw
  | some (_, f) => do
    let (name, f) ← readHeader f
    let (crs, f) ← readCrs f
    let (l, f) ← gotoKeyword cs!"WREF" f
    let p ← wlCoord l 1
    let ref : Pt D := ⟨p.x, p.y, signed crs.zPos p.z⟩
    let (_, f) ← gotoKeyword cs!"PATH" f
    let points ← wlPaths crs.zPos ref [ref] f
    pure { name, points, edges := (List.range (points.length - 1)).map fun i => (i, i + 1) }

end Verif.Wells
