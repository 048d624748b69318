import Verif.Base.NumIO

/-!
# GOCAD ASCII text: model of `/repo/src/geode/geosciences_io/mesh/gocad_common.cpp`

Line numbers below refer to that file unless another file is named.
-/

namespace Verif.Gocad

open Verif

variable {D : Type} [Num D]

/-! ## Names and quotes -/

/-- `read_name`, lines 611-616: join with single blanks, then remove every quote character. -/
def readName (tokens : List Str) : Str := dropQuotes (join tokens)

/-- `split_string_considering_quotes` with `get_string_between_quote`, lines 41-83, as one pass over the tokens.  The first
argument is `some acc` while inside a quotation.  A quotation opens at a token that is exactly `"` and closes at the next
token that ends with `"`.  When it never closes, line 47 evaluates `tokens[tokens.size()]` before the test of line 51 can
throw: undefined behaviour. -/
def mergeQuoted : Option Str → List Str → Res (List Str)
  | none, [] => .ok []
  | some _, [] => .ub
  | none, t :: ts =>
    if t = ['"'] then mergeQuoted (some []) ts
    else do
      let r ← mergeQuoted none ts
      pure (t :: r)
  | some acc, t :: ts =>
    if t.getLast? = some '"' then do
      let r ← mergeQuoted none ts
      pure ((acc ++ t).dropLast :: r)
    else mergeQuoted (some (acc ++ t ++ [' '])) ts

/-- `split_string_considering_quotes`, lines 63-83. -/
def splitQuoted (s : Str) : Res (List Str) := mergeQuoted none (split s)

/-- `write_string_with_quotes`, lines 84-93. -/
def writeQuoted (s : Str) : Str :=
  let tokens := split s
  if tokens.length > 1 then cs!"\" " ++ readName tokens ++ ['"']
  else readName tokens

/-! ## Header -/

/-- The loop of `read_header`, lines 332-350. -/
def readHeaderLoop : Option Str → File → Res (Option Str × File)
  | _, [] => .throw
  | name, l :: ls =>
    if startsWith l cs!"}" then .ok (name, ls)
    else
      match afterFirst cs!"name:" l with
      | some rest => readHeaderLoop (some (readName (split rest))) ls
      | none => readHeaderLoop name ls

/-- `read_header`, lines 328-351. -/
def readHeader (f : File) : Res (Option Str × File) := do
  let f ← checkKeyword cs!"HEADER" f
  readHeaderLoop none f

/-- `write_header`, lines 353-361. -/
def writeHeader (name : Option Str) : List Str :=
  [cs!"HEADER {"] ++ (match name with | some n => [cs!"name:" ++ n] | none => []) ++ [cs!"}"]

/-! ## Coordinate system -/

/-- `CRSData`, `gocad_common.hpp` lines 51-61. -/
structure Crs where
  axisNames : Str × Str × Str := (cs!"X", cs!"Y", cs!"Z")
  axisUnits : Str × Str × Str := (cs!"m", cs!"m", cs!"m")
  zPos : Bool := true
  name : Str := cs!"Default"
  projection : Str := cs!"Unknown"
  datum : Str := cs!"Unknown"
  deriving DecidableEq, Repr

/-- Lines 379-395: effect of one line of the coordinate system section. -/
def crsLine (crs : Crs) (l : Str) : Res Crs := do
  let tokens ← splitQuoted l
  let t0 ← Res.index tokens 0
  if t0 = cs!"ZPOSITIVE" then
    let t1 ← Res.index tokens 1
    pure { crs with zPos := t1 == cs!"Elevation" }
  else if t0 = cs!"PROJECTION" then
    let t1 ← Res.index tokens 1
    pure { crs with projection := t1 }
  else if t0 = cs!"DATUM" then
    let t1 ← Res.index tokens 1
    pure { crs with datum := t1 }
  else if t0 = cs!"NAME" then
    let t1 ← Res.index tokens 1
    pure { crs with name := t1 }
  else pure crs

/-- The loop of `read_CRS`, lines 371-399. -/
def readCrsLoop : Crs → File → Res (Crs × File)
  | _, [] => .throw
  | crs, l :: ls =>
    if startsWith l cs!"END_ORIGINAL_COORDINATE_SYSTEM" then .ok (crs, ls)
    else crsLine crs l >>= fun crs' => readCrsLoop crs' ls

/-- `read_CRS`, lines 363-400. -/
def readCrs (f : File) : Res (Crs × File) :=
  match nextKeyword? cs!"GOCAD_ORIGINAL_COORDINATE_SYSTEM" f with
  | (none, f) => .ok ({}, f)
  | (some _, f) => readCrsLoop {} f

/-- `write_CRS`, lines 402-415. -/
def writeCrs (c : Crs) : List Str :=
  [ cs!"GOCAD_ORIGINAL_COORDINATE_SYSTEM",
    cs!"NAME " ++ writeQuoted c.name,
    cs!"PROJECTION " ++ c.projection,
    cs!"DATUM " ++ c.datum,
    cs!"AXIS_NAME" ++ spaced [c.axisNames.1, c.axisNames.2.1, c.axisNames.2.2],
    cs!"AXIS_UNIT" ++ spaced [c.axisUnits.1, c.axisUnits.2.1, c.axisUnits.2.2],
    cs!"ZPOSITIVE " ++ (if c.zPos then cs!"Elevation" else cs!"Depth"),
    cs!"END_ORIGINAL_COORDINATE_SYSTEM" ]

/-! ## Property header -/

/-- `PropHeaderData`, `gocad_common.hpp` lines 68-85. -/
structure PropHeader (D : Type) where
  names : List Str := []
  ranges : List (Str × Str) := []
  noData : List D := []
  classes : List Str := []
  kinds : List Str := []
  subclasses : List (Str × Str) := []
  esizes : List Nat := []
  units : List Str := []
  deriving DecidableEq, Repr

/-- `keyword_data[attr_id] = split_line[attr_id + 1]` for `attr_id` in `[0, n)`: the first `n` tokens after the keyword; reading
past the last token is undefined behaviour. -/
def takeN : Nat → List Str → Res (List Str)
  | 0, _ => .ok []
  | _ + 1, [] => .ub
  | n + 1, t :: ts => do
    let r ← takeN n ts
    pure (t :: r)

/-- `read_property_keyword_with_one_string`, lines 234-247.  Dropping the first token is the `+ 1`; an empty token list cannot
occur since the line starts with the keyword. -/
def readOneString (kw : Str) (n : Nat) (f : File) : Res (List Str × File) := do
  let (line, f) ← gotoKeyword kw f
  let toks ← splitQuoted line
  let r ← takeN n toks.tail
  pure (r, f)

/-- The loop of lines 258-270.  `LINEARFUNCTION` is followed by two more tokens, which are skipped (`counter += 2`). -/
def takePairs : Nat → List Str → Res (List (Str × Str))
  | 0, _ => .ok []
  | n + 1, a :: b :: ts => do
    let r ← takePairs n (if a = cs!"LINEARFUNCTION" then ts.drop 2 else ts)
    pure ((a, b) :: r)
  | _ + 1, _ => .ub

/-- `read_property_keyword_with_two_strings`, lines 249-271 (plain splitting, quotes are not considered). -/
def readTwoStrings (kw : Str) (n : Nat) (f : File) : Res (List (Str × Str) × File) := do
  let (line, f) ← gotoKeyword kw f
  let r ← takePairs n (split line).tail
  pure (r, f)

/-- `read_property_keyword_with_one_double`, lines 273-285. -/
def readOneDouble (kw : Str) (n : Nat) (f : File) : Res (List D × File) := do
  let (line, f) ← gotoKeyword kw f
  let toks ← takeN n (split line).tail
  let r ← Res.mapM' readDouble toks
  pure (r, f)

/-- `read_property_keyword_with_one_index_t`, lines 287-298. -/
def readOneIndex (kw : Str) (n : Nat) (f : File) : Res (List Nat × File) := do
  let (line, f) ← gotoKeyword kw f
  let toks ← takeN n (split line).tail
  let r ← Res.mapM' readIndex toks
  pure (r, f)

/-- `read_prop_header`, lines 417-461. -/
def readPropHeader (prefix_ : Str) (f : File) : Res (PropHeader D × File) :=
  match nextKeyword? (prefix_ ++ cs!"PROPERTIES") f with
  | (none, f) => .ok ({}, f)
  | (some line, f) => do
    let names := (← splitQuoted line).tail
    let n := names.length
    if n = 0 then pure ({}, f)
    else
      let (ranges, f) ← readTwoStrings (prefix_ ++ cs!"PROP_LEGAL_RANGES") n f
      let (noData, f) ← readOneDouble (prefix_ ++ cs!"NO_DATA_VALUES") n f
      let (classes, f) ← readOneString (prefix_ ++ cs!"PROPERTY_CLASSES") n f
      let (kinds, f) ← readOneString (prefix_ ++ cs!"PROPERTY_KINDS") n f
      let (subclasses, f) ← readTwoStrings (prefix_ ++ cs!"PROPERTY_SUBCLASSES") n f
      let (esizes, f) ← readOneIndex (prefix_ ++ cs!"ESIZES") n f
      let (units, f) ← readOneString (prefix_ ++ cs!"UNITS") n f
      pure ({ names, ranges, noData, classes, kinds, subclasses, esizes, units }, f)

/-- Two tokens per entry. -/
def pairToks : List (Str × Str) → List Str
  | [] => []
  | (a, b) :: r => a :: b :: pairToks r

/-- `write_prop_header`, lines 543-595. -/
def writePropHeader (h : PropHeader D) : List Str :=
  [ cs!"PROPERTIES" ++ spaced (h.names.map writeQuoted),
    cs!"PROP_LEGAL_RANGES" ++ spaced (pairToks h.ranges),
    cs!"NO_DATA_VALUES" ++ spaced (h.noData.map Num.fmt),
    cs!"PROPERTY_CLASSES" ++ spaced (h.classes.map writeQuoted),
    cs!"PROPERTY_KINDS" ++ spaced (h.kinds.map writeQuoted),
    cs!"PROPERTY_SUBCLASSES" ++ spaced (pairToks h.subclasses),
    cs!"ESIZES" ++ spaced (h.esizes.map showNat),
    cs!"UNITS" ++ spaced (h.units.map writeQuoted) ]

/-- `PropClassHeaderData`, `gocad_common.hpp` lines 105-111. -/
structure PropClassHeader where
  name : Str := cs!"Default"
  kind : Str := cs!"Real Number"
  unit : Str := cs!"unitless"
  isZ : Bool := false

/-- `write_property_class_header`, lines 596-609. -/
def writePropClassHeader (h : PropClassHeader) : List Str :=
  [ cs!"PROPERTY_CLASS_HEADER " ++ h.name ++ cs!" {",
    cs!"kind:" ++ h.kind,
    cs!"unit:" ++ h.unit,
    cs!"name:" ++ h.name ] ++ (if h.isZ then [cs!"is_Z: on"] else []) ++ [cs!"}"]

/-! ## Values of the properties on a vertex line -/

/-- Inner loop of `read_properties`, lines 472-485: `e` values for one property.  `rest` are the tokens from
`line_properties_position` on. -/
def readItems : Nat → List Str → Res (List D × List Str)
  | 0, rest => .ok ([], rest)
  | _ + 1, [] => .throw
  | e + 1, t :: rest => do
    let v ← readDouble t
    let (vs, rest) ← readItems e rest
    pure (v :: vs, rest)

/-- `read_properties`, lines 463-487: the values read are appended to the column of each property. -/
def readProperties : List Nat → List (List D) → List Str → Res (List (List D))
  | [], cols, _ => .ok cols
  | _ :: _, [], _ => .ub
  | e :: es, c :: cols, rest => do
    let (vs, rest) ← readItems e rest
    let cols ← readProperties es cols rest
    pure ((c ++ vs) :: cols)

/-! ## TSurf -/

/-- `TSurfData`, `gocad_common.hpp` lines 125-150. -/
structure TSurf (D : Type) where
  offset : Nat := 1
  name : Option Str := none
  crs : Crs := {}
  props : PropHeader D := {}
  points : List (Pt D) := []
  triangles : List (Nat × Nat × Nat) := []
  tfaceTriangles : List Nat := [0]
  tfaceVertices : List Nat := [0]
  bstones : List Nat := []
  borders : List (Nat × Nat) := []
  attrs : List (List D) := []
  deriving DecidableEq, Repr

/-- The coordinates on a vertex line, lines 110-114, 144-148, 219-224: tokens 2, 3, 4, third coordinate multiplied by -1 for
depth. -/
def readPoint (zPos : Bool) (tokens : List Str) : Res (Pt D) := do
  let x ← readDouble (← Res.index tokens 2)
  let y ← readDouble (← Res.index tokens 3)
  let z ← readDouble (← Res.index tokens 4)
  pure ⟨x, y, if zPos then z else Num.neg z⟩

/-- `VRTX`/`PVRTX` in `read_tfaces`, lines 138-152. -/
def tsVrtx (ts : TSurf D) (tokens : List Str) : Res (TSurf D) := do
  let offset ← (if ts.points.isEmpty then do readIndex (← Res.index tokens 1) else pure ts.offset)
  let p ← readPoint ts.crs.zPos tokens
  let attrs ← readProperties ts.props.esizes ts.attrs (tokens.drop 5)
  pure { ts with offset, points := ts.points ++ [p], attrs }

/-- `ATOM`/`PATOM` in `read_tfaces`, lines 153-161. -/
def tsAtom (ts : TSurf D) (tokens : List Str) : Res (TSurf D) := do
  let i ← readIndex (← Res.index tokens 2)
  let p ← Res.at_ ts.points (sub32 i ts.offset)
  let attrs ← readProperties ts.props.esizes ts.attrs (tokens.drop 3)
  pure { ts with points := ts.points ++ [p], attrs }

/-- `TRGL` in `read_tfaces`, lines 162-169. -/
def tsTrgl (ts : TSurf D) (tokens : List Str) : Res (TSurf D) := do
  let a ← readIndex (← Res.index tokens 1)
  let b ← readIndex (← Res.index tokens 2)
  let c ← readIndex (← Res.index tokens 3)
  pure { ts with
    triangles := ts.triangles ++ [(sub32 a ts.offset, sub32 b ts.offset, sub32 c ts.offset)] }

/-- `BSTONE` in `read_tfaces`, lines 170-174. -/
def tsBstone (ts : TSurf D) (tokens : List Str) : Res (TSurf D) := do
  let a ← readIndex (← Res.index tokens 1)
  pure { ts with bstones := ts.bstones ++ [sub32 a ts.offset] }

/-- `BORDER` in `read_tfaces`, lines 175-180. -/
def tsBorder (ts : TSurf D) (tokens : List Str) : Res (TSurf D) := do
  let a ← readIndex (← Res.index tokens 2)
  let b ← readIndex (← Res.index tokens 3)
  pure { ts with borders := ts.borders ++ [(sub32 a ts.offset, sub32 b ts.offset)] }

/-- `TFACE` and `END` in `read_tfaces`, lines 181-191: record the current sizes. -/
def tsClose (ts : TSurf D) : TSurf D :=
  { ts with
    tfaceTriangles := ts.tfaceTriangles ++ [ts.triangles.length],
    tfaceVertices := ts.tfaceVertices ++ [ts.points.length] }

/-- One line of `read_tfaces` that is not `END`: dispatch on the first token, lines 138-186; other keywords are ignored. -/
def tsLine (ts : TSurf D) (kw : Str) (tokens : List Str) : Res (TSurf D) :=
  if kw = cs!"VRTX" ∨ kw = cs!"PVRTX" then tsVrtx ts tokens
  else if kw = cs!"ATOM" ∨ kw = cs!"PATOM" then tsAtom ts tokens
  else if kw = cs!"TRGL" then tsTrgl ts tokens
  else if kw = cs!"BSTONE" then tsBstone ts tokens
  else if kw = cs!"BORDER" then tsBorder ts tokens
  else if kw = cs!"TFACE" then .ok (tsClose ts)
  else .ok ts

/-- The loop of `read_tfaces`, lines 133-197.  A blank line makes `tokens.front()` (line 136) undefined. -/
def readTfacesLoop : TSurf D → File → Res (TSurf D × File)
  | _, [] => .throw
  | ts, l :: ls =>
    match split l with
    | [] => .ub
    | kw :: args =>
      if kw = cs!"END" then .ok (tsClose ts, ls)
      else tsLine ts kw (kw :: args) >>= fun ts' => readTfacesLoop ts' ls

/-- `read_tfaces`, lines 129-197. -/
def readTfaces (ts : TSurf D) (f : File) : Res (TSurf D × File) := do
  let (_, f) ← gotoKeyword cs!"TFACE" f
  readTfacesLoop ts f

/-- `read_tsurf`, lines 618-633.  `ok none` when there is no further TSurf in the file. -/
def readTSurf (f : File) : Res (Option (TSurf D × File)) :=
  match gotoKeyword? cs!"GOCAD TSurf" f with
  | none => .ok none
  | some (_, f) => do
    let (name, f) ← readHeader f
    let (crs, f) ← readCrs f
    let (props, f) ← readPropHeader [] f
    let r ← readTfaces { name, crs, props, attrs := props.names.map (fun _ => []) } f
    pure (some r)

/-! ## PLine -/

/-- `ECurveData`, `gocad_common.hpp` lines 154-161. -/
structure ECurve (D : Type) where
  offset : Nat := 1
  name : Option Str := none
  crs : Crs := {}
  points : List (Pt D) := []
  edges : List (Nat × Nat) := []
  deriving DecidableEq, Repr

/-- `VRTX`/`PVRTX` in `read_ilines`, lines 103-115. -/
def plVrtx (ec : ECurve D) (tokens : List Str) : Res (ECurve D) := do
  let offset ← (if ec.points.isEmpty then do readIndex (← Res.index tokens 1) else pure ec.offset)
  let p ← readPoint ec.crs.zPos tokens
  pure { ec with offset, points := ec.points ++ [p] }

/-- `SEG` in `read_ilines`, lines 116-122. -/
def plSeg (ec : ECurve D) (tokens : List Str) : Res (ECurve D) := do
  let a ← readIndex (← Res.index tokens 1)
  let b ← readIndex (← Res.index tokens 2)
  pure { ec with edges := ec.edges ++ [(sub32 a ec.offset, sub32 b ec.offset)] }

/-- One line of `read_ilines` that is not `END`. -/
def plLine (ec : ECurve D) (kw : Str) (tokens : List Str) : Res (ECurve D) :=
  if kw = cs!"VRTX" ∨ kw = cs!"PVRTX" then plVrtx ec tokens
  else if kw = cs!"SEG" then plSeg ec tokens
  else .ok ec

/-- The loop of `read_ilines`, lines 99-126.  The end of the file ends the loop normally. -/
def readIlinesLoop : ECurve D → File → Res (ECurve D × File)
  | ec, [] => .ok (ec, [])
  | ec, l :: ls =>
    match split l with
    | [] => .ub
    | kw :: args =>
      if kw = cs!"END" then .ok (ec, ls)
      else plLine ec kw (kw :: args) >>= fun ec' => readIlinesLoop ec' ls

/-- `read_ilines`, lines 95-127. -/
def readIlines (ec : ECurve D) (f : File) : Res (ECurve D × File) := do
  let (_, f) ← gotoKeyword cs!"ILINE" f
  readIlinesLoop ec f

/-- `read_ecurve`, lines 635-646. -/
def readECurve (f : File) : Res (Option (ECurve D × File)) :=
  match gotoKeyword? cs!"GOCAD PLine" f with
  | none => .ok none
  | some (_, f) => do
    let (name, f) ← readHeader f
    let (crs, f) ← readCrs f
    let r ← readIlines { name, crs } f
    pure (some r)

/-! ## VSet -/

/-- `VSetData`, `gocad_common.hpp` lines 165-173. -/
structure VSet (D : Type) where
  offset : Nat := 1
  name : Option Str := none
  crs : Crs := {}
  props : PropHeader D := {}
  points : List (Pt D) := []
  attrs : List (List D) := []
  deriving DecidableEq, Repr

/-- A vertex line of `read_VSet_vertices`, lines 214-227. -/
def vsVrtx (vs : VSet D) (tokens : List Str) : Res (VSet D) := do
  let offset ← (if vs.points.isEmpty then do readIndex (← Res.index tokens 1) else pure vs.offset)
  let p ← readPoint vs.crs.zPos tokens
  let attrs ← readProperties vs.props.esizes vs.attrs (tokens.drop 5)
  pure { vs with offset, points := vs.points ++ [p], attrs }

/-- One line that is not `END`. -/
def vsLine (vs : VSet D) (kw : Str) (tokens : List Str) : Res (VSet D) :=
  if kw ≠ cs!"VRTX" ∧ kw ≠ cs!"PVRTX" then .ok vs
  else vsVrtx vs tokens

/-- The `do ... while( getline )` loop of `read_VSet_vertices`, lines 204-231, on the current line and the lines after it. -/
def readVSetLoop : VSet D → File → Res (VSet D × File)
  | _, [] => .throw
  | vs, l :: ls =>
    match split l with
    | [] => .ub
    | kw :: args =>
      if kw = cs!"END" then .ok (vs, ls)
      else vsLine vs kw (kw :: args) >>= fun vs' => readVSetLoop vs' ls

/-- `read_VSet_vertices`, lines 199-232: starts at the first line beginning with `VRTX` or `PVRTX`, which is processed too. -/
def readVSetVertices (vs : VSet D) (f : File) : Res (VSet D × File) := do
  let (l, f) ← gotoKeywords [cs!"VRTX", cs!"PVRTX"] f
  readVSetLoop vs (l :: f)

/-- `read_vs_points`, lines 648-663. -/
def readVSet (f : File) : Res (Option (VSet D × File)) :=
  match gotoKeyword? cs!"GOCAD VSet" f with
  | none => .ok none
  | some (_, f) => do
    let (name, f) ← readHeader f
    let (crs, f) ← readCrs f
    let (props, f) ← readPropHeader [] f
    let r ← readVSetVertices { name, crs, props, attrs := props.names.map (fun _ => []) } f
    pure (some r)

/-! ## Attributes of a mesh -/

/-- A column of an attribute manager: number of items per element, default value, one item list per element. -/
structure Column (D : Type) where
  esize : Nat
  dflt : D
  vals : List (List D)
  deriving DecidableEq, Repr

/-- The vertex attributes of a mesh, by name. -/
abbrev Store (D : Type) := List (Str × Column D)

/-- C++ storage type chosen by `create_attributes`, lines 498-539: `double`, `array<2>`, `array<3>`, or `vector` otherwise. -/
def storageKind (e : Nat) : Nat := if e = 1 ∨ e = 2 ∨ e = 3 then e else 0

/-- `create_points` grows every existing column with its default value. -/
def growStore (nb : Nat) (s : Store D) : Store D :=
  s.map fun (n, c) => (n, { c with vals := c.vals ++ List.replicate (nb - c.vals.length) (List.replicate c.esize c.dflt) })

/-- `AttributeManager::find_or_create_attribute`: an attribute of that name and storage type is reused, otherwise a new one filled
with the default value replaces it. -/
def findOrCreate (s : Store D) (name : Str) (esize : Nat) (dflt : D) (nb : Nat) : Column D :=
  match s.lookup name with
  | some c => if storageKind c.esize = storageKind esize then c
              else ⟨esize, dflt, List.replicate nb (List.replicate esize dflt)⟩
  | none => ⟨esize, dflt, List.replicate nb (List.replicate esize dflt)⟩

/-- Store under a name, replacing what was there. -/
def putColumn (s : Store D) (name : Str) (c : Column D) : Store D :=
  match s with
  | [] => [(name, c)]
  | (n, c') :: r => if n = name then (n, c) :: r else (n, c') :: putColumn r name c

/-- The items `[i * e, i * e + e)` of a column of values. -/
def itemsAt (vals : List D) (e i : Nat) : Res (List D) :=
  Res.mapM' (Res.index vals) (List.range' (i * e) e)

/-- `attribute->set_value( pt_id, ... )` for `pt_id` in `[0, n)`; `pt_id` beyond the mesh is undefined. -/
def setFrom (col : List (List D)) (items : List (List D)) : Res (List (List D)) :=
  if items.length ≤ col.length then .ok (items ++ col.drop items.length) else .ub

/-- Body of the loop of `create_attributes`, lines 495-540 with 300-321, for one property.  `inv` is `inverse_vertex_mapping`
restricted to its first `nb_vertices` entries, `nb` the number of vertices of the mesh. -/
def createAttribute (s : Store D) (name : Str) (esize : Nat) (dflt : D) (vals : List D) (nb : Nat) (inv : List Nat) :
    Res (Store D) := do
  let c := findOrCreate s name esize dflt nb
  let items ← Res.mapM' (itemsAt vals esize) inv
  let new ← setFrom c.vals items
  pure (putColumn s name { c with vals := new })

/-- `create_attributes`, lines 489-541. -/
def createAttributes (nb : Nat) (inv : List Nat) :
    Store D → List Str → List Nat → List D → List (List D) → Res (Store D)
  | s, [], _, _, _ => .ok s
  | s, n :: ns, e :: es, d :: ds, v :: vs => do
    let s ← createAttribute s n e d v nb inv
    createAttributes nb inv s ns es ds vs
  | _, _ :: _, _, _, _ => .ub

end Verif.Gocad
