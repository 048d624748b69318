import Verif.Base.Text

/-!
# SKUA stratigraphic columns

Model of `/repo/src/geode/geosciences_io/model/internal/horizons_stack_skua_input.cpp`.  The XML document is the tree that pugixml gives.
`repair_horizon_stack_if_possible`, which is called last, is in another library: the model stops before it.
-/

namespace Verif.Skua

open Verif

/-- A node of an XML tree. -/
inductive Node where
  | elem (tag : Str) (attrs : List (Str × Str)) (children : List Node)
  | text (s : Str)

/-- Children of a node; a null node has none. -/
def Node.kids : Option Node → List Node
  | some (.elem _ _ cs) => cs
  | _ => []

/-- Elements among the children with a given tag, `xml_node::children( name )`. -/
def childrenOf (n : Option Node) (tag : Str) : List Node :=
  (Node.kids n).filter fun c => match c with | .elem t _ _ => t = tag | .text _ => false

/-- `xml_node::child( name )`: the first one, or a null node. -/
def childOf (n : Option Node) (tag : Str) : Option Node := (childrenOf n tag).head?

/-- The text of the first child that is text. -/
def firstText : List Node → Str
  | [] => []
  | .text s :: _ => s
  | .elem _ _ _ :: cs => firstText cs

/-- `xml_node::child_value()`: empty when there is no text or for a null node. -/
def childValue (n : Option Node) : Str := firstText (Node.kids n)

/-- `xml_node::attribute( name ).value()`: empty when the attribute is missing. -/
def attrValue (n : Option Node) (name : Str) : Str :=
  match n with
  | some (.elem _ as _) => (as.lookup name).getD []
  | _ => []

/-- The white space of `absl::ascii_isspace`. -/
def isSpace (c : Char) : Bool := c == ' ' || c == '\t' || c == '\n' || c == '\r' || c.toNat == 11 || c.toNat == 12

/-- `absl::StripAsciiWhitespace`. -/
def strip (s : Str) : Str := ((s.dropWhile isSpace).reverse.dropWhile isSpace).reverse

/-- `absl::SimpleAtob`. -/
def atob (s : Str) : Option Bool :=
  let l := s.map Char.toLower
  if l = cs!"true" ∨ l = cs!"t" ∨ l = cs!"yes" ∨ l = cs!"y" ∨ l = cs!"1" then some true
  else if l = cs!"false" ∨ l = cs!"f" ∨ l = cs!"no" ∨ l = cs!"n" ∨ l = cs!"0" then some false
  else none

/-- `Horizon::CONTACT_TYPE`; new horizons are conformal. -/
inductive Contact where
  | conformal | erosion | baselap | discontinuity
  deriving DecidableEq, Repr

/-- `HorizonsStack` with its relations: pairs of the name of a horizon and the rank of a unit.  Horizons have distinct names (`name_map`). -/
structure Stack where
  name : Str := []
  units : List Str := []
  horizons : List (Str × Contact) := []
  above : List (Str × Nat) := []
  under : List (Str × Nat) := []
  deriving DecidableEq

/-- `add_horizon` unless the name is known, lines 82-88 and 113-119. -/
def addHorizon (hs : List (Str × Contact)) (n : Str) : List (Str × Contact) :=
  if hs.any (fun h => h.1 = n) then hs else hs ++ [(n, .conformal)]

/-- The contact of a horizon after a structural relation: `first` when it was conformal, lines 96-105 and 127-136. -/
def touch (first : Contact) (hs : List (Str × Contact)) (n : Str) : List (Str × Contact) :=
  hs.map fun h => if h.1 = n then (h.1, if h.2 = .conformal then first else .discontinuity) else h

/-- One `top`, lines 77-106. -/
def readTop (u : Nat) (s : Stack) (n : Node) : Stack :=
  let name := strip (childValue (childOf (some n) cs!"name"))
  let relation := strip (childValue (childOf (some n) cs!"relation"))
  let s := { s with horizons := addHorizon s.horizons name, above := s.above ++ [(name, u)] }
  if relation = cs!"structural" then { s with horizons := touch .erosion s.horizons name } else s

/-- One `base`, lines 107-138. -/
def readBase (u : Nat) (s : Stack) (n : Node) : Stack :=
  let name := strip (childValue (childOf (some n) cs!"name"))
  let relation := strip (childValue (childOf (some n) cs!"relation"))
  let s := { s with horizons := addHorizon s.horizons name, under := s.under ++ [(name, u)] }
  if relation = cs!"structural" then { s with horizons := touch .baselap s.horizons name } else s

/-- One `unit`, lines 70-139. -/
def readUnit (s : Stack) (n : Node) : Stack :=
  let u := s.units.length
  let s := { s with units := s.units ++ [strip (childValue (childOf (some n) cs!"name"))] }
  let s := (childrenOf (some n) cs!"top").foldl (readTop u) s
  (childrenOf (some n) cs!"base").foldl (readBase u) s

/-- `read_file`, `horizons_stack_skua_input.cpp` lines 56-143.  `document` is `none` when pugixml cannot parse the file. -/
def loadSkua (document : Option Node) : Res Stack := do
  let doc ← Res.ofParse document
  let root := childOf (childOf (some doc) cs!"UserObjects") cs!"LocalStratigraphicColumn"
  let units := childOf root cs!"units"
  let _ ← Res.ofParse (atob (attrValue units cs!"use_base_names"))
  pure ((childrenOf units cs!"unit").foldl readUnit { name := strip (childValue (childOf root cs!"name")) })

/-- `is_loadable`, lines 183-193: whether a line starts with the tag after one blank. -/
def isLoadable (f : File) : Bool := (gotoKeyword? cs!" <LocalStratigraphicColumn" f).isSome

end Verif.Skua
