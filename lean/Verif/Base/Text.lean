import Verif.Base.Outcome

/-!
# Text: lines, tokens, decimal numbers

A line of a file is a `List Char`.  The functions below are the external text helpers of OpenGeode
(`geode/basic/string.hpp`, `geode/basic/file.hpp`) and of the standard library that the readers and writers rely on.  They
are not part of /repo: their behaviour is an assumption recorded in DESIGN.md, section 3.
-/

namespace Verif

/-- A string, as its list of characters. -/
abbrev Str := List Char

/-- `cs!"VRTX"` is the explicit character list `['V', 'R', 'T', 'X']`. -/
macro:max "cs!" s:str : term => do
  let chars := s.getString.toList.toArray.map fun c => Lean.Syntax.mkCharLit c
  `([ $chars,* ])

/-- The blanks at which `geode::string_split` cuts. -/
def isWs (c : Char) : Bool := c == ' ' || c == '\t' || c == '\r' || c == '\n'

/-- `geode::string_split`: the maximal runs of non-blank characters. -/
def split : Str → List Str
  | [] => []
  | c :: cs =>
    if isWs c then split cs
    else
      match cs with
      | [] => [[c]]
      | d :: _ =>
        if isWs d then [c] :: split cs
        else
          match split cs with
          | [] => [[c]]
          | t :: ts => (c :: t) :: ts

/-- A token: not empty and without blanks. -/
def IsTok (t : Str) : Prop := t ≠ [] ∧ ∀ c ∈ t, isWs c = false

instance (t : Str) : Decidable (IsTok t) := by unfold IsTok; infer_instance

/-- `absl::StrJoin( tokens, " " )`. -/
def join : List Str → Str
  | [] => []
  | [t] => t
  | t :: ts => t ++ ' ' :: join ts

/-- Text of tokens each preceded by one blank: what `file << SPACE << x << SPACE << y` writes. -/
def spaced : List Str → Str
  | [] => []
  | t :: ts => ' ' :: t ++ spaced ts

/-- `geode::string_starts_with`. -/
def startsWith (line : Str) (pre : Str) : Bool := pre.isPrefixOf line

/-- `absl::StrReplaceAll( s, { { "\"", "" } } )`. -/
def dropQuotes (s : Str) : Str := s.filter (fun c => c != '"')

/-- `absl::StrContains( s, sub )`. -/
def contains (sub : Str) : Str → Bool
  | [] => sub.isEmpty
  | c :: cs => sub.isPrefixOf (c :: cs) || contains sub cs

/-- `s.find( sub )` followed by dropping everything up to and including the first occurrence. -/
def afterFirst (sub : Str) : Str → Option Str
  | [] => if sub.isEmpty then some [] else none
  | c :: cs => if sub.isPrefixOf (c :: cs) then some ((c :: cs).drop sub.length) else afterFirst sub cs

/-! ## Decimal numbers -/

/-- The decimal digit of `d < 10`. -/
def digitChar (d : Nat) : Char := Char.ofNat (48 + d)

/-- Value of a decimal digit. -/
def digitVal (c : Char) : Option Nat :=
  if 48 ≤ c.toNat ∧ c.toNat ≤ 57 then some (c.toNat - 48) else none

/-- `operator<<( ostream, unsigned )`, with fuel (number of digits at most `n + 1`). -/
def showNatAux : Nat → Nat → Str → Str
  | 0, _, acc => acc
  | fuel + 1, n, acc =>
    if n < 10 then digitChar n :: acc
    else showNatAux fuel (n / 10) (digitChar (n % 10) :: acc)

/-- `operator<<( ostream, unsigned )`. -/
def showNat (n : Nat) : Str := showNatAux (n + 1) n []

/-- Value of a digit string, left to right. -/
def digitsVal : Nat → Str → Option Nat
  | acc, [] => some acc
  | acc, c :: cs =>
    match digitVal c with
    | some d => digitsVal (10 * acc + d) cs
    | none => none

/-- A non-empty digit string. -/
def parseNat (s : Str) : Option Nat :=
  match s with
  | [] => none
  | _ => digitsVal 0 s

/-- Number of values of `geode::index_t` (a 32-bit unsigned integer). -/
def W : Nat := 4294967296

/-- `geode::NO_ID`, the largest `index_t`. -/
def NO_ID : Nat := 4294967295

/-- Without a leading `+`. -/
def dropPlus (s : Str) : Str :=
  match s with
  | [] => []
  | c :: r => if c = '+' then r else c :: r

/-- `geode::string_to_index`: optional `+`, decimal digits, below 2^32 (`absl::SimpleAtoi< uint32_t >`). -/
def parseIndex (s : Str) : Option Nat :=
  match parseNat (dropPlus s) with
  | some n => if n < W then some n else none
  | none => none

/-- `geode::string_to_int`: optional sign, decimal digits, 32-bit range (`absl::SimpleAtoi< int32_t >`). -/
def parseInt (s : Str) : Option Int :=
  match s with
  | '-' :: r =>
    match parseNat r with
    | some n => if n ≤ 2147483648 then some (-(n : Int)) else none
    | none => none
  | '+' :: r =>
    match parseNat r with
    | some n => if n < 2147483648 then some (n : Int) else none
    | none => none
  | r =>
    match parseNat r with
    | some n => if n < 2147483648 then some (n : Int) else none
    | none => none

/-- `operator<<( ostream, int )`. -/
def showInt : Int → Str
  | .ofNat n => showNat n
  | .negSucc n => '-' :: showNat (n + 1)

/-- `a - b` on `index_t`: wraps modulo 2^32. -/
def sub32 (a b : Nat) : Nat := (a + W - b) % W

/-- `string_to_index` as a call that throws. -/
def readIndex (s : Str) : Res Nat := Res.ofParse (parseIndex s)

/-! ## Files -/

/-- The lines still to be read. -/
abbrev File := List Str

/-- `geode::goto_keyword_if_it_exists`: first line starting with the keyword, and the lines after it. -/
def gotoKeyword? (kw : Str) : File → Option (Str × File)
  | [] => none
  | l :: ls => if startsWith l kw then some (l, ls) else gotoKeyword? kw ls

/-- `geode::goto_keyword`: throws at end of file. -/
def gotoKeyword (kw : Str) (f : File) : Res (Str × File) := Res.ofParse (gotoKeyword? kw f)

/-- `geode::goto_keywords`: first line starting with one of the keywords; throws at end of file. -/
def gotoKeywords (kws : List Str) : File → Res (Str × File)
  | [] => .throw
  | l :: ls => if kws.any (startsWith l) then .ok (l, ls) else gotoKeywords kws ls

/-- `geode::check_keyword`: the next line must start with the keyword. -/
def checkKeyword (kw : Str) : File → Res File
  | [] => .throw
  | l :: ls => if startsWith l kw then .ok ls else .throw

/-- `geode::next_keyword_if_it_exists`: looks at the next line only; leaves it in place when it does not match. -/
def nextKeyword? (kw : Str) : File → Option Str × File
  | [] => (none, [])
  | l :: ls => if startsWith l kw then (some l, ls) else (none, l :: ls)

end Verif
