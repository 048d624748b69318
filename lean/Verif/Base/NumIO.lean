import Verif.Lemmas.Text

/-!
# Floating point numbers, abstractly

`double` is an arbitrary type `D` together with the operations the readers and writers apply to it.  Nothing is assumed of the
arithmetic; the only laws (`LawfulNum`) relate writing and reading of one number.  See DESIGN.md, section 3.
-/

namespace Verif

/-- The operations on `double` used by the text readers and writers. -/
class Num (D : Type) where
  /-- `geode::string_to_double`; `none` means that it throws. -/
  parse : Str → Option D
  /-- `file << d` (six significant digits). -/
  fmt : D → Str
  /-- What is read back from `fmt d`. -/
  round : D → D
  /-- `d * -1.` -/
  neg : D → D
  /-- `static_cast< float >( d )`, applied by `AttributeBase::generic_value`. -/
  castF : D → D
  /-- The literal `0.` -/
  zero : D
  /-- The literal `-99999.`, the default no-data value of the writers. -/
  noData : D

/-- What is assumed of number formatting. -/
class LawfulNum (D : Type) [Num D] : Prop where
  parse_fmt : ∀ d : D, Num.parse (Num.fmt d) = some (Num.round d)
  fmt_tok : ∀ d : D, IsTok (Num.fmt d)
  fmt_noquote : ∀ d : D, '"' ∉ Num.fmt d
  neg_neg : ∀ d : D, Num.neg (Num.neg d) = d

/-- `string_to_double` as a call that throws. -/
def readDouble {D : Type} [Num D] (s : Str) : Res D := Res.ofParse (Num.parse s)

@[simp] theorem readDouble_fmt {D : Type} [Num D] [LawfulNum D] (d : D) :
    readDouble (Num.fmt d) = .ok (Num.round d) := by
  simp [readDouble, LawfulNum.parse_fmt]

/-- A point of the 3D space. -/
structure Pt (D : Type) where
  x : D
  y : D
  z : D
  deriving DecidableEq, Repr

/-- The point read back from a written point. -/
def Pt.round {D : Type} [Num D] (p : Pt D) : Pt D := ⟨Num.round p.x, Num.round p.y, Num.round p.z⟩

/-- The tokens written for a point (`Point3D::string()`). -/
def Pt.toks {D : Type} [Num D] (p : Pt D) : List Str := [Num.fmt p.x, Num.fmt p.y, Num.fmt p.z]

/-! Integers as numbers, for the examples: written in decimal and read back exactly. -/

/-- An integer literal with optional minus sign. -/
def parseZ (s : Str) : Option Int :=
  match s with
  | [] => none
  | c :: r =>
    if c = '-' then (parseNat r).map (fun n => -(n : Int))
    else (parseNat (c :: r)).map (fun n => (n : Int))

instance : Num Int where
  parse := parseZ
  fmt := showInt
  round := id
  neg := Int.neg
  castF := id
  zero := 0
  noData := -99999

theorem parseZ_showInt (z : Int) : parseZ (showInt z) = some z := by
  cases z with
  | ofNat n =>
    obtain ⟨d, r, hd, e⟩ := showNat_cons n
    have hp := parseNat_showNat n
    have f := digitChar_facts hd
    rw [showInt, e] at *
    simp [parseZ, f.2.2.2, hp]
  | negSucc n =>
    simp [parseZ, showInt, parseNat_showNat]
    omega

instance : LawfulNum Int where
  parse_fmt := parseZ_showInt
  fmt_tok := isTok_showInt
  fmt_noquote := by
    intro z h
    cases z with
    | ofNat n => exact quote_not_mem_showNat n h
    | negSucc n =>
      rcases List.mem_cons.1 h with h | h
      · exact absurd h (by decide)
      · exact quote_not_mem_showNat _ h
  neg_neg := fun d => Int.neg_neg d

end Verif
