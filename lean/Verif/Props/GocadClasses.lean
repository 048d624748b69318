import Verif.Lemmas.GocadMesh

/-!
# The property classes of GOCAD files

The writers announce the class of each property in `PROPERTY_CLASSES`, where names of several words are quoted, and describe each class in a section
`PROPERTY_CLASS_HEADER name { ... }`.
-/

set_option linter.unusedSectionVars false

namespace Verif.Props.GocadClasses

open Verif Verif.Gocad Verif.GocadMesh Res

variable {D : Type} [Num D]

/-- A line `key:value`. -/
def entry (l : Str) : Str × Str := (l.takeWhile (· != ':'), (l.dropWhile (· != ':')).drop 1)

/-- The name of the class whose section begins at the line. -/
def opened (l : Str) : Option Str :=
  match splitQuoted l with
  | .ok [kw, n, brace] => if kw = cs!"PROPERTY_CLASS_HEADER" ∧ brace = cs!"{" then some n else none
  | _ => none

/-- The sections of classes of a file: the name of the class and the entries up to the closing brace. -/
def sections : Option (Str × List (Str × Str)) → File → List (Str × List (Str × Str))
  | _, [] => []
  | none, l :: ls => sections ((opened l).map fun n => (n, [])) ls
  | some (n, es), l :: ls => if l = cs!"}" then (n, es) :: sections none ls else sections (some (n, es ++ [entry l])) ls

/-- The classes of a file with these properties: one for each coordinate, the third marked as a depth, and one for each property. -/
def classes (names : List Str) : List (Str × List (Str × Str)) :=
  [(cs!"X", [(cs!"kind", cs!"X"), (cs!"unit", cs!"m"), (cs!"name", cs!"X")]),
   (cs!"Y", [(cs!"kind", cs!"Y"), (cs!"unit", cs!"m"), (cs!"name", cs!"Y")]),
   (cs!"Z", [(cs!"kind", cs!"Z"), (cs!"unit", cs!"m"), (cs!"name", cs!"Z"), (cs!"is_Z", cs!" on")])] ++
  names.map fun n => (n, [(cs!"kind", cs!"Real Number"), (cs!"unit", cs!"unitless"), (cs!"name", n)])

/-- **The full property**: the properties part of a file has the sections of its classes, for all the names that the property header keeps (`GoodName`,
see `GocadText.names_survive`). -/
def ClassesDescribed (D : Type) [Num D] : Prop := ∀ names : List Str, GoodNames names → sections none (writeProps D names) = classes names

theorem opened_of {l : Str} {kw : Str} {ts : List Str} (h : splitQuoted l = .ok (kw :: ts)) (hk : kw ≠ cs!"PROPERTY_CLASS_HEADER") : opened l = none := by
  unfold opened
  rw [h]
  split
  · rename_i e
    simp only [Res.ok.injEq, List.cons.injEq] at e
    rw [if_neg (by rw [← e.1]; exact fun hh => hk hh.1)]
  · rfl

/-- Lines whose first word is another keyword open no section. -/
theorem opened_kw {kw : Str} (h : IsTok kw) (hq : kw ≠ ['"']) (hk : kw ≠ cs!"PROPERTY_CLASS_HEADER") (xs : List Str) : opened (kw ++ spaced xs) = none := by
  have e : splitQuoted (kw ++ spaced xs) = (mergeQuoted none (xs.flatMap split)).bind fun r => .ok (kw :: r) := by
    unfold splitQuoted
    rw [split_kw_spaced' h, mergeQuoted, if_neg hq]
    rfl
  cases e2 : mergeQuoted none (xs.flatMap split) with
  | ok r => exact opened_of (by rw [e, e2]; rfl) hk
  | throw => unfold opened; rw [e, e2]; rfl
  | ub => unfold opened; rw [e, e2]; rfl
  | diverge => unfold opened; rw [e, e2]; rfl

theorem sections_skip {ls : File} (h : ∀ l ∈ ls, opened l = none) (rest : File) : sections none (ls ++ rest) = sections none rest := by
  induction ls with
  | nil => rfl
  | cons l ls ih =>
    rw [List.cons_append, sections, h l (by simp), Option.map_none]
    exact ih fun x hx => h x (by simp [hx])

theorem sections_header (h : PropHeader D) (rest : File) : sections none (writePropHeader h ++ rest) = sections none rest := by
  refine sections_skip ?_ rest
  unfold writePropHeader
  intro l hl
  simp only [List.mem_cons, List.not_mem_nil, or_false] at hl
  rcases hl with rfl | rfl | rfl | rfl | rfl | rfl | rfl | rfl <;> exact opened_kw (by decide) (by decide) (by decide) _

theorem entry_key {k : Str} (hk : ':' ∉ k) (v : Str) : entry (k ++ ':' :: v) = (k, v) := by
  have h : ∀ k : Str, ':' ∉ k → (k ++ ':' :: v).takeWhile (· != ':') = k ∧ (k ++ ':' :: v).dropWhile (· != ':') = ':' :: v := by
    intro k
    induction k with
    | nil => intro _; simp
    | cons c k ih =>
      intro hc
      simp only [List.mem_cons, not_or] at hc
      have hne : (c != ':') = true := by simpa using Ne.symm hc.1
      simp [hne, ih hc.2]
  unfold entry
  rw [(h k hk).1, (h k hk).2]
  rfl

theorem opened_class {n : Str} (hn : IsTok n) (hq : n ≠ ['"']) : opened (cs!"PROPERTY_CLASS_HEADER " ++ n ++ cs!" {") = some n := by
  have e : cs!"PROPERTY_CLASS_HEADER " ++ n ++ cs!" {" = cs!"PROPERTY_CLASS_HEADER" ++ spaced [n, cs!"{"] := by simp [spaced]
  unfold opened
  rw [e, splitQuoted_toks (by decide) (by
    intro t ht
    simp only [List.mem_cons, List.not_mem_nil, or_false] at ht
    rcases ht with rfl | rfl
    · exact ⟨hn, hq⟩
    · exact ⟨by decide, by decide⟩) (by decide)]
  rfl

/-- The section of one class. -/
theorem sections_class {h : PropClassHeader} (hn : IsTok h.name) (hq : h.name ≠ ['"']) (rest : File) :
    sections none (writePropClassHeader h ++ rest) =
      (h.name, [(cs!"kind", h.kind), (cs!"unit", h.unit), (cs!"name", h.name)] ++ (if h.isZ then [(cs!"is_Z", cs!" on")] else [])) :: sections none rest := by
  have e1 : entry (cs!"kind:" ++ h.kind) = (cs!"kind", h.kind) := entry_key (k := cs!"kind") (by decide) _
  have e2 : entry (cs!"unit:" ++ h.unit) = (cs!"unit", h.unit) := entry_key (k := cs!"unit") (by decide) _
  have e3 : entry (cs!"name:" ++ h.name) = (cs!"name", h.name) := entry_key (k := cs!"name") (by decide) _
  have n1 : ¬cs!"kind:" ++ h.kind = cs!"}" := by intro hh; cases hh
  have n2 : ¬cs!"unit:" ++ h.unit = cs!"}" := by intro hh; cases hh
  have n3 : ¬cs!"name:" ++ h.name = cs!"}" := by intro hh; cases hh
  have hf : ∀ (a b c d : Str) (z : File), opened a = some h.name → ¬b = cs!"}" → ¬c = cs!"}" → ¬d = cs!"}" → (z = [] ∨ z = [cs!"is_Z: on"]) →
      sections none ([a, b, c, d] ++ z ++ [cs!"}"] ++ rest) = (h.name, [entry b, entry c, entry d] ++ z.map entry) :: sections none rest := by
    intro a b c d z ha hb hc hd hz
    rcases hz with rfl | rfl <;> simp [sections, ha, hb, hc, hd]
  unfold writePropClassHeader
  rw [hf _ _ _ _ _ (opened_class hn hq) n1 n2 n3 (by cases h.isZ <;> simp), e1, e2, e3]
  cases h.isZ <;> rfl

/-- **Each class announced has a section with its name** when the names are words. -/
theorem classes_described_partial {names : List Str} (h : ∀ n ∈ names, IsTok n ∧ n ≠ ['"']) : sections none (writeProps D names) = classes names := by
  have hc : ∀ names : List Str, (∀ n ∈ names, IsTok n ∧ n ≠ ['"']) →
      sections none ((names.map fun n => ({ name := n } : PropClassHeader)).flatMap writePropClassHeader) =
      names.map fun n => (n, [(cs!"kind", cs!"Real Number"), (cs!"unit", cs!"unitless"), (cs!"name", n)]) := by
    intro names
    induction names with
    | nil => intro _; rfl
    | cons n ns ih =>
      intro hn
      rw [List.map_cons, List.flatMap_cons, sections_class (hn n (by simp)).1 (hn n (by simp)).2, ih fun x hx => hn x (by simp [hx])]
      rfl
  have ha : sections none ((xyzHeaders ++ names.map fun n => ({ name := n } : PropClassHeader)).flatMap writePropClassHeader) = classes names := by
    unfold xyzHeaders
    simp only [List.cons_append, List.nil_append, List.flatMap_cons]
    rw [sections_class (by decide) (by decide), sections_class (by decide) (by decide), sections_class (by decide) (by decide), hc names h]
    rfl
  unfold writeProps
  split
  · exact ha
  · rw [sections_header]; exact ha

/-- **A class with a name of two words is announced and has no section of its name**: the name is quoted in the first place and not in the second. -/
theorem two_words : splitQuoted (cs!"PROPERTY_CLASSES" ++ spaced ([cs!"rock type"].map writeQuoted)) = .ok [cs!"PROPERTY_CLASSES", cs!"rock type"] ∧
    (sections none (writeProps Int [cs!"rock type"])).map Prod.fst = [cs!"X", cs!"Y", cs!"Z"] := by
  decide +kernel

theorem classes_not_described : ¬ClassesDescribed Int := by
  intro h
  have := h [cs!"rock type"] (by intro n hn; rw [List.mem_singleton.1 hn]; decide)
  rw [show classes [cs!"rock type"] = classes [] ++ [(cs!"rock type", [(cs!"kind", cs!"Real Number"), (cs!"unit", cs!"unitless"), (cs!"name", cs!"rock type")])] from rfl] at this
  have h2 := congrArg (List.map Prod.fst) this
  rw [two_words.2] at h2
  exact absurd h2 (by decide)

/-- **A property with the name of a coordinate** gives two sections of one name, with different kinds. -/
theorem coordinate_name : ∃ a b, (cs!"X", a) ∈ sections none (writeProps Int [cs!"X"]) ∧ (cs!"X", b) ∈ sections none (writeProps Int [cs!"X"]) ∧ a ≠ b :=
  ⟨[(cs!"kind", cs!"X"), (cs!"unit", cs!"m"), (cs!"name", cs!"X")], [(cs!"kind", cs!"Real Number"), (cs!"unit", cs!"unitless"), (cs!"name", cs!"X")],
    by decide +kernel, by decide +kernel, by decide⟩

/-- **The columns of the property header**: each of the eight lines has one entry for each property, or two for the ranges and subclasses.  Every property
is a real number without unit, with one value, no range and the no-data value of the library. -/
theorem header_columns [LawfulNum D] {names : List Str} (hn : names ≠ []) (h : GoodNames names) :
    ((writeProps D names).take 8).map splitQuoted =
      [.ok (cs!"PROPERTIES" :: names),
       .ok (cs!"PROP_LEGAL_RANGES" :: names.flatMap fun _ => [cs!"**none**", cs!"**none**"]),
       .ok (cs!"NO_DATA_VALUES" :: names.map fun _ => Num.fmt (Num.noData : D)),
       .ok (cs!"PROPERTY_CLASSES" :: names),
       .ok (cs!"PROPERTY_KINDS" :: names.map fun _ => cs!"Real Number"),
       .ok (cs!"PROPERTY_SUBCLASSES" :: names.flatMap fun _ => [cs!"QUANTITY", cs!"Float"]),
       .ok (cs!"ESIZES" :: names.map fun _ => cs!"1"),
       .ok (cs!"UNITS" :: names.map fun _ => cs!"unitless")] := by
  have hp : ∀ (a b : Str), pairToks (names.map fun _ => (a, b)) = names.flatMap fun _ => [a, b] := by
    intro a b
    clear hn h
    induction names with
    | nil => rfl
    | cons n ns ih => rw [List.map_cons, List.flatMap_cons, ← ih]; rfl
  have ht : ∀ {a b : Str}, IsTok a ∧ a ≠ ['"'] → IsTok b ∧ b ≠ ['"'] → ∀ t ∈ names.flatMap fun _ => [a, b], IsTok t ∧ t ≠ ['"'] := by
    intro a b ha hb t ht
    obtain ⟨_, _, h2⟩ := List.mem_flatMap.1 ht
    rcases List.mem_cons.1 h2 with rfl | h2
    · exact ha
    · rw [List.mem_singleton.1 h2]; exact hb
  have hg : ∀ {w : Str}, GoodName w → ∀ t ∈ names.map fun _ => w, GoodName t := by
    intro w hw t ht
    obtain ⟨_, _, rfl⟩ := List.mem_map.1 ht
    exact hw
  have h2 := splitQuoted_toks (kw := cs!"PROP_LEGAL_RANGES") (by decide) (ht (a := cs!"**none**") (b := cs!"**none**") (by decide) (by decide)) (by decide)
  have h3 := splitQuoted_toks (kw := cs!"NO_DATA_VALUES") (ts := names.map fun _ => Num.fmt (Num.noData : D)) (by decide) (by
    intro t ht
    obtain ⟨_, _, rfl⟩ := List.mem_map.1 ht
    exact ⟨LawfulNum.fmt_tok _, fun e => LawfulNum.fmt_noquote (Num.noData : D) (by rw [e]; decide)⟩) (by decide)
  have h5 := splitQuoted_kw_names (kw := cs!"PROPERTY_KINDS") (by decide) (by decide) (hg (w := cs!"Real Number") (by unfold GoodName; decide))
  have h6 := splitQuoted_toks (kw := cs!"PROPERTY_SUBCLASSES") (by decide) (ht (a := cs!"QUANTITY") (b := cs!"Float") (by decide) (by decide)) (by decide)
  have h7 := splitQuoted_toks (kw := cs!"ESIZES") (ts := names.map fun _ => cs!"1") (by decide) (by
    intro t ht
    obtain ⟨_, _, rfl⟩ := List.mem_map.1 ht
    decide) (by decide)
  have h8 := splitQuoted_kw_names (kw := cs!"UNITS") (by decide) (by decide) (hg (w := cs!"unitless") (by unfold GoodName; decide))
  unfold writeProps
  rw [if_neg (by simpa using hn)]
  have e : ∀ rest : List Str, ((writePropHeader (propHeaderOf names : PropHeader D)) ++ rest).take 8 = writePropHeader (propHeaderOf names : PropHeader D) := fun _ => rfl
  rw [e]
  unfold writePropHeader propHeaderOf
  simp only [List.map_cons, List.map_nil, hp, splitQuoted_kw_names (kw := cs!"PROPERTIES") (by decide) (by decide) h,
    splitQuoted_kw_names (kw := cs!"PROPERTY_CLASSES") (by decide) (by decide) h]
  rw [h2, h5, h6, h8, List.map_map, List.map_map, show (names.map (Num.fmt ∘ fun _ => (Num.noData : D))) = names.map fun _ => Num.fmt (Num.noData : D) from rfl,
    show names.map (showNat ∘ fun _ => 1) = names.map fun _ => cs!"1" from rfl, h3, h7]

/-- Without property there is no header. -/
theorem no_header : ∀ l ∈ writeProps D [], startsWith l cs!"PROPERTIES" = false := by
  have e : writeProps D [] = writeProps Int [] := rfl
  rw [e]
  decide +kernel

example : (sections none (writeProps Int [cs!"rock"])).length = 4 := by decide +kernel

end Verif.Props.GocadClasses
