import Verif.Props.Skua

/-!
# SKUA stratigraphic columns as they are written

A column, its text as an XML tree with anything else between its elements, and what is loaded from it (C50, C72).  The spec does not use the functions that look
for the children of a node.
-/

namespace Verif.Props.SkuaColumns

open Verif Verif.Skua Verif.Props.Skua Res

/-- A name with blanks around it. -/
structure Padded where
  before : Str
  word : Str
  after : Str

/-- The blanks are blanks, and the word has none at its ends. -/
structure Padded.Good (p : Padded) : Prop where
  before : ∀ c ∈ p.before, c ∈ blanks
  after : ∀ c ∈ p.after, c ∈ blanks
  first : ∀ c ∈ p.word.head?, c ∉ blanks
  last : ∀ c ∈ p.word.getLast?, c ∉ blanks

def Padded.text (p : Padded) : Str := p.before ++ p.word ++ p.after

/-- What is written in a node besides what the reader looks for: text, comments and other elements. -/
inductive Other where
  | text (s : Str)
  | elem (tag : Str) (attrs : List (Str × Str)) (children : List Node)

def Other.node : Other → Node
  | .text s => .text s
  | .elem t as cs => .elem t as cs

/-- The other element has none of the tags. -/
def Other.Foreign (tags : List Str) : Other → Prop
  | .text _ => True
  | .elem t _ _ => t ∉ tags

/-- A list of things, with other nodes before each one and after the last one. -/
structure Mixed (A : Type) where
  items : List (List Other × A)
  rest : List Other

def Mixed.nodes {A : Type} (m : Mixed A) (f : A → Node) : List Node := m.items.flatMap (fun x => x.1.map Other.node ++ [f x.2]) ++ m.rest.map Other.node

def Mixed.things {A : Type} (m : Mixed A) : List A := m.items.map Prod.snd

def Mixed.Foreign {A : Type} (m : Mixed A) (tags : List Str) : Prop := (∀ x ∈ m.items, ∀ o ∈ x.1, o.Foreign tags) ∧ ∀ o ∈ m.rest, o.Foreign tags

/-- An element that only has a text. -/
def named (tag : Str) (p : Padded) : Node := .elem tag [] [.text p.text]

/-- A top or a base: its name and its relation, in this order, and other things. -/
structure WBound where
  head : List Other
  name : Padded
  mid : List Other
  relation : Padded
  tail : List Other

def WBound.node (tag : Str) (b : WBound) : Node :=
  .elem tag [] (b.head.map Other.node ++ [named cs!"name" b.name] ++ b.mid.map Other.node ++ [named cs!"relation" b.relation] ++ b.tail.map Other.node)

structure WBound.Good (b : WBound) : Prop where
  name : b.name.Good
  relation : b.relation.Good
  foreign : ∀ o ∈ b.head ++ b.mid ++ b.tail, o.Foreign [cs!"name", cs!"relation"]

/-- What the bound says. -/
def WBound.bound (b : WBound) : Bound := ⟨b.name.word, decide (b.relation.word = cs!"structural")⟩

/-- The parts of a unit. -/
inductive Part where
  | name (p : Padded)
  | top (b : WBound)
  | base (b : WBound)

def Part.node : Part → Node
  | .name p => named cs!"name" p
  | .top b => b.node cs!"top"
  | .base b => b.node cs!"base"

def Part.Good : Part → Prop
  | .name p => p.Good
  | .top b => b.Good
  | .base b => b.Good

def Part.names : Part → List Str
  | .name p => [p.word]
  | _ => []

def Part.tops : Part → List Bound
  | .top b => [b.bound]
  | _ => []

def Part.bases : Part → List Bound
  | .base b => [b.bound]
  | _ => []

/-- A unit: its parts in any order, with its attributes. -/
structure WUnit where
  attrs : List (Str × Str)
  parts : Mixed Part

def WUnit.node (u : WUnit) : Node := .elem cs!"unit" u.attrs (u.parts.nodes Part.node)

structure WUnit.Good (u : WUnit) : Prop where
  parts : ∀ p ∈ u.parts.things, p.Good
  foreign : u.parts.Foreign [cs!"name", cs!"top", cs!"base"]

/-- What the unit says: its first name, its tops and its bases in the order of the file. -/
def WUnit.unit (u : WUnit) : Unit' := ⟨(u.parts.things.flatMap Part.names).headD [], u.parts.things.flatMap Part.tops, u.parts.things.flatMap Part.bases⟩

/-- A column: its name, the truth value of `use_base_names` and its units. -/
structure WColumn where
  docHead : List Other
  objectsHead : List Other
  columnHead : List Other
  name : Padded
  mid : List Other
  value : Str
  units : Mixed WUnit
  columnTail : List Other
  objectsTail : List Other
  docTail : List Other

def WColumn.document (c : WColumn) : Node :=
  .elem [] [] (c.docHead.map Other.node ++ [.elem cs!"UserObjects" [] (c.objectsHead.map Other.node ++ [.elem cs!"LocalStratigraphicColumn" []
    (c.columnHead.map Other.node ++ [named cs!"name" c.name] ++ c.mid.map Other.node ++ [.elem cs!"units" [(cs!"use_base_names", c.value)] (c.units.nodes WUnit.node)] ++
      c.columnTail.map Other.node)] ++ c.objectsTail.map Other.node)] ++ c.docTail.map Other.node)

structure WColumn.Good (c : WColumn) : Prop where
  doc : ∀ o ∈ c.docHead ++ c.docTail, o.Foreign [cs!"UserObjects"]
  objects : ∀ o ∈ c.objectsHead ++ c.objectsTail, o.Foreign [cs!"LocalStratigraphicColumn"]
  column : ∀ o ∈ c.columnHead ++ c.mid ++ c.columnTail, o.Foreign [cs!"name", cs!"units"]
  name : c.name.Good
  value : c.value.map Char.toLower ∈ truthWords
  units : ∀ u ∈ c.units.things, u.Good
  foreign : c.units.Foreign [cs!"unit"]

/-! ## Looking for children -/

/-- Whether a node is an element with a tag. -/
def hasTag (tag : Str) : Node → Bool
  | .elem t _ _ => t = tag
  | .text _ => false

theorem childrenOf_elem (t : Str) (as : List (Str × Str)) (cs : List Node) (tag : Str) : childrenOf (some (.elem t as cs)) tag = cs.filter (hasTag tag) := by
  unfold childrenOf Node.kids
  exact List.filter_congr fun c _ => by cases c <;> rfl

theorem others_none {tags : List Str} {tag : Str} (ht : tag ∈ tags) : ∀ {os : List Other}, (∀ o ∈ os, o.Foreign tags) → (os.map Other.node).filter (hasTag tag) = []
  | [], _ => rfl
  | o :: os, h => by
    have h1 : hasTag tag o.node = false := by
      have := h o (by simp)
      cases o with
      | text s => rfl
      | elem t as cs =>
        simp only [Other.Foreign] at this
        simp only [Other.node, hasTag, decide_eq_false_iff_not]
        rintro rfl
        exact this ht
    rw [List.map_cons, List.filter_cons, h1]
    exact others_none ht fun x hx => h x (by simp [hx])

theorem mixed_children {A : Type} {m : Mixed A} {tags : List Str} {tag : Str} (ht : tag ∈ tags) (h : m.Foreign tags) (f : A → Node) :
    (m.nodes f).filter (hasTag tag) = (m.things.map f).filter (hasTag tag) := by
  obtain ⟨items, rest⟩ := m
  unfold Mixed.nodes Mixed.things
  rw [List.filter_append, others_none ht h.2, List.append_nil]
  have h1 : ∀ x ∈ items, ∀ o ∈ x.1, o.Foreign tags := h.1
  clear h
  simp only
  induction items with
  | nil => rfl
  | cons x items ih =>
    rw [List.flatMap_cons, List.filter_append, ih fun y hy => h1 y (by simp [hy]), List.filter_append, others_none ht (h1 x (by simp)), List.nil_append, List.map_cons, List.map_cons,
      ← List.filter_append]
    rfl

theorem strip_text {p : Padded} (h : p.Good) : strip p.text = p.word := strip_blanks h.before h.after h.first h.last

theorem named_value {tag : Str} {p : Padded} (h : p.Good) : strip (childValue (some (named tag p))) = p.word := strip_text h

theorem bound_said {b : WBound} (h : b.Good) (tag : Str) : boundOf (b.node tag) = b.bound := by
  have f1 : ∀ o ∈ b.head, o.Foreign [cs!"name", cs!"relation"] := fun o ho => h.foreign o (by simp [ho])
  have f2 : ∀ o ∈ b.mid, o.Foreign [cs!"name", cs!"relation"] := fun o ho => h.foreign o (by simp [ho])
  have f3 : ∀ o ∈ b.tail, o.Foreign [cs!"name", cs!"relation"] := fun o ho => h.foreign o (by simp [ho])
  have n : childOf (some (b.node tag)) cs!"name" = some (named cs!"name" b.name) := by
    unfold childOf WBound.node
    rw [childrenOf_elem]
    simp only [List.filter_append, others_none (tag := cs!"name") (by decide) f1, others_none (tag := cs!"name") (by decide) f2, others_none (tag := cs!"name") (by decide) f3]
    rfl
  have r : childOf (some (b.node tag)) cs!"relation" = some (named cs!"relation" b.relation) := by
    unfold childOf WBound.node
    rw [childrenOf_elem]
    simp only [List.filter_append, others_none (tag := cs!"relation") (by decide) f1, others_none (tag := cs!"relation") (by decide) f2,
      others_none (tag := cs!"relation") (by decide) f3]
    rfl
  unfold boundOf WBound.bound
  rw [n, r, named_value h.name, named_value h.relation]

theorem unit_said {u : WUnit} (h : u.Good) : unitOf u.node = u.unit := by
  have hp := h.parts
  have names : ((childOf (some u.node) cs!"name").map fun n => strip (childValue (some n))).getD [] = (u.parts.things.flatMap Part.names).headD [] := by
    unfold childOf WUnit.node
    rw [childrenOf_elem, mixed_children (by decide) h.foreign]
    generalize u.parts.things = l at hp
    induction l with
    | nil => rfl
    | cons p l ih =>
      cases p with
      | name p => exact named_value (hp (.name p) (by simp))
      | top b => exact ih fun x hx => hp x (by simp [hx])
      | base b => exact ih fun x hx => hp x (by simp [hx])
  have tops : (childrenOf (some u.node) cs!"top").map boundOf = u.parts.things.flatMap Part.tops := by
    unfold WUnit.node
    rw [childrenOf_elem, mixed_children (by decide) h.foreign]
    generalize u.parts.things = l at hp
    induction l with
    | nil => rfl
    | cons p l ih =>
      have ih := ih fun x hx => hp x (by simp [hx])
      cases p with
      | name p => exact ih
      | top b => exact congrArg₂ List.cons (bound_said (hp (.top b) (by simp)) _) ih
      | base b => exact ih
  have bases : (childrenOf (some u.node) cs!"base").map boundOf = u.parts.things.flatMap Part.bases := by
    unfold WUnit.node
    rw [childrenOf_elem, mixed_children (by decide) h.foreign]
    generalize u.parts.things = l at hp
    induction l with
    | nil => rfl
    | cons p l ih =>
      have ih := ih fun x hx => hp x (by simp [hx])
      cases p with
      | name p => exact ih
      | top b => exact ih
      | base b => exact congrArg₂ List.cons (bound_said (hp (.base b) (by simp)) _) ih
  unfold unitOf WUnit.unit
  rw [tops, bases, ← names]
  cases childOf (some u.node) cs!"name" <;> rfl

theorem column_found {c : WColumn} (h : c.Good) : ∃ col, childOf (childOf (some c.document) cs!"UserObjects") cs!"LocalStratigraphicColumn" = some col ∧
    childOf (some col) cs!"name" = some (named cs!"name" c.name) ∧
    childOf (some col) cs!"units" = some (.elem cs!"units" [(cs!"use_base_names", c.value)] (c.units.nodes WUnit.node)) := by
  have d1 : ∀ o ∈ c.docHead, o.Foreign [cs!"UserObjects"] := fun o ho => h.doc o (by simp [ho])
  have d2 : ∀ o ∈ c.docTail, o.Foreign [cs!"UserObjects"] := fun o ho => h.doc o (by simp [ho])
  have o1 : ∀ o ∈ c.objectsHead, o.Foreign [cs!"LocalStratigraphicColumn"] := fun o ho => h.objects o (by simp [ho])
  have o2 : ∀ o ∈ c.objectsTail, o.Foreign [cs!"LocalStratigraphicColumn"] := fun o ho => h.objects o (by simp [ho])
  have c1 : ∀ o ∈ c.columnHead, o.Foreign [cs!"name", cs!"units"] := fun o ho => h.column o (by simp [ho])
  have c2 : ∀ o ∈ c.mid, o.Foreign [cs!"name", cs!"units"] := fun o ho => h.column o (by simp [ho])
  have c3 : ∀ o ∈ c.columnTail, o.Foreign [cs!"name", cs!"units"] := fun o ho => h.column o (by simp [ho])
  refine ⟨.elem cs!"LocalStratigraphicColumn" [] (c.columnHead.map Other.node ++ [named cs!"name" c.name] ++ c.mid.map Other.node ++
    [.elem cs!"units" [(cs!"use_base_names", c.value)] (c.units.nodes WUnit.node)] ++ c.columnTail.map Other.node), ?_, ?_, ?_⟩
  · unfold childOf WColumn.document
    rw [childrenOf_elem]
    simp only [List.filter_append, others_none (tag := cs!"UserObjects") (by decide) d1, others_none (tag := cs!"UserObjects") (by decide) d2]
    simp only [List.nil_append, List.append_nil]
    rw [List.filter_cons_of_pos (by rfl)]
    simp only [List.filter_nil, List.head?_cons]
    rw [childrenOf_elem]
    simp only [List.filter_append, others_none (tag := cs!"LocalStratigraphicColumn") (by decide) o1, others_none (tag := cs!"LocalStratigraphicColumn") (by decide) o2]
    simp only [List.nil_append, List.append_nil]
    rw [List.filter_cons_of_pos (by rfl)]
    rfl
  · unfold childOf
    rw [childrenOf_elem]
    simp only [List.filter_append, others_none (tag := cs!"name") (by decide) c1, others_none (tag := cs!"name") (by decide) c2, others_none (tag := cs!"name") (by decide) c3]
    rfl
  · unfold childOf
    rw [childrenOf_elem]
    simp only [List.filter_append, others_none (tag := cs!"units") (by decide) c1, others_none (tag := cs!"units") (by decide) c2, others_none (tag := cs!"units") (by decide) c3]
    rfl

/-- Every column loads, with its name, its units and what they say, whatever else is in the file. -/
theorem column_loads {c : WColumn} (h : c.Good) : ∃ s, loadSkua (some c.document) = .ok s ∧ s.name = c.name.word ∧ Says (c.units.things.map WUnit.unit) s := by
  obtain ⟨col, hcol, hname, hunits⟩ := column_found h
  have hl : ∃ s, loadSkua (some c.document) = .ok s := (read_words c.document).2 (by rw [hcol, hunits]; exact h.value)
  obtain ⟨s, hs⟩ := hl
  have hsay := stack_says hs
  have e : (unitNodes c.document).map unitOf = c.units.things.map WUnit.unit := by
    unfold unitNodes
    rw [hcol, hunits, childrenOf_elem, mixed_children (by decide) h.foreign]
    have hu := h.units
    generalize c.units.things = l at hu
    induction l with
    | nil => rfl
    | cons u l ih => exact congrArg₂ List.cons (unit_said (hu u (by simp))) (ih fun x hx => hu x (by simp [hx]))
  rw [e] at hsay
  refine ⟨s, hs, ?_, hsay⟩
  unfold loadSkua at hs
  obtain ⟨d, e1, h1⟩ := bind_eq_ok.1 hs
  cases e1
  obtain ⟨b, e2, h2⟩ := bind_eq_ok.1 h1
  have h3 := Res.ok.inj h2
  rw [← h3, hcol, hname, (units_ok _ [] [] _ ⟨by simp, by simp, by simp⟩).2.1]
  exact named_value h.name

/-! Non-vacuity. -/

def plain (s : Str) : Padded := ⟨cs!" ", s, cs!"\n"⟩

def wbound (n r : Str) : WBound := ⟨[.text cs!" "], plain n, [.elem cs!"color" [] []], plain r, []⟩

/-- Two units with other elements, and the second one written with its base before its top. -/
def twoUnits : WColumn where
  docHead := [.text cs!"\n"]
  objectsHead := [.elem cs!"Other" [] [.elem cs!"LocalStratigraphicColumn" [] []]]
  columnHead := [.elem cs!"classification_in_GUI" [] []]
  name := plain cs!"col"
  mid := [.text cs!" "]
  value := cs!"False"
  units := ⟨[([.text cs!" "], ⟨[(cs!"id", cs!"1")], ⟨[([], .name (plain cs!"A")), ([.elem cs!"color" [] []], .base (wbound cs!"h" cs!"conformable"))], [.text cs!" "]⟩⟩),
    ([], ⟨[], ⟨[([], .base (wbound cs!"k" cs!"structural")), ([], .top (wbound cs!"h" cs!"conformable")), ([], .name (plain cs!"B"))], []⟩⟩)], [.elem cs!"note" [] []]⟩
  columnTail := []
  objectsTail := []
  docTail := []

example : loadSkua (some twoUnits.document) =
    .ok { name := cs!"col", units := [cs!"A", cs!"B"], horizons := [(cs!"h", .conformal), (cs!"k", .baselap)], above := [(cs!"h", 1)], under := [(cs!"h", 0), (cs!"k", 1)] } := by
  decide +kernel

example : twoUnits.units.things.map WUnit.unit = [⟨cs!"A", [], [⟨cs!"h", false⟩]⟩, ⟨cs!"B", [⟨cs!"h", false⟩], [⟨cs!"k", true⟩]⟩] := by decide +kernel

end Verif.Props.SkuaColumns
