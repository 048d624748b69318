import Verif.Model.Registry

/-!
# Readers and writers are found by the extension of the file

`Reachable c`: for each of its extensions the factory of its kind gives the class `c`.
-/

namespace Verif.Props.Registry

open Verif Verif.Registry

/-- Whatever the order of the classes registered, a factory has each key once. -/
theorem entry_once {l : List Entry} (h : (l.map fun x => (x.way, x.kind, x.ext)).Nodup) (e : Entry) :
    ((addEntry l e).map fun x => (x.way, x.kind, x.ext)).Nodup := by
  unfold addEntry
  split
  · exact h
  · next hn =>
    rw [List.map_append, List.nodup_append]
    refine ⟨h, by simp, ?_⟩
    intro a ha b hb
    simp only [List.map_cons, List.map_nil, List.mem_singleton] at hb
    subst hb
    rintro rfl
    obtain ⟨x, hx, hx'⟩ := List.mem_map.1 ha
    apply hn
    rw [List.any_eq_true]
    refine ⟨x, hx, ?_⟩
    simp only [Prod.mk.injEq] at hx'
    simp [hx']

/-- No two classes of the library have the same extension in a factory: nothing registered is ignored. -/
theorem nothing_ignored : store = entries := by decide

/-- The class found for an extension is of the kind asked for and has that extension: for all extensions. -/
theorem found_fits {way : Way} {kind : Kind} {ext : Str} {c : Cls} (h : create way kind ext = some c) : c.base = (way, kind) ∧ ext ∈ c.extensions := by
  unfold create at h
  rw [Option.map_eq_some_iff] at h
  obtain ⟨x, hx, rfl⟩ := h
  have hm := List.mem_of_find?_eq_some hx
  have hp := List.find?_some hx
  simp only [Bool.and_eq_true, decide_eq_true_eq] at hp
  obtain ⟨⟨rfl, rfl⟩, rfl⟩ := hp
  have hall : ∀ x ∈ store, x.cls.base = (x.way, x.kind) ∧ x.ext ∈ x.cls.extensions := by decide
  exact hall x hm

/-- A class is used for all the files of its extensions. -/
def Reachable (c : Cls) : Prop := ∀ e ∈ c.extensions, create c.base.1 c.base.2 e = some c

instance (c : Cls) : Decidable (Reachable c) := inferInstanceAs (Decidable (∀ e ∈ c.extensions, _))

/-- "Every reader and writer is used for the files of its extensions" is false. -/
theorem not_all_reachable : ¬∀ c, Reachable c := by
  intro h
  exact absurd (h .stratigraphicLsoInput) (by decide)

/-- All of them but the reader of stratigraphic models are used.  (Full statement: every class.) -/
theorem reachable_partial (c : Cls) (h : c ≠ .stratigraphicLsoInput) : Reachable c := by
  cases c <;> first | exact absurd rfl h | decide

/-- No file of any extension is ever given to the reader of stratigraphic models, or read as a stratigraphic model. -/
theorem stratigraphic_never (way : Way) (kind : Kind) (ext : Str) : create way kind ext ≠ some .stratigraphicLsoInput ∧ create way .stratigraphicModel ext = none := by
  have hall : ∀ x ∈ store, x.cls ≠ .stratigraphicLsoInput ∧ x.kind ≠ .stratigraphicModel := by decide
  refine ⟨?_, ?_⟩
  · intro h
    unfold create at h
    rw [Option.map_eq_some_iff] at h
    obtain ⟨x, hx, hc⟩ := h
    exact (hall x (List.mem_of_find?_eq_some hx)).1 hc
  · unfold create
    rw [Option.map_eq_none_iff, List.find?_eq_none]
    intro x hx
    simp [(hall x hx).2]

/-- The formats read, for each kind of object. -/
def readFormats : Kind → List Str
  | .triangulatedSurface => [cs!"ts"]
  | .polygonalSurface => [cs!"dem", cs!"tif", cs!"tiff"]
  | .edgedCurve => [cs!"dat", cs!"dev", cs!"pl", cs!"txt", cs!"wl"]
  | .lightRegularGrid2 => [cs!"tif", cs!"tiff"]
  | .regularGrid => [cs!"vo"]
  | .hybridSolid => [cs!"grdecl"]
  | .pointSet => [cs!"vs"]
  | .structuralModel => [cs!"lso", cs!"ml"]
  | .section => [cs!"shp", cs!"shz"]
  | .horizonsStack2 => [cs!"xml"]
  | .horizonsStack3 => [cs!"xml"]
  | _ => []

/-- The formats written. -/
def writtenFormats : Kind → List Str
  | .triangulatedSurface => [cs!"ts"]
  | .tetrahedralSolid => [cs!"fem"]
  | .edgedCurve => [cs!"pl"]
  | .pointSet => [cs!"vs"]
  | .structuralModel => [cs!"lso", cs!"ml"]
  | .brep => [cs!"fem", cs!"ml"]
  | _ => []

theorem created_iff {way : Way} {kind : Kind} {ext : Str} : (create way kind ext).isSome = true ↔ ∃ x ∈ store, x.way = way ∧ x.kind = kind ∧ x.ext = ext := by
  unfold create
  rw [Option.isSome_map, List.find?_isSome]
  simp only [Bool.and_eq_true, decide_eq_true_eq, and_assoc]

/-- A file is read as an object of a kind if and only if its extension is one of the formats of the kind, and likewise for files written. -/
theorem formats_iff (kind : Kind) (ext : Str) : ((create .input kind ext).isSome = true ↔ ext ∈ readFormats kind) ∧
    ((create .output kind ext).isSome = true ↔ ext ∈ writtenFormats kind) := by
  have h1 : ∀ x ∈ store, x.way = .input → x.ext ∈ readFormats x.kind := by decide
  have h2 : ∀ x ∈ store, x.way = .output → x.ext ∈ writtenFormats x.kind := by decide
  refine ⟨⟨fun h => ?_, fun h => ?_⟩, fun h => ?_, fun h => ?_⟩
  · obtain ⟨x, hx, hw, rfl, rfl⟩ := created_iff.1 h
    exact h1 x hx hw
  · have : ∀ e ∈ readFormats kind, (create .input kind e).isSome = true := by cases kind <;> decide
    exact this ext h
  · obtain ⟨x, hx, hw, rfl, rfl⟩ := created_iff.1 h
    exact h2 x hx hw
  · have : ∀ e ∈ writtenFormats kind, (create .output kind e).isSome = true := by cases kind <;> decide
    exact this ext h

example : create .input .edgedCurve cs!"dev" = some .wellDevInput ∧ create .input .edgedCurve cs!"ts" = none := by decide

/-! ## Files written can be read -/

/-- A file written for an object of the kind can be read as an object of the kind. -/
def ReadBack (kind : Kind) (ext : Str) : Prop := (create .output kind ext).isSome → (create .input kind ext).isSome

/-- "Every format written can be read as the same kind of object" is false: a `.fem` file of a solid. -/
theorem not_all_read_back : ¬∀ kind ext, ReadBack kind ext := by
  intro h
  exact absurd (h .tetrahedralSolid cs!"fem" (by decide)) (by decide)

/-- It holds for all formats but `.fem`, and for all kinds but boundary representations.  (Full statement: all kinds and extensions.) -/
theorem read_back_partial (kind : Kind) (ext : Str) (h1 : ext ≠ cs!"fem") (h2 : kind ≠ .brep) : ReadBack kind ext := by
  intro h
  have hall : ∀ x ∈ store, x.way = .output → x.ext ≠ cs!"fem" → x.kind ≠ .brep → (create .input x.kind x.ext).isSome := by decide
  rw [Option.isSome_iff_exists] at h
  obtain ⟨c, hc⟩ := h
  unfold create at hc
  rw [Option.map_eq_some_iff] at hc
  obtain ⟨x, hx, _⟩ := hc
  have hp := List.find?_some hx
  simp only [Bool.and_eq_true, decide_eq_true_eq] at hp
  obtain ⟨⟨hw, rfl⟩, rfl⟩ := hp
  exact hall x (List.mem_of_find?_eq_some hx) hw h1 h2

/-- Nothing written for a boundary representation, and no `.fem` file, is read by this library. -/
theorem never_read_back (kind : Kind) (ext : Str) : create .input .brep ext = none ∧ create .input kind cs!"fem" = none := by
  have hall : ∀ x ∈ store, x.way = .input → x.kind ≠ .brep ∧ x.ext ≠ cs!"fem" := by decide
  unfold create
  refine ⟨?_, ?_⟩ <;> rw [Option.map_eq_none_iff, List.find?_eq_none] <;> intro x hx hc <;> simp only [Bool.and_eq_true, decide_eq_true_eq] at hc
  · exact (hall x hx hc.1.1).1 hc.1.2
  · exact (hall x hx hc.1.1).2 hc.2

example : ReadBack .pointSet cs!"vs" ∧ (create .output .pointSet cs!"vs").isSome = true := by
  refine ⟨read_back_partial _ _ (by decide) (by decide), by decide⟩

end Verif.Props.Registry
