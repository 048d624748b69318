import Verif.Props.Shp
import Verif.Props.Paths
import Verif.Props.LsoCut

/-!
# Exactly when layers are kept, data files are found and cut files are loaded (C69, C124, C130)
-/

set_option linter.unusedSectionVars false

namespace Verif.Props.ExactRest

open Verif Res

/-! ## Layers (C69) -/

/-- The number of components of a section. -/
def size {P : Type} (s : Shp.Section P) : Nat := s.corners.length + s.lines.length + s.surfaces.length

theorem kinds {P : Type} (layers : List (Shp.Layer P)) :
    (layers.filter fun l => l.kind = .point).length + (layers.filter fun l => l.kind = .line).length + (layers.filter fun l => l.kind = .polygon).length +
      (layers.filter fun l => l.kind = .other).length = layers.length := by
  induction layers with
  | nil => rfl
  | cons l ls ih => cases h : l.kind <;> simp [h] <;> omega

/-- **C69, exactly**: a section that is loaded has as many components as there are layers of known kind, hence one for each layer exactly when no layer is
of another kind. -/
theorem layers_kept_iff {P : Type} [DecidableEq P] {tri : List P → List (List Nat)} {layers : List (Shp.Layer P)} {s : Shp.Section P}
    (h : Shp.loadShp tri layers = .ok s) :
    size s + (layers.filter fun l => l.kind = .other).length = layers.length ∧ (size s = layers.length ↔ ∀ l ∈ layers, l.kind ≠ .other) := by
  obtain ⟨h1, h2, h3⟩ := Props.Shp.components h
  have e1 := congrArg List.length h1
  have e2 := congrArg List.length h2
  have e3 := congrArg List.length h3
  simp only [List.length_map] at e1 e2 e3
  have hk := kinds layers
  have e : size s + (layers.filter fun l => l.kind = .other).length = layers.length := by unfold size; omega
  refine ⟨e, ?_⟩
  have : (layers.filter fun l => l.kind = .other) = [] ↔ ∀ l ∈ layers, l.kind ≠ .other := by simp [List.filter_eq_nil_iff]
  rw [← this, ← List.length_eq_zero_iff]
  omega

/-- A layer of another kind leaves its file one component short. -/
example : (match Shp.loadShp (P := Nat) (fun _ => []) [⟨cs!"a", .point, []⟩, ⟨cs!"b", .other, []⟩] with | .ok s => some (size s) | _ => none) = some 1 := by decide

/-! ## Data files (C124) -/

theorem directory_nil {p : Str} : Paths.directory p = [] ↔ '/' ∉ p := by
  constructor
  · intro h
    have := (Props.Paths.path_whole p).1
    rw [h, List.nil_append] at this
    rw [← this]
    exact (Props.Paths.path_whole p).2.2
  · intro h
    have := Props.Paths.absolute_partial h []
    unfold Paths.dataFile at this
    rwa [List.append_nil] at this

/-- **C124, exactly**: the file opened is the one whose name is given exactly when the name of the first file is given without a directory. -/
theorem data_named_iff (filename record : Str) : Paths.dataFile filename record = record ↔ '/' ∉ filename := by
  rw [← directory_nil]
  unfold Paths.dataFile
  exact List.append_left_eq_self

example : Paths.dataFile cs!"v.vo" cs!"/d/v.dat" = cs!"/d/v.dat" ∧ Paths.dataFile cs!"a/v.vo" cs!"/d/v.dat" = cs!"a//d/v.dat" := by decide

/-! ## Cut files (C130) -/

/-- **C130, exactly**: a file cut at the end of a line is loaded exactly when the line `MODEL` is left. -/
theorem cut_loaded_iff {D : Type} [Num D] [LawfulNum D] {m : Lso.Model D} (h : Lso.Loadable m) {sides : Sides.AllSides} {f : File}
    (hf : Lso.saveLso m sides = .ok f) (n : Nat) :
    (∃ L : Lso.Loaded D, Lso.loadLso (f.take n) = .ok L) ↔ ∃ l ∈ f.take n, startsWith l cs!"MODEL" = true := by
  constructor
  · rintro ⟨L, e⟩
    by_contra hn
    refine Props.LsoCut.cut_reported_partial hf (n := n) (eol := true) (fun l hl => ?_) L (by rw [Unfinished.loadLso_true]; exact e)
    cases hs : startsWith l cs!"MODEL" with
    | false => rfl
    | true => exact absurd ⟨l, hl, hs⟩ hn
  · intro hn
    obtain ⟨_, L', _, e, _⟩ := Props.LsoCut.cut_loads h hf hn
    exact ⟨L', e⟩

example : (∃ L : Lso.Loaded Int, Lso.loadLso (Props.LsoCut.twoFile.take 24) = .ok L) ∧ ¬∃ L : Lso.Loaded Int, Lso.loadLso (Props.LsoCut.twoFile.take 23) = .ok L := by
  constructor
  · exact (cut_loaded_iff Props.LsoRoundTrip.twoBlocks_loadable Props.LsoCut.twoFile_saved 24).2 (by decide +kernel)
  · rw [cut_loaded_iff Props.LsoRoundTrip.twoBlocks_loadable Props.LsoCut.twoFile_saved 23]
    decide +kernel

end Verif.Props.ExactRest
