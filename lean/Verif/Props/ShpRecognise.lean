import Verif.Props.Shp

/-!
# Shapefiles that are recognised
-/

namespace Verif.Props.ShpRecognise

open Verif Verif.Shp Verif.Props.Shp

variable {P : Type} [DecidableEq P]

/-- The section has a corner, a line or a surface. -/
def Something (s : Section P) : Prop := s.corners ≠ [] ∨ s.lines ≠ [] ∨ s.surfaces ≠ []

/-- Recognition says whether something is loaded. -/
def Tells (tri : List P → List (List Nat)) (layers : List (Layer P)) : Prop :=
  isLoadableShp layers = true ↔ ∃ s, loadShp tri layers = .ok s ∧ Something s

/-- Something is loaded exactly when a layer has points, polylines or polygons. -/
theorem something_iff {tri : List P → List (List Nat)} {layers : List (Layer P)} {s : Section P} (h : loadShp tri layers = .ok s) :
    Something s ↔ ∃ l ∈ layers, l.kind ≠ .other := by
  obtain ⟨h1, h2, h3⟩ := components h
  have key : ∀ {A : Type} {xs : List (Str × A)} {k : Kind}, xs.map Prod.fst = (layers.filter fun l => l.kind = k).map Layer.name →
      (xs ≠ [] ↔ ∃ l ∈ layers, l.kind = k) := by
    intro A xs k e
    have hl : xs.length = (layers.filter fun l => l.kind = k).length := by simpa using congrArg List.length e
    rw [← List.length_pos_iff, hl, List.length_pos_iff_exists_mem]
    simp
  unfold Something
  rw [key h1, key h2, key h3]
  constructor
  · rintro (⟨l, hl, e⟩ | ⟨l, hl, e⟩ | ⟨l, hl, e⟩) <;> exact ⟨l, hl, by rw [e]; decide⟩
  · rintro ⟨l, hl, e⟩
    cases hk : l.kind with
    | point => exact Or.inl ⟨l, hl, hk⟩
    | line => exact Or.inr (Or.inl ⟨l, hl, hk⟩)
    | polygon => exact Or.inr (Or.inr ⟨l, hl, hk⟩)
    | other => exact absurd hk e

/-- **C189.** For the files that load, recognition is right when a layer, if there are any, has points, polylines or polygons. -/
theorem tells_partial {tri : List P → List (List Nat)} {layers : List (Layer P)} {s : Section P} (h : loadShp tri layers = .ok s) :
    Tells tri layers ↔ (layers ≠ [] → ∃ l ∈ layers, l.kind ≠ .other) := by
  have e : isLoadableShp layers = true ↔ layers ≠ [] := by simp [isLoadableShp]
  have e' : (∃ s, loadShp tri layers = .ok s ∧ Something s) ↔ ∃ l ∈ layers, l.kind ≠ .other := by
    constructor
    · rintro ⟨s', h', hs⟩
      exact (something_iff h').1 hs
    · intro hl
      exact ⟨s, h, (something_iff h).2 hl⟩
  unfold Tells
  rw [e, e']
  constructor
  · exact fun i => i.1
  · exact fun i => ⟨i, fun ⟨l, hl, _⟩ => List.ne_nil_of_mem hl⟩

/-- A file that is not recognised gives an empty section, without an exception. -/
theorem not_recognised {tri : List P → List (List Nat)} {layers : List (Layer P)} (h : isLoadableShp layers = false) : loadShp tri layers = .ok {} := by
  have : layers = [] := by simpa [isLoadableShp] using h
  rw [this]
  rfl

/-- Files with layers of other types only, of which there may be any number, are recognised and give an empty section. -/
theorem recognised_empty (tri : List P → List (List Nat)) {layers : List (Layer P)} (hne : layers ≠ []) (h : ∀ l ∈ layers, l.kind = .other) :
    isLoadableShp layers = true ∧ loadShp tri layers = .ok {} ∧ ¬Tells tri layers := by
  have hl : loadShp tri layers = .ok {} := by
    clear hne
    induction layers with
    | nil => rfl
    | cons l ls ih =>
      have := unknown_layer_skipped tri [] ls l (h l List.mem_cons_self)
      rw [List.nil_append, List.nil_append] at this
      rw [this]
      exact ih fun a ha => h a (List.mem_cons_of_mem _ ha)
  refine ⟨by simpa [isLoadableShp] using hne, hl, ?_⟩
  rw [tells_partial hl]
  intro h'
  obtain ⟨l, hl, e⟩ := h' hne
  exact e (h l hl)

/-- Recognition does not say whether something is loaded: a layer of an unknown type, and a point layer with a feature that has no geometry. -/
theorem does_not_tell : ¬∀ layers : List (Layer (Int × Int)), Tells (fun _ => []) layers := by
  intro h
  exact (recognised_empty (fun _ => []) (by simp) (by simp)).2.2 (h [⟨cs!"z", .other, []⟩])

/-- See `does_not_tell`: the second file is recognised and refused. -/
theorem recognised_refused : isLoadableShp [(⟨cs!"p", .point, [none]⟩ : Layer (Int × Int))] = true ∧
    loadShp (fun _ => []) [(⟨cs!"p", .point, [none]⟩ : Layer (Int × Int))] = .throw := ⟨by decide, by decide⟩

/-- Not vacuous: a file with two layers loads, and is recognised. -/
example : Tells (fun _ => []) [(⟨cs!"p", .point, [some (.point (1, 2))]⟩ : Layer (Int × Int)), ⟨cs!"z", .other, []⟩] :=
  (tells_partial (s := ⟨[(cs!"p", ⟨[(1, 2)], []⟩)], [], [], ⟨1, [(⟨.corner, 0, 0⟩, 0)]⟩⟩) (by decide)).2 fun _ => ⟨_, List.mem_cons_self, by decide⟩

end Verif.Props.ShpRecognise
