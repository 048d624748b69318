import Verif.Props.Geos

/-!
# Exactly which properties GEOS exports hold (C73)
-/

namespace Verif.Props.GeosExact

open Verif Verif.Geos Res

variable {D : Type}

/-- The block of the polyhedron has the property with this number of components. -/
def Has (m : Model D) (dim : Nat) (name : Str) (c : Nat × Nat) : Prop :=
  ∃ b a, (m.blocks.find? fun b => b.id = c.1) = some b ∧ (b.attrs.find? fun a => a.name = name) = some a ∧ a.dim = dim

/-- The polyhedra of the solid come from polyhedra of the blocks, and the properties have a value for each. -/
def FromBlocks (m : Model D) (cells : List (Nat × Nat)) : Prop :=
  ∀ c ∈ cells, ∃ b, (m.blocks.find? fun b => b.id = c.1) = some b ∧ ∀ a ∈ b.attrs, c.2 < a.values.length

theorem cellValue_cases {m : Model D} {cells : List (Nat × Nat)} (h : FromBlocks m cells) {c : Nat × Nat} (hc : c ∈ cells) (dim : Nat) (name : Str) :
    (Has m dim name c ∧ ∃ v, cellValue m dim name c = .ok v) ∨ (¬Has m dim name c ∧ cellValue m dim name c = .ub) := by
  obtain ⟨b, hb, hv⟩ := h c hc
  unfold cellValue
  rw [hb, ofParse_some, ok_bind]
  cases ha : b.attrs.find? fun a => a.name = name with
  | none =>
    refine Or.inr ⟨?_, rfl⟩
    rintro ⟨b', a, hb', ha', _⟩
    rw [hb] at hb'
    cases hb'
    rw [ha] at ha'
    cases ha'
  | some a =>
    by_cases hd : a.dim = dim
    · refine Or.inl ⟨⟨b, a, hb, ha, hd⟩, a.values[c.2]'(hv a (List.mem_of_find?_eq_some ha)), ?_⟩
      show (if a.dim = dim then _ else _) = _
      rw [if_pos hd, index_of_lt (hv a (List.mem_of_find?_eq_some ha))]
    · refine Or.inr ⟨?_, if_neg hd⟩
      rintro ⟨b', a', hb', ha', hd'⟩
      rw [hb] at hb'
      cases hb'
      rw [ha] at ha'
      cases ha'
      exact hd hd'

theorem cellValues_cases {m : Model D} (dim : Nat) (name : Str) {cells : List (Nat × Nat)} (h : FromBlocks m cells) :
    ((∀ c ∈ cells, Has m dim name c) ∧ ∃ vs, mapM' (cellValue m dim name) cells = .ok vs) ∨
    ((∃ c ∈ cells, ¬Has m dim name c) ∧ mapM' (cellValue m dim name) cells = .ub) := by
  induction cells with
  | nil => exact Or.inl ⟨by simp, [], rfl⟩
  | cons c cells ih =>
    rw [mapM'_cons]
    rcases cellValue_cases h (List.mem_cons_self ..) dim name with ⟨h1, v, e⟩ | ⟨h1, e⟩
    · rw [e, ok_bind]
      rcases ih fun x hx => h x (by simp [hx]) with ⟨h2, vs, e'⟩ | ⟨⟨x, hx, hn⟩, e'⟩
      · refine Or.inl ⟨fun x hx => ?_, v :: vs, by rw [e']; rfl⟩
        rcases List.mem_cons.1 hx with rfl | hx
        · exact h1
        · exact h2 x hx
      · exact Or.inr ⟨⟨x, by simp [hx], hn⟩, by rw [e']; rfl⟩
    · rw [e]
      exact Or.inr ⟨⟨c, by simp, h1⟩, rfl⟩

/-- **C73, exactly**: a property is refused when it has the name of the attribute of the regions, is undefined behaviour when the block of some polyhedron
has no such property with the number of components asked for, and is exported otherwise. -/
theorem transfer_iff {m : Model D} {cells : List (Nat × Nat)} (h : FromBlocks m cells) (dim : Nat) (name : Str) :
    (transfer m cells dim name = .throw ↔ name = regionName) ∧
    (transfer m cells dim name = .ub ↔ name ≠ regionName ∧ ∃ c ∈ cells, ¬Has m dim name c) ∧
    ((∃ a, transfer m cells dim name = .ok a) ↔ name ≠ regionName ∧ ∀ c ∈ cells, Has m dim name c) := by
  by_cases hn : name = regionName
  · subst hn
    have e : transfer m cells dim regionName = .throw := by
      unfold transfer
      simp [Res.check]
    rw [e]
    simp
  · rcases cellValues_cases dim name h with ⟨h1, vs, e⟩ | ⟨⟨c, hc, hno⟩, e⟩
    · have e' : transfer m cells dim name = .ok ⟨name, dim, vs⟩ := by
        unfold transfer
        rw [e]
        simp [Res.check, hn]
      rw [e']
      refine ⟨by simp [hn], by simpa [hn] using h1, by simpa [hn] using h1⟩
    · have e' : transfer m cells dim name = .ub := by
        unfold transfer
        rw [e]
        simp [Res.check, hn]
      rw [e']
      refine ⟨by simp [hn], ⟨fun _ => ⟨hn, c, hc, hno⟩, fun _ => rfl⟩, ?_⟩
      constructor
      · rintro ⟨a, h'⟩
        cases h'
      · exact fun h' => absurd (h'.2 c hc) hno

/-- One block with a property of one value. -/
example : FromBlocks (D := Int) { blocks := [{ id := 7, nb := 1, attrs := [⟨cs!"p", 1, [[5]]⟩] }] } [(7, 0)] := by
  intro c hc
  rw [List.mem_singleton.1 hc]
  refine ⟨_, rfl, ?_⟩
  intro a ha
  rw [List.mem_singleton.1 ha]
  decide

end Verif.Props.GeosExact
