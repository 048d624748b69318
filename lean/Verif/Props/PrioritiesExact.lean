import Verif.Props.Priorities

/-!
# C186: exactly which readers have no priority over each other
-/

namespace Verif.Props.PrioritiesExact

open Verif Verif.Registry Verif.Props.Registry Verif.Props.Priorities

/-- **C186, exactly**: the only pair of readers that nothing decides between is that of the stratigraphic columns. -/
theorem decided_iff (c d : Cls) : Decided c d ↔ ¬ ((c = .skuaInput2 ∧ d = .skuaInput3) ∨ (c = .skuaInput3 ∧ d = .skuaInput2)) := by
  constructor
  · rintro h (⟨rfl, rfl⟩ | ⟨rfl, rfl⟩)
    · exact h cs!"xml" .horizonsStack2 .horizonsStack3 (by decide) (by decide) (by decide) rfl
    · exact h cs!"xml" .horizonsStack3 .horizonsStack2 (by decide) (by decide) (by decide) rfl
  · intro hn e k k' hc hd hcd
    by_cases he : e = cs!"xml"
    · subst he
      have table : ∀ c : Cls, c.base.1 = .input → cs!"xml" ∈ c.extensions → c = .skuaInput2 ∨ c = .skuaInput3 := by
        intro c
        cases c <;> decide
      have h1 := table c (by rw [(found_fits hc).1]) (found_fits hc).2
      have h2 := table d (by rw [(found_fits hd).1]) (found_fits hd).2
      rcases h1 with rfl | rfl <;> rcases h2 with rfl | rfl
      · exact absurd rfl hcd
      · exact absurd (Or.inl ⟨rfl, rfl⟩) hn
      · exact absurd (Or.inr ⟨rfl, rfl⟩) hn
      · exact absurd rfl hcd
    · exact decided_partial he hc hd hcd

/-- Both sides are met. -/
example : Decided .polyTiffInput .geoTiffInput ∧ ¬ Decided .skuaInput2 .skuaInput3 :=
  ⟨(decided_iff _ _).2 (by decide), fun h => (decided_iff _ _).1 h (Or.inl ⟨rfl, rfl⟩)⟩

end Verif.Props.PrioritiesExact
