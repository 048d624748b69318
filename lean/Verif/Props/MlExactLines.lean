import Verif.Props.MlLines
import Verif.Props.MlUniques

/-!
# Exactly which surfaces of ML files are related and tied to their lines (C102, C137)
-/

namespace Verif.Props.MlExactLines

open Verif Verif.Props.MlLines Verif.Props.MlUniques Verif.MlLines

/-- **C102, exactly**: when no line is met more than twice, the relations are right exactly when the surface does not have a single line start. -/
theorem relations_right_iff {numbers : List Nat} (hc : ∀ k, numbers.count k ≤ 2) : RelationsRight numbers ↔ numbers.length ≠ 1 := by
  rcases numbers with _ | ⟨a, _ | ⟨b, l⟩⟩
  · refine ⟨fun _ => by simp, fun _ k => ?_⟩
    have e : lineRelations [] = [] := rfl
    rw [e]
    simp
  · exact ⟨fun h => absurd h (single_line_unrelated a).2, fun h => absurd rfl h⟩
  · exact ⟨fun _ => by simp, fun _ => relations_right_partial (by simp) hc⟩

/-- **C137, exactly**: when no line is met more than twice, all the pieces are tied exactly when there is not a single one. -/
theorem pieces_tied_iff {ps : List Piece} (hc : ∀ k, (ps.map Piece.line).count k ≤ 2) : (∀ p ∈ ps, p ∈ tied ps) ↔ ps.length ≠ 1 := by
  rcases ps with _ | ⟨a, _ | ⟨b, l⟩⟩
  · simp
  · have e : tied [a] = [] := rfl
    rw [e]
    simp
  · refine ⟨fun _ => by simp, fun _ p hp => ?_⟩
    exact (pieces_tied_partial (by simp) hc).mem_iff.2 hp

example : RelationsRight [4, 5, 4] := (relations_right_iff (by
  intro k
  by_cases h1 : k = 4
  · subst h1; decide
  · by_cases h2 : k = 5
    · subst h2; decide
    · rw [List.count_eq_zero_of_not_mem (by simp [h1, h2])]; omega)).2 (by decide)

end Verif.Props.MlExactLines
