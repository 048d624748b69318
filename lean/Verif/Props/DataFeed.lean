import Verif.Props.GrdeclUnfinished

/-!
# C132: exactly which Voxet data files do not depend on their last line feed
-/

namespace Verif.Props.DataFeed

open Verif Verif.Props.GrdeclUnfinished

variable {D : Type} [Num D]

/-- **C132, exactly, for data files**: the last line feed matters only in a file of one line, of four words or more: with it the file is refused, and without it the voxet has
properties without values. -/
theorem data_feed_iff {size : Voxet.Ijk} {f : File} :
    (Unfinished.readData false size f : Res (List (Str × List D))) = Voxet.readData size f ↔ ∀ l, f = [l] → (split l).length < 4 := by
  rcases f with _ | ⟨l, _ | ⟨l', f⟩⟩
  · refine iff_of_true rfl ?_
    intro _ e
    cases e
  · rw [one_line.1, one_line.2]
    by_cases h : 4 ≤ (split l).length
    · rw [if_pos h]
      constructor
      · intro e; cases e
      · intro e; have := e l rfl; omega
    · rw [if_neg h]
      refine iff_of_true rfl ?_
      rintro _ ⟨⟩
      omega
  · refine iff_of_true (readData_feed (by simp)) ?_
    intro _ e
    cases e

/-- Not vacuous, on both sides. -/
example : (∀ l, [cs!"a b c"] = [l] → (split l).length < 4) ∧ ¬ ∀ l, [cs!"a b c d"] = [l] → (split l).length < 4 :=
  ⟨by rintro _ ⟨⟩; decide, fun h => absurd (h _ rfl) (by decide)⟩

end Verif.Props.DataFeed
