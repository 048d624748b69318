import Verif.Props.GocadText

/-!
# C13: exactly which lines are split, and which are undefined behaviour
-/

namespace Verif.Props.QuotesExact

open Verif Verif.Gocad Verif.Props.GocadText

/-- The tokens are closed pieces, followed by a quotation that is never closed. -/
def Unclosed (ts : List Str) : Prop := ∃ (items : List Item) (post : List Str), (∀ i ∈ items, i.Ok) ∧ (∀ t ∈ post, t.getLast? ≠ some '"') ∧
  ts = items.flatMap Item.toks ++ ['"'] :: post

theorem after_items (items : List Item) (h : ∀ i ∈ items, i.Ok) {rest : List Str} (hr : mergeQuoted none rest = .ub) :
    mergeQuoted none (items.flatMap Item.toks ++ rest) = .ub := by
  induction items with
  | nil => exact hr
  | cons i is ih =>
    have hi := h i (by simp)
    have ih := ih (fun x hx => h x (by simp [hx]))
    rw [List.flatMap_cons]
    cases i with
    | plain t =>
      simp only [Item.toks, List.cons_append, List.nil_append]
      rw [mergeQuoted, if_neg hi, ih]; rfl
    | quoted ws l =>
      simp only [Item.toks, List.cons_append, List.append_assoc, List.nil_append]
      rw [mergeQuoted, if_pos rfl, mergeQuoted_words _ _ _ _ hi, ih]; rfl

/-- **C13, exactly**: splitting tokens is undefined behaviour exactly when a quotation is not closed, wherever it is after quotations that are. -/
theorem unclosed_iff (ts : List Str) : mergeQuoted none ts = .ub ↔ Unclosed ts := by
  constructor
  · intro h
    obtain ⟨items, hok, rfl | ⟨post, hp, rfl⟩⟩ := cover ts
    · rw [closed_ok_partial items hok] at h
      cases h
    · exact ⟨items, post, hok, hp, rfl⟩
  · rintro ⟨items, post, hok, hp, rfl⟩
    exact after_items items hok (unclosed_is_ub [] post (by simp) hp)

/-- The other tokens are split into the strings they stand for. -/
theorem split_iff (ts r : List Str) : mergeQuoted none ts = .ok r ↔ ∃ items : List Item, (∀ i ∈ items, i.Ok) ∧ ts = items.flatMap Item.toks ∧ r = items.map Item.value := by
  constructor
  · intro h
    obtain ⟨items, hok, rfl | ⟨post, hp, rfl⟩⟩ := cover ts
    · rw [closed_ok_partial items hok] at h
      cases h
      exact ⟨items, hok, rfl, rfl⟩
    · rw [(unclosed_iff _).2 ⟨items, post, hok, hp, rfl⟩] at h
      cases h
  · rintro ⟨items, hok, rfl, rfl⟩
    exact closed_ok_partial items hok

/-- No line is refused: an exception is never raised. -/
theorem never_reported (ts : List Str) : mergeQuoted none ts ≠ .throw := by
  intro h
  obtain ⟨items, hok, rfl | ⟨post, hp, rfl⟩⟩ := cover ts
  · rw [closed_ok_partial items hok] at h
    cases h
  · rw [(unclosed_iff _).2 ⟨items, post, hok, hp, rfl⟩] at h
    cases h

/-- Not vacuous: the second quotation of this line is not closed. -/
example : Unclosed (split cs!"\" square metre\" \" cubic metre") :=
  ⟨[.quoted [cs!"square"] cs!"metre"], [cs!"cubic", cs!"metre"], by simp [Item.Ok], by decide, by decide⟩

end Verif.Props.QuotesExact
