import Verif.Props.GocadClasses

/-!
# Which property classes of GOCAD files are described, exactly (C114)
-/

set_option linter.unusedSectionVars false

namespace Verif.Props.ClassesExact

open Verif Verif.Gocad Verif.GocadMesh Verif.Props.GocadClasses Res

variable {D : Type} [Num D]

theorem join_words (w : Str) (ws : List Str) : join (w :: ws) = w ++ spaced ws := by
  induction ws generalizing w with
  | nil => simp [join, spaced]
  | cons v vs ih => rw [join, ih v, spaced, List.cons_append]; simp

theorem spaced_end (ws : List Str) (t : Str) : spaced ws ++ ' ' :: t = spaced (ws ++ [t]) := by
  induction ws with
  | nil => simp [spaced]
  | cons w ws ih => simp [spaced, ← ih]

/-- The lines of a class whose name is two words or more hold no section. -/
theorem sections_words {n : Str} (hg : GoodName n) (ht : ¬IsTok n) (rest : File) :
    sections none (writePropClassHeader { name := n } ++ rest) = sections none rest := by
  obtain ⟨h1, h2, h3⟩ := hg
  obtain ⟨w, ws, hs⟩ := List.exists_cons_of_ne_nil h1
  have hn : n = w ++ spaced ws := by rw [← h2, hs, join_words]
  have hw : IsTok w := isTok_of_mem_split (s := n) (by rw [hs]; simp)
  have hws : ∀ t ∈ ws, IsTok t := fun t h => isTok_of_mem_split (s := n) (by rw [hs]; simp [h])
  have hq : ∀ t ∈ w :: ws, t ≠ ['"'] := by
    rintro t hm rfl
    refine h3 ?_
    rw [hn]
    rcases List.mem_cons.1 hm with e | e
    · rw [← e]; simp
    · refine List.mem_append_right _ ?_
      clear hn hs hws hm
      induction ws with
      | nil => simp at e
      | cons v vs ih =>
        rw [spaced]
        rcases List.mem_cons.1 e with e | e
        · rw [← e]; simp
        · exact List.mem_append_right _ (ih e)
  have hne : ws ≠ [] := by
    rintro rfl
    exact ht (by rw [hn]; simpa [spaced] using hw)
  obtain ⟨v, vs, rfl⟩ := List.exists_cons_of_ne_nil hne
  refine sections_skip ?_ rest
  intro l hl
  simp only [writePropClassHeader, List.mem_append, List.mem_cons, List.not_mem_nil, or_false, Bool.false_eq_true, if_false] at hl
  rcases hl with (rfl | rfl | rfl | rfl) | rfl
  · have e : cs!"PROPERTY_CLASS_HEADER " ++ n ++ cs!" {" = cs!"PROPERTY_CLASS_HEADER" ++ spaced (w :: v :: (vs ++ [cs!"{"])) := by
      have : spaced (w :: v :: (vs ++ [cs!"{"])) = ' ' :: (n ++ cs!" {") := by
        have e2 := spaced_end (w :: v :: vs) cs!"{"
        rw [List.cons_append, List.cons_append] at e2
        rw [← e2, hn, spaced]
        simp
      rw [this]
      simp
    rw [e]
    unfold opened
    rw [splitQuoted_toks (by decide) (by
      intro t hm
      simp only [List.mem_cons, List.mem_append, List.not_mem_nil, or_false] at hm
      rcases hm with rfl | rfl | hm | rfl
      · exact ⟨hw, hq _ (by simp)⟩
      · exact ⟨hws _ (by simp), hq _ (by simp)⟩
      · exact ⟨hws _ (by simp [hm]), hq _ (by simp [hm])⟩
      · exact ⟨by decide, by decide⟩) (by decide)]
    cases vs <;> rfl
  · decide +kernel
  · decide +kernel
  · show opened (cs!"name:" ++ n) = none
    rw [hn, ← List.append_assoc]
    refine opened_kw ⟨by simp, ?_⟩ ?_ ?_ _
    · intro c hc
      rcases List.mem_append.1 hc with hc | hc
      · exact (show ∀ c ∈ cs!"name:", isWs c = false by decide) c hc
      · exact hw.2 c hc
    · intro e
      cases e
    · intro e
      cases e
  · decide +kernel

/-- **C114, what is described**: the coordinates and the properties whose names are one word, and no other. -/
theorem described {names : List Str} (h : GoodNames names) : sections none (writeProps D names) = classes (names.filter fun n => decide (IsTok n)) := by
  have hc : ∀ names : List Str, GoodNames names →
      sections none ((names.map fun n => ({ name := n } : PropClassHeader)).flatMap writePropClassHeader) =
      (names.filter fun n => decide (IsTok n)).map fun n => (n, [(cs!"kind", cs!"Real Number"), (cs!"unit", cs!"unitless"), (cs!"name", n)]) := by
    intro names
    induction names with
    | nil => intro _; rfl
    | cons n ns ih =>
      intro hn
      have hg := hn n (by simp)
      have hi := ih fun x hx => hn x (by simp [hx])
      rw [List.map_cons, List.flatMap_cons]
      by_cases ht : IsTok n
      · have hq : n ≠ ['"'] := fun e => hg.2.2 (by rw [e]; simp)
        rw [sections_class ht hq, hi, List.filter_cons_of_pos (by simpa using ht)]
        rfl
      · rw [sections_words hg ht, hi, List.filter_cons_of_neg (by simpa using ht)]
  have ha : sections none ((xyzHeaders ++ names.map fun n => ({ name := n } : PropClassHeader)).flatMap writePropClassHeader) =
      classes (names.filter fun n => decide (IsTok n)) := by
    unfold xyzHeaders
    simp only [List.cons_append, List.nil_append, List.flatMap_cons]
    rw [sections_class (by decide) (by decide), sections_class (by decide) (by decide), sections_class (by decide) (by decide), hc names h]
    rfl
  unfold writeProps
  split
  · exact ha
  · rw [sections_header]; exact ha

/-- **C114, exactly**: all the classes are described if and only if all the names are one word. -/
theorem described_iff {names : List Str} (h : GoodNames names) : sections none (writeProps D names) = classes names ↔ ∀ n ∈ names, IsTok n := by
  rw [described h]
  constructor
  · intro e n hn
    have hl := congrArg List.length e
    simp only [classes, List.length_append, List.length_map] at hl
    have := List.length_filter_eq_length_iff.1 (Nat.add_left_cancel hl) n hn
    simpa using this
  · intro ha
    rw [List.filter_eq_self.2 fun n hn => by simpa using ha n hn]

example : GoodNames [cs!"rock type", cs!"rock"] ∧ ¬IsTok cs!"rock type" ∧ IsTok cs!"rock" := by
  refine ⟨?_, by decide, by decide⟩
  intro n hn
  rcases List.mem_cons.1 hn with rfl | hn
  · decide
  · rw [List.mem_singleton.1 hn]; decide

end Verif.Props.ClassesExact
