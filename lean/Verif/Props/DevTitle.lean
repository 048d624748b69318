import Verif.Props.Recognise

/-!
# C83: exactly which deviation surveys are refused because of the place of their title
-/

namespace Verif.Props.DevTitle

open Verif Verif.Gocad Verif.Recognise Verif.Props.Recognise

variable {D : Type} [Num D]

/-- The title of a deviation survey. -/
def IsTitle (l : Str) : Prop := startsWith l cs!"# WELL TRACE FROM PETREL" = true

instance (l : Str) : Decidable (IsTitle l) := inferInstanceAs (Decidable (_ = _))

/-- The file with first title `t` after the lines `pre` is refused, and it is not when this title is moved to the first line. -/
def RefusedForPlace (D : Type) [Num D] (pre : File) (t : Str) (g : File) : Prop :=
  (Wells.loadDev (pre ++ t :: g) : Res (Wells.Well D)) = .throw ∧ (Wells.loadDev (t :: (pre ++ g)) : Res (Wells.Well D)) ≠ .throw

/-- What C83 asks: no recognised survey is refused because of the place of its title. -/
def PlaceFree (D : Type) [Num D] : Prop := ∀ (pre : File) (t : Str) (g : File), (∀ l ∈ pre, ¬ IsTitle l) → IsTitle t → ¬ RefusedForPlace D pre t g

/-- A file with a title is recognised, and has a first title. -/
theorem titled {f : File} (h : ∃ t ∈ f, IsTitle t) : isLoadableDev f = true ∧ ∃ pre t g, f = pre ++ t :: g ∧ (∀ l ∈ pre, ¬ IsTitle l) ∧ IsTitle t := by
  constructor
  · obtain ⟨t, ht, hs⟩ := h
    obtain ⟨r, hr⟩ : cs!"# WELL TRACE FROM PETREL" <+: t := by simpa [IsTitle, startsWith] using hs
    exact (hasKeyword_iff _ _).2 ⟨t, ht, cs!" FROM PETREL" ++ r, hr.symm⟩
  · induction f with
    | nil => simp at h
    | cons l f ih =>
      by_cases hl : IsTitle l
      · exact ⟨[], l, f, rfl, by simp, hl⟩
      · obtain ⟨t, ht, hs⟩ := h
        obtain ⟨pre, t, g, rfl, h1, h2⟩ := ih ⟨t, (List.mem_cons.1 ht).resolve_left (by rintro rfl; exact hl hs), hs⟩
        refine ⟨l :: pre, t, g, rfl, ?_, h2⟩
        intro x hx
        rcases List.mem_cons.1 hx with rfl | hx
        · exact hl
        · exact h1 x hx

/-- A file without a whole title is refused, wherever the beginning of one, by which it can be recognised, is. -/
theorem untitled {f : File} (h : ∀ l ∈ f, ¬ IsTitle l) : (Wells.loadDev f : Res (Wells.Well D)) = .throw := by
  cases f with
  | nil => rfl
  | cons l f => exact dev_title_first l f (by simpa [IsTitle] using h l (by simp))

/-- A title cut after the words that recognise it. -/
theorem short_title : isLoadableDev [cs!"# WELL TRACE"] = true ∧ ∀ g : File,
    (Wells.loadDev (cs!"# WELL TRACE" :: g) : Res (Wells.Well D)) = .throw :=
  ⟨by decide +kernel, fun _ => dev_title_first _ _ (by decide)⟩

/-- **C83, exactly**: the surveys refused because of the place of their title are those with a line before it that load, or are undefined, when it is
moved to the first line. -/
theorem refused_for_place_iff {pre : File} {t : Str} {g : File} (hp : ∀ l ∈ pre, ¬ IsTitle l) :
    RefusedForPlace D pre t g ↔ pre ≠ [] ∧ (Wells.loadDev (t :: (pre ++ g)) : Res (Wells.Well D)) ≠ .throw := by
  cases pre with
  | nil => simp [RefusedForPlace]
  | cons l pre =>
    have := dev_title_first (D := D) l (pre ++ t :: g) (by simpa [IsTitle] using hp l (by simp))
    simp [RefusedForPlace, this]

/-- What holds of C83: a title on the first line is no reason to refuse a survey. The full statement is `PlaceFree`. -/
theorem place_partial (t : Str) (g : File) : ¬ RefusedForPlace D [] t g := fun h => ((refused_for_place_iff (by simp)).1 h).1 rfl

/-- A survey of one point after its title. -/
def survey : File := [cs!"# WELL NAME: a", cs!"#===", cs!"X Y Z", cs!"#===", cs!"1 2 3"]

theorem survey_loads : (Wells.loadDev (cs!"# WELL TRACE FROM PETREL" :: ([cs!"# a comment"] ++ survey)) : Res (Wells.Well Int)) ≠ .throw := by decide +kernel

/-- **C83 fails**: a comment before the title makes a survey refused. -/
theorem not_place_free : ¬ PlaceFree Int := fun h =>
  h [cs!"# a comment"] cs!"# WELL TRACE FROM PETREL" survey (by decide +kernel) (by decide +kernel) ((refused_for_place_iff (by decide +kernel)).2 ⟨by simp, survey_loads⟩)

/-- Test on this survey: with its title first it loads as one point. -/
example : (match (Wells.loadDev (cs!"# WELL TRACE FROM PETREL" :: ([cs!"# a comment"] ++ survey)) : Res (Wells.Well Int)) with
    | .ok w => decide (w.points = [⟨1, 2, 3⟩] ∧ w.name = some cs!"a")
    | _ => false) = true := by decide +kernel

/-- Test: it is recognised with the comment first. -/
example : isLoadableDev ([cs!"# a comment"] ++ cs!"# WELL TRACE FROM PETREL" :: survey) = true := by decide +kernel

end Verif.Props.DevTitle
