import Verif.Props.Registry

/-!
# One kind of object for each extension

A file that can be loaded as objects of several kinds is loaded as one of them when none is asked for: the readers have priorities for that.
-/

namespace Verif.Props.Priorities

open Verif Verif.Registry Verif.Props.Registry

/-- Only readers have priorities. -/
theorem readers_have_priorities (c : Cls) : c.priority.isSome ↔ c.base.1 = .input := by cases c <;> decide

/-- **C186**: two readers used for files of the same extension have different priorities. -/
def Decided (c d : Cls) : Prop := ∀ e k k', create .input k e = some c → create .input k' e = some d → c ≠ d → c.priority ≠ d.priority

/-- **C186 fails**: nothing decides whether a stratigraphic column is one of the plane or one of the space. -/
theorem columns_not_decided : ¬ ∀ c d, Decided c d := by
  intro h
  exact h .skuaInput2 .skuaInput3 cs!"xml" .horizonsStack2 .horizonsStack3 (by decide) (by decide) (by decide) rfl

/-- **C186 for all other extensions.**  (Full statement: `∀ c d, Decided c d`.) -/
theorem decided_partial {e : Str} (he : e ≠ cs!"xml") {c d : Cls} {k k' : Kind} (hc : create .input k e = some c) (hd : create .input k' e = some d) (hcd : c ≠ d) :
    c.priority ≠ d.priority := by
  have ec := (found_fits hc).2
  have ed := (found_fits hd).2
  have bc := (found_fits hc).1
  have bd := (found_fits hd).1
  have nc : c ≠ .stratigraphicLsoInput := fun h => (stratigraphic_never .input k e).1 (h ▸ hc)
  have nd : d ≠ .stratigraphicLsoInput := fun h => (stratigraphic_never .input k' e).1 (h ▸ hd)
  have table : ∀ c d : Cls, c.base.1 = .input → d.base.1 = .input → c ≠ .stratigraphicLsoInput → d ≠ .stratigraphicLsoInput → c ≠ d →
      (∀ e ∈ c.extensions, e ∈ d.extensions → e = cs!"xml") ∨ c.priority ≠ d.priority := by
    intro c d
    cases c <;> cases d <;> decide
  rcases table c d (by rw [bc]) (by rw [bd]) nc nd hcd with h | h
  · exact absurd (h e ec ed) he
  · exact h

/-- The two kinds of objects that images are loaded as: surfaces have the priority over grids. -/
theorem images_are_surfaces : ∀ e ∈ [cs!"tif", cs!"tiff"], create .input .polygonalSurface e = some .polyTiffInput ∧
    create .input .lightRegularGrid2 e = some .geoTiffInput ∧ Cls.priority .geoTiffInput = some 1 ∧ Cls.priority .polyTiffInput = some 2 := by decide

/-- Were the reader of stratigraphic models registered, its files would be decided as well. -/
theorem stratigraphic_decided : Cls.extensions .stratigraphicLsoInput = Cls.extensions .lsoInput ∧
    Cls.priority .stratigraphicLsoInput ≠ Cls.priority .lsoInput := by decide

/-! Test: the hypotheses of `decided_partial` hold for images. -/
example : ∃ (e : Str) (c d : Cls) (k k' : Kind), e ≠ cs!"xml" ∧ create .input k e = some c ∧ create .input k' e = some d ∧ c ≠ d :=
  ⟨cs!"tif", .polyTiffInput, .geoTiffInput, .polygonalSurface, .lightRegularGrid2, by decide, by decide, by decide, by decide⟩

end Verif.Props.Priorities
