import Verif.Props.BrepFem
import Verif.Props.Geos
import Verif.Props.Skua
import Verif.Props.LsoRoundTrip

/-!
# Exactly when exports hold their data (C51, C64, C71, C74, C77, C79)
-/

set_option linter.unusedSectionVars false

namespace Verif.Props.ExactExports

open Verif

section Brep

open Verif.BrepFem Verif.Props.BrepFem

variable {D : Type}

/-- **C51, exactly**: the attribute is exported if and only if the first surface (or line) has it. -/
theorem own_exported_iff {n : Nat} (dflt : D) {own cond : Str} (hne : own ≠ cond) {comps : List (Comp D)} (ho : ∀ c ∈ comps, Fits n own c)
    (hc : ∀ c ∈ comps, Fits n cond c) :
    ∃ p, paintInfos n dflt own cond comps = .ok p ∧ ((find p.attrs own).isSome = true ↔ FirstHas own comps) := by
  by_cases hf : FirstHas own comps
  · obtain ⟨p, vs, h1, h2, _⟩ := own_painted_partial dflt ho hc hf
    exact ⟨p, h1, by rw [h2]; simp [hf]⟩
  · obtain ⟨p, h1, h2⟩ := own_not_painted dflt hne hc hf
    exact ⟨p, h1, by rw [h2]; simp [hf]⟩

/-- **C77, exactly**: an element of one component only has its name if and only if the component has one of the painted attributes. -/
theorem name_carried_iff {n : Nat} (dflt : D) {own cond : Str} {comps : List (Comp D)} (ho : ∀ c ∈ comps, Fits n own c)
    (hc : ∀ c ∈ comps, Fits n cond c) {attrs : List Str} (ha : PaintedAttrs own cond comps attrs) {c : Comp D} (hm : c ∈ comps) {k : Str}
    (hk : c.name = some k) (hnn : k ≠ cs!"No_name") {f : Nat} (hf : f < n) (hin : ∃ fs ∈ c.out, f ∈ fs)
    (hu : ∀ x ∈ comps, (∃ fs ∈ x.out, f ∈ fs) → x = c) :
    ∃ p, paintInfos n dflt own cond comps = .ok p ∧ (p.names[f]? = some k ↔ ∃ x ∈ attrs, (find c.attrs x).isSome = true) := by
  obtain ⟨p, h1, h2⟩ := names_painted_partial dflt ho hc ha
  refine ⟨p, h1, ?_⟩
  rcases h2 f hf with ⟨k', e, x, hx, hk', hat, hout⟩ | ⟨hno, e⟩
  · have := hu x hx hout
    subst this
    rw [hk] at hk'
    cases hk'
    exact ⟨fun _ => hat, fun _ => e⟩
  · rw [e]
    exact ⟨fun h => absurd (Option.some.inj h).symm hnn, fun h => absurd ⟨c, hm, hk, h, hin⟩ (hno k)⟩

/-- **C79, exactly**, for blocks with different labels: every list of blocks is without repetition if and only if no block has two vertices at one vertex of
the solid. -/
theorem listed_once_iff {n : Nat} {blocks : List (Block D)} (h : ∀ b ∈ blocks, ∀ v ∈ b.vertices, v < n) (hl : (blocks.map Block.label).Nodup) :
    ∃ lists, paintVertices n blocks = .ok lists ∧ ((∀ l ∈ lists, l.Nodup) ↔ ∀ b ∈ blocks, b.vertices.Nodup) := by
  refine ⟨_, vertices_labelled h, ?_⟩
  constructor
  · intro hall b hb
    refine List.nodup_iff_count.2 fun v => ?_
    by_contra hc
    have h2 : 2 ≤ b.vertices.count v := by omega
    have hv := h b hb v (List.count_pos_iff.1 (by omega))
    obtain ⟨before, after, rfl⟩ := List.append_of_mem hb
    obtain ⟨lists, l, e1, e2, e3⟩ := block_listed_twice h hv h2
    rw [vertices_labelled h] at e1
    cases e1
    have := List.nodup_iff_count.1 (hall l (List.mem_of_getElem? e2)) b.label
    omega
  · intro hn l hlm
    obtain ⟨v, hv, rfl⟩ := List.mem_map.1 hlm
    obtain ⟨lists, l, e1, e2, e3, _⟩ := block_listed_once_partial h hn hl (List.mem_range.1 hv)
    rw [vertices_labelled h] at e1
    cases e1
    rw [List.getElem?_map, List.getElem?_range (List.mem_range.1 hv)] at e2
    cases e2
    exact e3

/-- Blocks as in the theorems: one with two vertices at one place, and two without. -/
example : (∀ b ∈ [(⟨some cs!"a", cs!"u", [], [], [0, 0]⟩ : Block Int)], ∀ v ∈ b.vertices, v < 2) ∧
    ¬ (∀ b ∈ [(⟨some cs!"a", cs!"u", [], [], [0, 0]⟩ : Block Int)], b.vertices.Nodup) ∧
    ([(⟨some cs!"a", cs!"u", [], [], [0, 1]⟩ : Block Int), ⟨none, cs!"w", [], [], [0, 1]⟩].map Block.label).Nodup := by decide

/-- Surfaces as in the theorems: the first has the attribute, the second has not. -/
example : ∃ comps : List (Comp Int), (∀ c ∈ comps, Fits 2 cs!"aperture" c) ∧ (∀ c ∈ comps, Fits 2 cs!"conductivity" c) ∧
    PaintedAttrs cs!"aperture" cs!"conductivity" comps [cs!"aperture", cs!"conductivity"] ∧ comps.length = 2 := by
  refine ⟨[⟨some cs!"a", [⟨cs!"aperture", [3]⟩], [[0]]⟩, ⟨some cs!"b", [], [[1]]⟩], ?_, ?_, Or.inl ⟨⟨_, _, _, rfl, rfl⟩, rfl⟩, rfl⟩
  · intro c hc a ha
    rcases List.mem_cons.1 hc with rfl | hc
    · cases ha; exact ⟨rfl, by decide⟩
    · rcases List.mem_cons.1 hc with rfl | hc
      · cases ha
      · cases hc
  · intro c hc a ha
    rcases List.mem_cons.1 hc with rfl | hc
    · cases ha
    · rcases List.mem_cons.1 hc with rfl | hc
      · cases ha
      · cases hc

end Brep

section Geos

open Verif.Geos Verif.Props.Geos

theorem splitCommas_no_comma (s : Str) : ∀ n ∈ splitCommas s, ',' ∉ n := by
  induction s with
  | nil => intro n hn; simp [splitCommas] at hn; simp [hn]
  | cons c s ih =>
    intro n hn
    rw [splitCommas] at hn
    split at hn
    · rcases List.mem_cons.1 hn with rfl | hn
      · simp
      · exact ih n hn
    · rename_i hc
      split at hn
      · rename_i e
        simp at hn
        subst hn
        simpa using fun e => hc e.symm
      · rename_i w ws e
        rcases List.mem_cons.1 hn with rfl | hn
        · intro hm
          rcases List.mem_cons.1 hm with hm | hm
          · exact hc hm.symm
          · exact ih w (by rw [e]; simp) hm
        · exact ih n (by rw [e]; simp [hn])

/-- **C74, exactly**: the names are read back from the list of fields if and only if none has a comma. -/
theorem fields_decoded_iff (ns : Names) (hne : ns.one ++ ns.two ++ ns.three ≠ []) :
    ∃ s, fieldsToImport ns = cs!"{" ++ s ++ cs!"}" ∧
      (splitCommas s = ns.one ++ ns.two ++ ns.three ↔ ∀ n ∈ ns.one ++ ns.two ++ ns.three, ',' ∉ n) := by
  refine ⟨_, fields_text ns, fun e n hn => splitCommas_no_comma _ n (by rw [e]; exact hn), fun hc => ?_⟩
  obtain ⟨s, e1, e2⟩ := fields_decoded ns hne hc
  rw [fields_text ns] at e1
  have := List.append_cancel_left (List.append_cancel_right e1)
  rw [this]
  exact e2

end Geos

section Skua

open Verif.Skua

/-- **C71, exactly**: a file is recognised if and only if one of its lines is one blank, the tag, and anything after. -/
theorem recognised_iff (f : File) : isLoadable f = true ↔ ∃ l ∈ f, ∃ rest, l = cs!" <LocalStratigraphicColumn" ++ rest := by
  constructor
  · unfold isLoadable
    induction f with
    | nil => intro h; simp [gotoKeyword?] at h
    | cons x f ih =>
      intro h
      rw [gotoKeyword?] at h
      split at h
      · rename_i hs
        unfold startsWith at hs
        obtain ⟨rest, hr⟩ := List.isPrefixOf_iff_prefix.1 hs
        exact ⟨x, by simp, rest, hr.symm⟩
      · obtain ⟨l, hl, r⟩ := ih h
        exact ⟨l, List.mem_cons_of_mem _ hl, r⟩
  · rintro ⟨l, hl, rest, rfl⟩
    obtain ⟨a, b, rfl⟩ := List.append_of_mem hl
    exact Verif.Props.Skua.recognised a b rest

end Skua

section Lso

open Verif.Lso Verif.Sides Verif.Props.LsoRoundTrip

/-- **C64, exactly**: the horizons that come back are those of the model if and only if the model has no fault and no model boundary. -/
theorem horizons_kept_iff {D : Type} [Num D] [DecidableEq D] [LawfulNum D] {m : Model D} (h : Loadable m) (hc : Coherent m)
    (hn : ((collections m).flatMap Prod.snd).Nodup) (he : ∀ c ∈ collections m, c.2 ≠ []) {sides : AllSides} {f : File} (hf : saveLso m sides = .ok f) :
    ∃ L : Lso.Loaded D, loadLso f = .ok L ∧ (L.horizons = m.horizons.map Prod.fst ↔ m.faults = [] ∧ m.boundaries = []) := by
  obtain ⟨L, e1, e2⟩ := collections_become_horizons h hc hn he hf
  refine ⟨L, e1, ?_⟩
  rw [e2, List.append_assoc]
  constructor
  · intro e
    have hl := congrArg List.length e
    simp only [List.length_append, List.length_map] at hl
    exact ⟨List.eq_nil_of_length_eq_zero (by omega), List.eq_nil_of_length_eq_zero (by omega)⟩
  · rintro ⟨e3, e4⟩
    simp [e3, e4]

end Lso

end Verif.Props.ExactExports
