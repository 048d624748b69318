import Verif.Props.LsoFile
import Verif.Props.Shp
import Verif.Props.FemValues
import Verif.Props.Geos

/-!
# Exactly when data are kept (C32, C47, C49, C112)
-/

set_option linter.unusedSectionVars false

namespace Verif.Props.ExactMore

open Verif

section Lso

open Verif.Gocad Verif.Lso Verif.Props.LsoFile

variable {D : Type} [Num D]

theorem filter_split {α : Type} (p : α → Bool) (l : List α) : l.filter p = l.takeWhile p ++ (l.dropWhile p).filter p := by
  induction l with
  | nil => rfl
  | cons a l ih =>
    cases h : p a
    · rw [List.takeWhile_cons_of_neg (by simp [h]), List.dropWhile_cons_of_neg (by simp [h]), List.nil_append]
    · rw [List.takeWhile_cons_of_pos h, List.dropWhile_cons_of_pos h, List.filter_cons_of_pos h, ih, List.cons_append]

/-- **C112, exactly**: every region gives its block if and only if no region comes after a line that is not one. -/
theorem regions_read_iff {h : Headers D} {s : Solid D} {st : RState} {l : Str} {f : File} {bs : List (RBlock D)} {i : Bool}
    (e : readBlocks h s st ([], false) l f = .ok (bs, i)) :
    List.Forall₂ (IsBlock s) ((l :: f).filter isRegion) bs ↔ ∀ x ∈ (l :: f).dropWhile isRegion, isRegion x = false := by
  have h1 := regions_up_to e
  rw [filter_split]
  constructor
  · intro h2 x hx
    have hl := h2.length_eq
    rw [List.length_append, h1.length_eq] at hl
    cases hr : isRegion x
    · rfl
    · have hm : x ∈ ((l :: f).dropWhile isRegion).filter isRegion := List.mem_filter.2 ⟨hx, hr⟩
      have := List.length_pos_of_mem hm
      omega
  · intro hn
    rw [List.filter_eq_nil_iff.2 fun x hx => by simp [hn x hx], List.append_nil]
    exact h1

/-- Lines as in the theorem (a test): the second region is not read. -/
example : readBlocks (D := Int) ⟨{}, {}⟩ {} {} ([], false) cs!"MODEL_REGION a" [[], cs!"MODEL_REGION b"] = .ok ([{ name := cs!"a" }], false) := by
  decide +kernel

end Lso

section Shp

open Verif.Shp Verif.Props.Shp

variable {P : Type} [DecidableEq P]

/-- **C49, exactly**: every vertex of the corner of a layer of points has a unique vertex if and only if the layer has at most one point. -/
theorem all_unique_iff {tri : List P → List (List Nat)} {layers : List (Layer P)} {s : Section P} (h : loadShp tri layers = .ok s) {i : Nat} {n : Str}
    {m : Mesh P} (hm : s.corners[i]? = some (n, m)) :
    (∀ v < m.points.length, ∃ x, s.uniques.of ⟨.corner, i, v⟩ = some x) ↔ m.points.length ≤ 1 := by
  constructor
  · intro ha
    by_contra hc
    obtain ⟨x, hx⟩ := ha 1 (by omega)
    rw [other_points_loose h i 1 (by decide)] at hx
    cases hx
  · intro h1 v hv
    obtain ⟨x, _, hx, _⟩ := single_points_partial h hm h1 v hv
    exact ⟨x, hx⟩

/-- A layer as in the theorem (a test): two points, the second without unique vertex. -/
example : (match loadShp (P := Nat) (fun _ => []) [⟨cs!"a", .point, [some (.point 4), some (.point 5)]⟩] with
    | .ok s => decide (s.corners = [(cs!"a", ⟨[4, 5], []⟩)])
    | _ => false) = true := by decide

end Shp

section Fem

open Verif.Fem Verif.Props.FemValues

variable {K : Type} [DecidableEq K]

/-- **C32, exactly**: the lines of a property of the nodes list each node once under its own value if and only if there are as many elements as nodes. -/
theorem nodes_listed_iff {toStr : K → Str} (htok : ∀ v, IsTok (toStr v)) (le : K → K → Bool) (name : Str) {values : List K}
    {nbPolyhedra : Nat} (hn : values.length + 1 < NO_ID) :
    (∃ (lines : File) (ps : List (Str × Nat)), writeProperty toStr le nbPolyhedra name values = .ok (name :: lines) ∧
      readLines lines = some ps ∧ ps.Perm (values.zipIdx.map fun v => (toStr v.1, v.2 + 1))) ↔ nbPolyhedra = values.length := by
  constructor
  · rintro ⟨lines, ps, h1, h2, h3⟩
    rcases Nat.lt_trichotomy nbPolyhedra values.length with hlt | heq | hgt
    · obtain ⟨lines', ps', e1, e2, e3⟩ := last_node_missing htok le name hlt (by omega)
      rw [e1] at h1
      cases h1
      rw [e2] at h2
      cases h2
      have hz : values[values.length - 1]? = some values[values.length - 1] := List.getElem?_eq_getElem (by omega)
      refine absurd (h3.mem_iff.2 (List.mem_map.2 ⟨(values[values.length - 1], values.length - 1), ?_, ?_⟩)) (e3 (toStr values[values.length - 1]))
      · exact List.mem_zipIdx_iff_getElem?.2 hz
      · rw [Prod.mk.injEq]
        exact ⟨rfl, by omega⟩
    · exact heq
    · rw [nodes_out_of_bounds le name hgt] at h1
      cases h1
  · intro he
    exact nodes_listed_partial htok le name he hn

end Fem

section Geos

open Verif.Geos Verif.Props.Geos

variable {D : Type}

/-- **C47, exactly**, for structural models whose blocks all have a polyhedron: the regions of the cells are known if and only if every block is in a unit, and the behaviour is
undefined otherwise. -/
theorem unit_regions_iff {m : Model D} {cells : List (Nat × Nat)} (hc : Converted m cells) (hu : ∀ b ∈ m.blocks, ∃ c ∈ cells, c.1 = b.id) :
    ((∃ rs, regionAttribute (unitRegions m) cells = .ok rs) ↔ ∀ b ∈ m.blocks, ∃ u ∈ m.units, b.id ∈ u) ∧
    (regionAttribute (unitRegions m) cells = .ub ↔ ∃ b ∈ m.blocks, ∀ u ∈ m.units, b.id ∉ u) := by
  by_cases h : ∀ b ∈ m.blocks, ∃ u ∈ m.units, b.id ∈ u
  · obtain ⟨rs, e, _⟩ := unit_regions_partial hc h
    refine ⟨⟨fun _ => h, fun _ => ⟨rs, e⟩⟩, ⟨fun e' => ?_, fun ⟨b, hb, hn⟩ => ?_⟩⟩
    · rw [e] at e'
      cases e'
    · obtain ⟨u, hu, hm⟩ := h b hb
      exact absurd hm (hn u hu)
  · have h' : ∃ b ∈ m.blocks, ∀ u ∈ m.units, b.id ∉ u := by
      by_contra hc'
      refine h fun b hb => ?_
      by_contra hx
      exact hc' ⟨b, hb, fun u hu hm => hx ⟨u, hu, hm⟩⟩
    have e : regionAttribute (unitRegions m) cells = .ub := by
      obtain ⟨b, hb, hn⟩ := h'
      obtain ⟨c, hcm, he⟩ := hu b hb
      exact outside_units_ub hcm (by rw [he]; exact hn)
    refine ⟨⟨fun ⟨rs, e'⟩ => ?_, fun hx => absurd hx h⟩, ⟨fun _ => h', fun _ => e⟩⟩
    rw [e] at e'
    cases e'

/-- Models as in the theorem: every block has a cell, with and without units. -/
example : Converted (D := Int) ⟨[⟨7, 1, []⟩], []⟩ [(7, 0)] ∧ (∀ b ∈ (⟨[⟨7, 1, []⟩], []⟩ : Model Int).blocks, ∃ c ∈ [(7, 0)], c.1 = b.id) ∧
    Converted (D := Int) ⟨[⟨7, 1, []⟩], [[7]]⟩ [(7, 0)] := by
  unfold Converted
  decide

end Geos

end Verif.Props.ExactMore
