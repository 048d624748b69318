import Verif.Props.VSet
import Verif.Props.Wells
import Verif.Props.Shp
import Verif.Props.FemValues
import Verif.Props.Geos

/-!
# Exactly which point sets, wells, parts, meshes and boxes are kept (C03, C18, C48, C55, C75)
-/

set_option linter.unusedSectionVars false

namespace Verif.Props.ExactSmall

open Verif Res

/-! ## Point sets (C03) -/

/-- **C03, exactly**: a point set is kept exactly when it has a point. -/
theorem kept_iff {D : Type} [Num D] [LawfulNum D] {m : GocadMesh.Mesh Empty D} (g : GocadMesh.GoodVSet m)
    (hd : ((GocadMesh.written m.attrs).map GocadMesh.Attr.name).Nodup) : Props.VSet.Kept m ↔ m.points ≠ [] := by
  constructor
  · rintro ⟨l, e, _⟩ he
    rw [Props.VSet.empty_throws g he] at e
    cases e
  · exact fun hne => Props.VSet.roundtrip_partial g hne hd

/-! ## Lists of points (C18) -/

/-- **C18, exactly**: the three outcomes of loading a list of points. -/
theorem list_outcomes {D : Type} [Num D] {f : File} (hW : f.length ≤ W) :
    ((Wells.loadList f : Res (Wells.Well D)) = .ub ↔ f = []) ∧
    ((Wells.loadList f : Res (Wells.Well D)) = .throw ↔ ∃ l ∈ f, ¬∃ p : Pt D, Props.Wells.IsPoint l p) ∧
    ∀ w : Wells.Well D, Wells.loadList f = .ok w ↔ f ≠ [] ∧ ∃ ps, List.Forall₂ Props.Wells.IsPoint f ps ∧ w = { points := ps, edges := Props.Wells.polyline ps.length } := by
  by_cases he : f = []
  · subst he
    rw [Props.Wells.list_empty]
    simp
  rcases Props.Wells.list_cover (D := D) f with ⟨ps, h⟩ | ⟨l, hl, hn⟩
  · have e := Props.Wells.list_loaded_partial he hW h
    have hno : ¬∃ l ∈ f, ¬∃ p : Pt D, Props.Wells.IsPoint l p := by
      rintro ⟨l, hl, hn⟩
      rw [Props.Wells.list_refused hl hn] at e
      cases e
    refine ⟨by rw [e]; simp [he], by rw [e]; simpa using hno, fun w => ⟨fun h' => ?_, ?_⟩⟩
    · rw [e] at h'
      cases h'
      exact ⟨he, ps, h, rfl⟩
    · rintro ⟨_, qs, h', rfl⟩
      exact Props.Wells.list_loaded_partial he hW h'
  · have e : (Wells.loadList f : Res (Wells.Well D)) = .throw := Props.Wells.list_refused hl hn
    refine ⟨by rw [e]; simp [he], ⟨fun _ => ⟨l, hl, hn⟩, fun _ => e⟩, fun w => ⟨fun h' => (by rw [e] at h'; cases h'), ?_⟩⟩
    rintro ⟨_, qs, h', rfl⟩
    rw [Props.Wells.list_loaded_partial he hW h'] at e
    cases e

example : (Wells.loadList [cs!"1 2 3", cs!"4 5 6"] : Res (Wells.Well Int)) = .ok { points := [⟨1, 2, 3⟩, ⟨4, 5, 6⟩], edges := Props.Wells.polyline 2 } := by rfl

/-! ## Parts of lines (C48) -/

/-- **C48, exactly**: a part is read when it has two points, and is undefined behaviour otherwise. -/
theorem part_iff {P : Type} [DecidableEq P] (r : Nat) (st : Shp.State P) {pts : List P} (hw : st.1.points.length + pts.length < W) :
    ((∃ s, Shp.readLine r st pts = .ok s) ↔ 2 ≤ pts.length) ∧ (Shp.readLine r st pts = .ub ↔ pts.length < 2) := by
  rcases pts with _ | ⟨a, _ | ⟨b, pts⟩⟩
  · have e : Shp.readLine r st [] = .ub := rfl
    rw [e]
    simp
  · have e := Props.Shp.single_point_ub r st a (by simp at hw; omega)
    rw [e]
    simp
  · have h2 : 2 ≤ (a :: b :: pts).length := by simp
    have e := Shp.readLine_eq r st h2 hw
    rw [e]
    simp

example : (match Shp.readLine (P := Nat) 0 ({}, {}) [4, 5] with | .ok s => some s.1 | _ => none) = some ⟨[4, 5], [[0, 1]]⟩ := by decide

/-! ## Sets of elements (C55) -/

/-- **C55, exactly**: writing the sets of elements is undefined exactly when the mesh has names of blocks and an element, and gives no set otherwise. -/
theorem element_sets_iff {D : Type} (ord : List (Str × List Nat) → List (Str × List Nat)) (m : Fem.Mesh D) :
    (Fem.writeElementSets ord m = .ub ↔ ∃ b bs, m.polyhedronBlocks = some (b :: bs)) ∧
    ((∀ b bs, m.polyhedronBlocks ≠ some (b :: bs)) → ord [] = [] → ∀ f, Fem.writeElementSets ord m = .ok f → ∀ l ∈ f, l = cs!"ELEMENTALSETS") := by
  unfold Fem.writeElementSets
  rcases hb : m.polyhedronBlocks with _ | _ | ⟨b, bs⟩
  · refine ⟨by simp, fun _ _ f hf => ?_⟩
    cases hf
    simp
  · refine ⟨by simp [Fem.elementRegionMap], fun _ ho f hf => ?_⟩
    simp only [Fem.elementRegionMap, ok_bind, pure_eq, ho] at hf
    cases hf
    simp
  · refine ⟨⟨fun _ => ⟨b, bs, rfl⟩, fun _ => rfl⟩, fun h => absurd rfl (h b bs)⟩

/-! ## Boxes of wells (C75) -/

/-- **C75**: the box of a well has a minimum and a maximum exactly when a perforation is in the bounding box of a cell. -/
theorem box_iff {D : Type} [LinearOrder D] {corners : Nat → List (Pt D)} {near : Pt D → List Nat} (hn : Props.Geos.Around corners near)
    (dist : Pt D → Nat → D) (well : List (Pt D)) :
    (Geos.wellBox corners near dist well).isSome = true ↔ ∃ p ∈ well, near p ≠ [] := by
  constructor
  · intro h
    by_contra hx
    have : ∀ p ∈ well, near p = [] := by
      intro p hp
      by_contra hy
      exact hx ⟨p, hp, hy⟩
    rw [Props.Geos.outside_well_empty this] at h
    cases h
  · rintro ⟨p, hp, hne⟩
    obtain ⟨lo, hi, e, _⟩ := Props.Geos.perforations_in_box_partial hn dist well p hp hne
    rw [e]
    rfl

end Verif.Props.ExactSmall
