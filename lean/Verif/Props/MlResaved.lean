import Verif.Props.MlSaving
import Verif.Props.MlStable

/-!
# C202: saving the models that are loaded from ML files

Theorems about `Model.Ml`: how the writer of `.ml` files ends for the models that the reader of `.ml` files gives.
-/

set_option linter.unusedSectionVars false

namespace Verif.Props.MlResaved

open Verif Verif.Res Verif.Gocad Verif.GocadMesh Verif.Ml Verif.Props.MlOutcomes Verif.Props.MlStable
open Verif.Props.Saveable (Returns HasKey MlSaved Numbered ml_saved_iff)
open Verif.Props.SurfaceOutcomes (Within)
open Verif.Props.MlSaving (Keyless outcomes)

variable {D : Type} [Num D]

/-- The surfaces of blocks are surfaces of the file. -/
theorem blocks_known {rs : List Record} : ∀ {before : List Record}, FineFrom before rs → ∀ b ∈ blocksOf rs, ∀ z ∈ b.2, z.natAbs ≤ (faces (before ++ rs)).length := by
  induction rs with
  | nil => intro before _ b hb; cases hb
  | cons r rs ih =>
    intro before h b hb z hz
    have e : before ++ r :: rs = (before ++ [r]) ++ rs := by simp
    have he : blocksOf (r :: rs) = blocksOf [r] ++ blocksOf rs := by
      unfold blocksOf
      rw [← List.filterMap_append]
      rfl
    rw [he] at hb
    rcases List.mem_append.1 hb with hb | hb
    · have hl : (faces before).length ≤ (faces (before ++ r :: rs)).length := by
        unfold faces
        rw [List.filterMap_append, List.length_append]
        omega
      cases r with
      | block n ns =>
        simp only [blocksOf, List.filterMap_cons, List.filterMap_nil, List.mem_singleton] at hb
        subst hb
        exact Nat.le_trans (h.1.2 z hz).2 hl
      | _ => simp [blocksOf] at hb
    · rw [e]
      exact ih h.2 b hb z hz

theorem all_of {A B : Type} {R : A → B → Prop} {P : B → Prop} {as : List A} {bs : List B} (h : List.Forall₂ R as bs) (hp : ∀ a b, R a b → P b) : ∀ b ∈ bs, P b := by
  induction h with
  | nil => intro b hb; cases hb
  | cons h _ ih => exact List.forall_mem_cons.2 ⟨hp _ _ h, ih⟩

/-- The numbers of blocks are not zero. -/
theorem blocks_nonzero {f rest : File} {rs : List Record} (h : Records f rs rest) : ∀ b ∈ blocksOf rs, ∀ z ∈ b.2, z ≠ 0 := by
  induction h with
  | done => intro b hb; cases hb
  | tsurf _ _ _ ih => exact ih
  | tface _ _ _ ih => exact ih
  | outside _ _ _ _ _ ih => exact ih
  | @block l a w ws ls ns f rs rest _ _ _ h3 _ ih =>
    intro b hb z hz
    simp only [blocksOf, List.filterMap_cons, List.mem_cons] at hb
    rcases hb with rfl | hb
    · obtain ⟨_, _, _, _, _, _, _, _, hf⟩ := h3
      exact all_of hf (fun _ _ h => h.2) z hz
    · exact ih b hb z hz
  | layer _ _ _ _ ih => exact ih
  | faultBlock _ _ _ _ ih => exact ih
  | other _ _ _ _ ih => exact ih

/-- The blocks of layers exist. -/
theorem layers_lt {sel : Record → Option (Str × List Nat)} {rs : List Record} : ∀ {s b : Nat}, ∀ x ∈ layers sel s b rs, ∀ k ∈ x.2, k < b + (blocksOf rs).length := by
  induction rs with
  | nil => intro s b x hx; cases hx
  | cons r rs ih =>
    intro s b x hx k hk
    have he : (blocksOf (r :: rs)).length = (blocksOf [r]).length + (blocksOf rs).length := by
      unfold blocksOf
      rw [← List.length_append, ← List.filterMap_append]
      rfl
    rw [layers] at hx
    rcases List.mem_append.1 hx with hx | hx
    · obtain ⟨y, _, rfl⟩ := List.mem_map.1 hx
      have := (List.mem_filter.1 hk).2
      simp only [decide_eq_true_eq] at this
      omega
    · have := ih x hx k hk
      omega

theorem bounds_in {ns bs is : List Nat} (h : Bounds ns bs is) : (∀ k ∈ bs, k ∈ ns) ∧ ∀ k ∈ is, k ∈ ns := by
  constructor
  · intro k hk
    have h1 := List.count_pos_iff.2 hk
    rw [h.boundaries k] at h1
    split at h1
    · rename_i hc
      exact List.count_pos_iff.1 (by omega)
    · omega
  · intro k hk
    have h1 := List.count_pos_iff.2 hk
    rw [h.internals k] at h1
    exact List.count_pos_iff.1 (by omega)

/-- The triangles of meshes are between their points. -/
theorem meshes_within {idss : List (List Nat)} {f : File} {xs : List (Nat × List (Pt D) × List Tri)} (h : Meshes idss f xs) :
    ∀ x ∈ xs, ∀ t ∈ x.2.2, Within x.2.1.length t := by
  induction h with
  | nil => intro x hx; cases hx
  | @cons ids idss f rest xs ys o h1 h2 _ ih =>
    intro x hx t ht
    rcases List.mem_append.1 hx with hx | hx
    · refine all_of (P := fun x : Nat × List (Pt D) × List Tri => ∀ t ∈ x.2.2, Within x.2.1.length t) h2 (fun i y hy => ?_) x hx t ht
      obtain ⟨_, _, _, _, _, _, _, _, _, _, _, _, _, _, _, _, hw⟩ := hy.2
      exact hw
    · exact ih x hx t ht

theorem lookup_mem {A B : Type} [BEq A] [LawfulBEq A] {l : List (A × B)} {a : A} {b : B} (h : l.lookup a = some b) : (a, b) ∈ l := by
  induction l with
  | nil => cases h
  | cons e l ih =>
    obtain ⟨x, y⟩ := e
    rw [List.lookup_cons] at h
    split at h
    · rename_i hx
      rw [beq_iff_eq] at hx
      cases h
      rw [hx]
      exact List.mem_cons_self
    · exact List.mem_cons_of_mem _ (ih h)

/-- What the models of files have, whatever the file. -/
structure Sane (L : Loaded D) : Prop where
  boundaries : ∀ b ∈ L.boundaries, ∀ i ∈ b.2, i < L.surfaces.length
  faults : ∀ f ∈ L.faults, ∀ i ∈ f.2.2, i < L.surfaces.length
  horizons : ∀ h ∈ L.horizons, (h.1 ≠ .erosion ∧ h.1 ≠ .baselap) ∧ ∀ i ∈ h.2.2, i < L.surfaces.length
  blocks : ∀ b ∈ L.blocks, (∀ i ∈ b.boundaries, i < L.surfaces.length) ∧ ∀ i ∈ b.internals, i < L.surfaces.length
  layers : ∀ u ∈ L.units ++ L.faultBlocks, ∀ k ∈ u.2, k < L.blocks.length
  ranks : (L.meshes.map Prod.fst).Perm (List.range L.surfaces.length)
  within : ∀ x ∈ L.meshes, ∀ t ∈ x.2.2, Within x.2.1.length t

/-- Every number of a loaded model is the one of something that is loaded. -/
theorem loaded_sane {f : File} {L : Loaded D} (h : loadMl f = .ok L) : Sane L := by
  obtain ⟨P, g, _, hp⟩ := found_by_name_partial h
  have hs : L.surfaces.length = (faces P.records).length := by rw [g.surfaces, List.length_map]
  have hids : ∀ n, ∀ i ∈ ids (faces P.records) n, i < L.surfaces.length := by
    intro n i hi
    obtain ⟨x, hx, _⟩ := mem_ids.1 hi
    rw [hs]
    exact (List.getElem?_eq_some_iff.1 hx).1
  have hbd : ∀ b ∈ bounded P.records, ∀ i ∈ b.2, i < L.surfaces.length := by
    intro b hb i hi
    obtain ⟨n, _, hb⟩ := List.mem_flatMap.1 hb
    unfold boundariesOf' at hb
    split at hb
    · rw [List.mem_singleton] at hb
      subst hb
      exact hids n i hi
    · cases hb
  have hblk : ∀ b ∈ L.blocks, (∀ i ∈ b.boundaries, i < L.surfaces.length) ∧ ∀ i ∈ b.internals, i < L.surfaces.length := by
    have key : ∀ {rs : List (Str × List Int)} {bs : List RBlock}, List.Forall₂ BlockOf rs bs → (∀ r ∈ rs, ∀ z ∈ r.2, z ≠ 0 ∧ z.natAbs ≤ L.surfaces.length) →
        ∀ b ∈ bs, (∀ i ∈ b.boundaries, i < L.surfaces.length) ∧ ∀ i ∈ b.internals, i < L.surfaces.length := by
      intro rs bs hf
      induction hf with
      | nil => intro _ b hb; cases hb
      | @cons r b rs bs hb _ ih =>
        intro hz c hc
        rcases List.mem_cons.1 hc with rfl | hc
        · have hin : ∀ i ∈ r.2.map place, i < L.surfaces.length := by
            intro i hi
            obtain ⟨z, hz', rfl⟩ := List.mem_map.1 hi
            have := hz r List.mem_cons_self z hz'
            unfold place
            omega
          exact ⟨fun i hi => hin i ((bounds_in hb.2).1 i hi), fun i hi => hin i ((bounds_in hb.2).2 i hi)⟩
        · exact ih (fun r hr => hz r (List.mem_cons_of_mem _ hr)) c hc
    refine key g.blocks fun r hr z hz => ⟨blocks_nonzero P.recordsRead r hr z hz, ?_⟩
    have := blocks_known P.fine r hr z hz
    rw [hs]
    simpa using this
  refine ⟨?_, ?_, ?_, hblk, ?_, hp, meshes_within g.meshes⟩
  · intro b hb i hi
    rw [g.boundaries] at hb
    rcases List.mem_append.1 hb with hb | hb
    · exact hbd b hb i hi
    · split at hb
      · cases hb
      · rw [List.mem_singleton] at hb
        subst hb
        obtain ⟨c, hc, hi⟩ := List.mem_flatMap.1 (List.mem_filter.1 hi).1
        exact hbd c hc i hi
  · intro f hf i hi
    rw [g.faults] at hf
    obtain ⟨n, _, hf⟩ := List.mem_flatMap.1 hf
    obtain ⟨k, _, rfl⟩ := List.mem_map.1 hf
    exact hids n i hi
  · intro f hf
    rw [g.horizons] at hf
    obtain ⟨n, _, hf⟩ := List.mem_flatMap.1 hf
    obtain ⟨k, hk, rfl⟩ := List.mem_map.1 hf
    refine ⟨?_, fun i hi => hids n i hi⟩
    have hm := lookup_mem (Option.mem_toList.1 hk)
    have : ∀ c ∈ contacts, c.2 ≠ Contact.erosion ∧ c.2 ≠ Contact.baselap := by decide
    exact this _ hm
  · intro u hu k hk
    have hb : L.blocks.length = (blocksOf P.records).length := g.blocks.length_eq.symm
    rw [g.units, g.faultBlocks] at hu
    rcases List.mem_append.1 hu with hu | hu
    · have := layers_lt u hu k hk; omega
    · have := layers_lt u hu k hk; omega

/-- The model of each file that loads can be saved again. -/
def Resaved (D : Type) [Num D] : Prop := ∀ (f : File) (L : Loaded D), loadMl f = .ok L → ∀ (starts : Nat → List (Nat × Nat)) (sides : Sides.AllSides),
  StartsIn starts L → HasSides sides L → Returns (saveMl (again starts L) sides)

variable {starts : Nat → List (Nat × Nat)} {L : Loaded D}

theorem again_find (hL : Sane L) {i : Nat} (hi : i < L.surfaces.length) :
    ∃ s, (again starts L).surfaces.find? (fun s => s.id = i) = some s := by
  have hm := hL.ranks.mem_iff.2 (List.mem_range.2 hi)
  obtain ⟨x, hx, e⟩ := List.mem_map.1 hm
  cases hf : (again starts L).surfaces.find? (fun s => s.id = i) with
  | some s => exact ⟨s, rfl⟩
  | none =>
    have := List.find?_eq_none.1 hf _ (List.mem_map.2 ⟨x, hx, rfl⟩)
    simp [e] at this

theorem again_listed (hL : Sane L) {i : Nat} (h : Saveable.Listed (again starts L) i) : i < L.surfaces.length := by
  rcases h with ⟨b, hb, hi⟩ | ⟨f, hf, hi⟩ | ⟨f, hf, hi⟩
  · exact hL.boundaries b hb i hi
  · obtain ⟨g, hg, rfl⟩ := List.mem_map.1 (show f ∈ L.faults.map fun f => (f.1, some f.2.1, f.2.2) from hf)
    exact hL.faults g hg i hi
  · obtain ⟨g, hg, rfl⟩ := List.mem_map.1 (show f ∈ L.horizons.map fun f => (f.1, some f.2.1, f.2.2) from hf)
    exact (hL.horizons g hg).2 i hi

/-- A surface is in a collection or in none. -/
theorem again_numbered (s : Ml.Surface D) (hs : s ∈ (again starts L).surfaces) : Saveable.Listed (again starts L) s.id ∨ s ∈ unclassified (again starts L) := by
  by_cases h : Saveable.Listed (again starts L) s.id
  · exact Or.inl h
  · refine Or.inr (List.mem_filter.2 ⟨hs, ?_⟩)
    have h1 : ¬((again starts L).boundaries.any fun b => b.2.contains s.id) = true := by
      intro hc
      obtain ⟨b, hb, hi⟩ := List.any_eq_true.1 hc
      exact h (Or.inl ⟨b, hb, by simpa using hi⟩)
    have h2 : ¬((again starts L).faults.any fun b => b.2.2.contains s.id) = true := by
      intro hc
      obtain ⟨b, hb, hi⟩ := List.any_eq_true.1 hc
      exact h (Or.inr (Or.inl ⟨b, hb, by simpa using hi⟩))
    have h3 : ¬((again starts L).horizons.any fun b => b.2.2.contains s.id) = true := by
      intro hc
      obtain ⟨b, hb, hi⟩ := List.any_eq_true.1 hc
      exact h (Or.inr (Or.inr ⟨b, hb, by simpa using hi⟩))
    rw [Bool.not_eq_true] at h1 h2 h3
    rw [h1, h2, h3]
    rfl

theorem again_key (hL : Sane L) {s : Ml.Surface D} (hs : s ∈ (again starts L).surfaces) : HasKey s ↔ s.triangles ≠ [] := by
  obtain ⟨x, hx, rfl⟩ := List.mem_map.1 hs
  have hw := hL.within x hx
  unfold HasKey
  dsimp only
  cases ht : x.2.2 with
  | nil => simp
  | cons t ts =>
    rw [ht] at hw
    obtain ⟨a, b, c⟩ := hw t List.mem_cons_self
    simp [a, b, c]

/-- **C202**, exactly: the model of a file is saved when all its surfaces have triangles; otherwise the writer reads the first triangle of a surface that has
none. -/
theorem resaved_iff {f : File} (h : loadMl f = .ok L) {sides : Sides.AllSides} (hb : HasSides sides L) :
    (Returns (saveMl (again starts L) sides) ↔ ∀ x ∈ L.meshes, x.2.2 ≠ []) ∧ (saveMl (again starts L) sides = .ub ↔ ∃ x ∈ L.meshes, x.2.2 = []) := by
  have hL := loaded_sane h
  have hex : ∀ i, Saveable.Listed (again starts L) i → ∃ s, (again starts L).surfaces.find? (fun s => s.id = i) = some s :=
    fun i hi => again_find hL (again_listed hL hi)
  have hcon : ∀ h ∈ horizonsOf (again starts L), h.1 ≠ .erosion ∧ h.1 ≠ .baselap := by
    intro k hk
    obtain ⟨g, hg, rfl⟩ := List.mem_map.1 (show k ∈ L.horizons.map fun f => (f.1, some f.2.1, f.2.2) from hk)
    exact (hL.horizons g hg).1
  have hfn : ∀ f ∈ faultsOf (again starts L), f.2.1.isSome = true := by
    intro k hk
    obtain ⟨g, hg, rfl⟩ := List.mem_map.1 (show k ∈ L.faults.map fun f => (f.1, some f.2.1, f.2.2) from hk)
    rfl
  have hhn : ∀ f ∈ horizonsOf (again starts L), f.2.1.isSome = true := by
    intro k hk
    obtain ⟨g, hg, rfl⟩ := List.mem_map.1 (show k ∈ L.horizons.map fun f => (f.1, some f.2.1, f.2.2) from hk)
    rfl
  have hnum : ∀ i < L.surfaces.length, Numbered (again starts L) i := by
    intro i hi
    obtain ⟨s, hs⟩ := again_find (starts := starts) hL hi
    have e : s.id = i := by simpa using List.find?_some hs
    rcases again_numbered s (List.mem_of_find?_eq_some hs) with h | h
    · exact Or.inl (e ▸ h)
    · exact Or.inr ⟨s, h, e⟩
  have saved : (∀ x ∈ L.meshes, x.2.2 ≠ []) → MlSaved (again starts L) sides := by
    intro ht
    have hkey : ∀ s ∈ (again starts L).surfaces, HasKey s := by
      intro s hs
      refine (again_key hL hs).2 ?_
      obtain ⟨x, hx, rfl⟩ := List.mem_map.1 hs
      exact ht x hx
    refine ⟨hfn, hhn, hcon, fun i hi => ?_, fun s hs => hkey s (List.mem_filter.1 hs).1, hb.outside, ?_, ?_, ?_⟩
    · obtain ⟨s, hs⟩ := hex i hi
      exact ⟨s, hs, hkey s (List.mem_of_find?_eq_some hs)⟩
    · intro b hb' i hi
      obtain ⟨x, hx, rfl⟩ := List.mem_map.1 hb'
      have hk := List.mem_zipIdx_iff_getElem?.1 hx
      exact ⟨hb.regions x.2 x.1 hk i hi, hnum i ((hL.blocks x.1 (List.mem_of_getElem? hk)).1 i hi)⟩
    · intro b hb' i hi
      obtain ⟨x, hx, rfl⟩ := List.mem_map.1 hb'
      exact hnum i ((hL.blocks x.1 (List.mem_of_getElem? (List.mem_zipIdx_iff_getElem?.1 hx))).2 i hi)
    · intro _ l hl
      have hl' : l ∈ (L.units ++ L.faultBlocks).map fun u => (some u.1, u.2) := by
        rw [List.map_append]
        exact hl
      obtain ⟨u, hu, rfl⟩ := List.mem_map.1 hl'
      refine ⟨rfl, fun i hi => ?_⟩
      have hi := hL.layers u hu i hi
      exact ⟨_, List.mem_map.2 ⟨(L.blocks[i], i), List.mem_zipIdx_iff_getElem?.2 (List.getElem?_eq_getElem hi), rfl⟩, rfl⟩
  have hub : (∃ x ∈ L.meshes, x.2.2 = []) → saveMl (again starts L) sides = .ub := by
    rintro ⟨x, hx, ht⟩
    refine (outcomes hex hcon sides).1.2 ⟨⟨hfn, hhn⟩, ?_⟩
    have hs : (⟨x.1, L.surfaces.getD x.1 [], x.2.1, x.2.2, starts x.1⟩ : Ml.Surface D) ∈ (again starts L).surfaces := List.mem_map.2 ⟨x, hx, rfl⟩
    have hn := fun hk => (again_key hL hs).1 hk ht
    rcases again_numbered _ hs with h | h
    · refine Or.inl ⟨x.1, h, ?_⟩
      rintro ⟨s, hf, hk⟩
      have e : s.id = x.1 := by simpa using List.find?_some hf
      obtain ⟨y, hy, rfl⟩ := List.mem_map.1 (List.mem_of_find?_eq_some hf)
      have hnd : (L.meshes.map Prod.fst).Nodup := hL.ranks.nodup_iff.2 List.nodup_range
      have : y = x := List.inj_on_of_nodup_map hnd hy hx e
      subst this
      exact hn hk
    · exact Or.inr ⟨_, h, hn⟩
  constructor
  · constructor
    · intro hr x hx ht
      obtain ⟨a, e⟩ := hr
      rw [hub ⟨x, hx, ht⟩] at e
      cases e
    · exact fun ht => (ml_saved_iff _ _).2 (saved ht)
  · refine ⟨fun e => ?_, hub⟩
    by_contra hc
    obtain ⟨a, ha⟩ := (ml_saved_iff _ _).2 (saved fun x hx ht => hc ⟨x, hx, ht⟩)
    rw [ha] at e
    cases e

/-- **C202** for models whose surfaces have triangles. -/
theorem resaved_partial {f : File} (h : loadMl f = .ok L) {sides : Sides.AllSides} (hb : HasSides sides L) (ht : ∀ x ∈ L.meshes, x.2.2 ≠ []) :
    ∃ f', saveMl (again starts L) sides = .ok f' := (resaved_iff h hb).1.2 ht

/-- An object with points and without triangle. -/
def bare (n : Str) : File := [cs!"GOCAD TSurf 1", cs!"HEADER {", cs!"name:" ++ n, cs!"}", cs!"TFACE", cs!"VRTX 1 0 0 0", cs!"END"]

/-- The model of a file with such an object. -/
def bareModel : Loaded Int := { twoModel 1 2 with meshes := [(0, [⟨0, 0, 1⟩, ⟨1, 0, 0⟩, ⟨0, 1, 0⟩], [(0, 1, 2)]), (1, [⟨0, 0, 0⟩], [])] }

/-- A test: the file is loaded, with a surface without triangles. -/
theorem bare_loads : loadMl (twoGroups ++ triangle cs!"a" cs!"1" ++ bare cs!"b") =
    .ok bareModel := by decide +kernel

/-- **C202 fails**: a file with a surface without triangles is loaded, and saving the model is undefined. -/
theorem resaved_fails : ¬Resaved Int := by
  intro h
  have h1 := h _ _ bare_loads (fun _ => []) (trueSides _) (by intro x _ e he; cases he) (trueSides_has _)
  exact ((resaved_iff bare_loads (trueSides_has _)).1.1 h1) (1, [⟨0, 0, 0⟩], []) (by simp [bareModel]) rfl

/-- The hypotheses of `resaved_partial` hold for a model that is loaded. -/
example : loadMl (twoGroups ++ triangle cs!"a" cs!"1" ++ triangle cs!"b" cs!"2") = .ok (twoModel 1 2) ∧ HasSides (trueSides (twoModel 1 2)) (twoModel 1 2) ∧
    ∀ x ∈ (twoModel 1 2).meshes, x.2.2 ≠ [] := ⟨two_loads, trueSides_has _, by decide⟩

end Verif.Props.MlResaved
