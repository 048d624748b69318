import Verif.Props.MlRoundTrip
import Verif.Props.MlCases
import Verif.Props.MlGroups
import Verif.Props.GocadStable

/-!
# Structural models saved to `.ml` files, loaded, saved and loaded again

`again` is the loaded model as a model to save: its surfaces and blocks are known by their ranks.
-/

set_option linter.unusedSectionVars false

namespace Verif.Props.MlStable

open Verif Verif.Gocad Verif.GocadMesh Verif.Ml Verif.Props.MlRoundTrip Verif.Props.GocadStable

variable {D : Type} [Num D]

/-- The loaded model as a model to save.  `starts` has the line starts of each surface, which the writer finds in the loaded meshes. -/
def again (starts : Nat → List (Nat × Nat)) (L : Ml.Loaded D) : Model D where
  name := L.name
  surfaces := L.meshes.map fun x => { id := x.1, name := L.surfaces.getD x.1 [], points := x.2.1, triangles := x.2.2, starts := starts x.1 }
  boundaries := L.boundaries
  faults := L.faults.map fun f => (f.1, some f.2.1, f.2.2)
  horizons := L.horizons.map fun h => (h.1, some h.2.1, h.2.2)
  blocks := L.blocks.zipIdx.map fun x => ⟨x.2, x.1.name, x.1.boundaries, x.1.internals⟩
  units := L.units.map fun u => (some u.1, u.2)
  faultBlocks := L.faultBlocks.map fun u => (some u.1, u.2)

/-- The line starts are vertices of the meshes. -/
def StartsIn (starts : Nat → List (Nat × Nat)) (L : Ml.Loaded D) : Prop :=
  ∀ x ∈ L.meshes, ∀ e ∈ starts x.1, e.1 < x.2.1.length ∧ e.2 < x.2.1.length

/-- The boundary surfaces of the model and of its blocks have a side. -/
structure HasSides (sides : Sides.AllSides) (L : Ml.Loaded D) : Prop where
  outside : ∀ b ∈ L.boundaries, ∀ i ∈ b.2, (Sides.find sides.outside i).isSome
  regions : ∀ (k : Nat) (b : RBlock), L.blocks[k]? = some b → ∀ i ∈ b.boundaries, (Sides.find sides.regions (k, i)).isSome

/-- The same model, with the surfaces of each block in any order. -/
structure SameModel (L L' : Ml.Loaded D) : Prop where
  name : L'.name = L.name
  surfaces : L'.surfaces = L.surfaces
  boundaries : L'.boundaries = L.boundaries
  faults : L'.faults = L.faults
  horizons : L'.horizons = L.horizons
  blocks : List.Forall₂ (fun (b b' : RBlock) => b'.name = b.name ∧ b'.boundaries.Perm b.boundaries ∧ b'.internals.Perm b.internals) L.blocks L'.blocks
  units : L'.units = L.units
  faultBlocks : L'.faultBlocks = L.faultBlocks
  meshes : L'.meshes = L.meshes

/-! ## Ranks -/

theorem componentName_idem (s : Str) : componentName (componentName s) = componentName s := by
  unfold componentName
  rw [List.map_map]
  apply List.map_congr_left
  intro c _
  simp only [Function.comp_apply]
  by_cases h : c = ' ' <;> simp [h]

theorem keptFault_idem (k : FaultType) : keptFault (keptFault k) = keptFault k := by cases k <;> rfl

theorem map_idxOf {l : List Nat} (h : l.Nodup) : l.map l.idxOf = List.range l.length := by
  apply List.ext_getElem
  · simp
  · intro i h1 h2
    simp only [List.getElem_map, List.getElem_range]
    exact h.idxOf_getElem i (by simpa using h1)

theorem flatMap_map_snd {A : Type} (f : A → List Nat) (g : Nat → Nat) (l : List A) : l.flatMap (fun a => (f a).map g) = (l.flatMap f).map g := by
  rw [List.map_flatMap]

section

variable {m : Model D} {sides : Sides.AllSides} {L : Ml.Loaded D}

/-- Every surface is in a collection. -/
def AllClassified (m : Model D) : Prop := unclassified m = []

theorem bound_eq (k : Kept m L) (hu : AllClassified m) : L.boundaries = m.boundaries.map fun b => (componentName b.1, b.2.map (rank m)) := by
  rw [k.boundaries, hu]; simp

theorem order_classified (hu : AllClassified m) : order m =
    m.boundaries.flatMap Prod.snd ++ (faultsOf m).flatMap (fun f => f.2.2) ++ (horizonsOf m).flatMap (fun h => h.2.2) := by
  unfold order; rw [hu]; simp

/-- The surfaces of the collections of the loaded model. -/
theorem listed_range (g : GoodModel m sides) (k : Kept m L) (hu : AllClassified m) :
    L.boundaries.flatMap Prod.snd ++ L.faults.flatMap (fun f => f.2.2) ++ L.horizons.flatMap (fun h => h.2.2) = List.range (order m).length := by
  rw [bound_eq k hu, k.faults, k.horizons, List.flatMap_map, List.flatMap_map, List.flatMap_map]
  rw [flatMap_map_snd, flatMap_map_snd, flatMap_map_snd, ← List.map_append, ← List.map_append, ← order_classified hu]
  exact map_idxOf g.once

theorem meshes_ids (g : GoodModel m sides) (k : Kept m L) : L.meshes.map Prod.fst = List.range (order m).length := by
  rw [k.meshes, List.map_map]
  exact map_idxOf g.once

variable (starts : Nat → List (Nat × Nat))

theorem again_ids (g : GoodModel m sides) (k : Kept m L) : (again starts L).surfaces.map Surface.id = List.range (order m).length := by
  rw [← meshes_ids g k]
  simp [again]

theorem again_unclassified (g : GoodModel m sides) (k : Kept m L) (hu : AllClassified m) : unclassified (again starts L) = [] := by
  unfold unclassified
  rw [List.filter_eq_nil_iff]
  intro s hs h
  have hid : s.id ∈ List.range (order m).length := by rw [← again_ids starts g k]; exact List.mem_map.2 ⟨s, hs, rfl⟩
  rw [← listed_range g k hu] at hid
  simp only [Bool.and_eq_true, Bool.not_eq_true', Bool.or_eq_true, List.any_eq_false, List.contains_iff_mem] at h
  obtain ⟨h1, h2⟩ := h
  have h2 : (((∀ f ∈ (again starts L).faults, ¬ s.id ∈ f.2.2) ∧ ∀ f ∈ (again starts L).horizons, ¬ s.id ∈ f.2.2)) := by
    rcases h2 with h2 | h2
    · cases h2
    · exact h2.1
  rcases List.mem_append.1 hid with hid | hid
  · rcases List.mem_append.1 hid with hid | hid
    · obtain ⟨b, hb, hi⟩ := List.mem_flatMap.1 hid
      exact h1 b hb hi
    · obtain ⟨b, hb, hi⟩ := List.mem_flatMap.1 hid
      exact h2.1 (b.1, some b.2.1, b.2.2) (List.mem_map.2 ⟨b, hb, rfl⟩) hi
  · obtain ⟨b, hb, hi⟩ := List.mem_flatMap.1 hid
    exact h2.2 (b.1, some b.2.1, b.2.2) (List.mem_map.2 ⟨b, hb, rfl⟩) hi

theorem again_order (g : GoodModel m sides) (k : Kept m L) (hu : AllClassified m) : order (again starts L) = List.range (order m).length := by
  rw [← listed_range g k hu]
  unfold order
  rw [again_unclassified starts g k hu]
  simp [again, faultsOf, horizonsOf, List.flatMap_map]

theorem again_rank (g : GoodModel m sides) (k : Kept m L) (hu : AllClassified m) {i : Nat} (hi : i < (order m).length) : rank (again starts L) i = i := by
  unfold rank
  rw [again_order starts g k hu]
  have := List.nodup_range.idxOf_getElem i (by simpa using hi)
  rwa [List.getElem_range] at this

theorem again_tsurfNames (g : GoodModel m sides) (k : Kept m L) (hu : AllClassified m) : tsurfNames (again starts L) = tsurfNames m := by
  unfold tsurfNames
  rw [again_unclassified starts g k hu, hu]
  have e1 : (again starts L).boundaries = L.boundaries := rfl
  have e2 : faultsOf (again starts L) = L.faults.map fun f => (f.1, some f.2.1, f.2.2) := rfl
  have e3 : horizonsOf (again starts L) = L.horizons.map fun f => (f.1, some f.2.1, f.2.2) := rfl
  rw [e1, e2, e3, bound_eq k hu, k.faults, k.horizons]
  simp only [List.map_map]
  congr 1
  congr 1
  congr 1
  apply List.map_congr_left
  intro b _
  simp [componentName_idem]

theorem mem_lt_order (g : GoodModel m sides) (k : Kept m L) (hu : AllClassified m) {i : Nat}
    (hi : i ∈ L.boundaries.flatMap Prod.snd ++ L.faults.flatMap (fun f => f.2.2) ++ L.horizons.flatMap (fun h => h.2.2)) : i < (order m).length := by
  rw [listed_range g k hu] at hi
  exact List.mem_range.1 hi

theorem again_blocks_ids (L : Ml.Loaded D) : (again starts L).blocks.map Block.id = List.range L.blocks.length := by
  have : (again starts L).blocks.map Block.id = L.blocks.zipIdx.map Prod.snd := by
    simp only [again, List.map_map]
    rfl
  rw [this, List.zipIdx_map_snd]
  exact List.range_eq_range'.symm

theorem blockRank_lt {i : Nat} (h : i ∈ m.blocks.map Block.id) : blockRank m i < m.blocks.length := by
  have := List.idxOf_lt_length_iff.2 h
  simpa [blockRank] using this

theorem nbPoints_eq (ss : List (Surface D)) : nbPoints ss = (ss.map fun s => s.points.length).sum := by
  unfold nbPoints
  rfl

theorem again_points (g : GoodModel m sides) (k : Kept m L) : nbPoints (again starts L).surfaces ≤ nbPoints m.surfaces := by
  have e : nbPoints (again starts L).surfaces = nbPoints ((order m).map (surfaceAt m)) := by
    rw [nbPoints_eq, nbPoints_eq]
    simp [again, k.meshes, Function.comp_def]
  rw [e]
  have hnd : ((order m).map (surfaceAt m)).Nodup := by
    refine List.Nodup.of_map Surface.id ?_
    rw [map_surfaceAt_id g.known]
    exact g.once
  obtain ⟨l, hl, hs⟩ := List.subperm_of_subset hnd (l₂ := m.surfaces) (fun s hs => by
    obtain ⟨i, hi, rfl⟩ := List.mem_map.1 hs
    exact surfaceAt_mem (g.known i hi))
  rw [← nbPoints_perm hl]
  exact nbPoints_le hs

theorem block_of (k : Kept m L) {i : Nat} {rb : RBlock} (h : L.blocks[i]? = some rb) : ∃ b ∈ m.blocks, BlockRead (rank m) b rb := by
  have := k.blocks
  clear k
  generalize m.blocks = bs at this
  generalize L.blocks = rbs at this h
  induction this generalizing i with
  | nil => simp at h
  | @cons b r bs rs hb _ ih =>
    cases i with
    | zero => simp at h; exact ⟨b, List.mem_cons_self, h ▸ hb⟩
    | succ i =>
      obtain ⟨b', hb', h'⟩ := ih (by simpa using h)
      exact ⟨b', List.mem_cons_of_mem _ hb', h'⟩

/-- The loaded model can be saved. -/
theorem again_good (g : GoodModel m sides) (k : Kept m L) (hu : AllClassified m) {sides' : Sides.AllSides} (hs : StartsIn starts L) (hb : HasSides sides' L) :
    GoodModel (again starts L) sides' := by
  have hcount : L.blocks.length = m.blocks.length := k.blocks.length_eq.symm
  have layer : ∀ {us : List (Option Str × List Nat)}, (∀ u ∈ us, GoodLayer (m.blocks.map Block.id) u) →
      ∀ u ∈ (us.map fun u => (nameOf u.1, u.2.map (blockRank m))).map fun u => (some u.1, u.2), GoodLayer ((again starts L).blocks.map Block.id) u := by
    intro us h u hu
    rw [List.map_map] at hu
    obtain ⟨v, hv, rfl⟩ := List.mem_map.1 hu
    obtain ⟨⟨n, hn, hg⟩, hk⟩ := h v hv
    refine ⟨⟨n, by simp [hn, nameOf], hg⟩, ?_⟩
    intro i hi
    obtain ⟨j, hj, rfl⟩ := List.mem_map.1 hi
    rw [again_blocks_ids, List.mem_range, hcount]
    exact blockRank_lt (hk j hj)
  refine ⟨?_, ?_, ?_, ?_, ?_, ?_, ?_, ?_, ?_, ?_, ?_, ?_, ?_, ?_, ?_, ?_, ?_, ?_, ?_⟩
  · intro n hn
    exact g.name n (by rw [← k.name]; exact hn)
  · intro s hsm
    obtain ⟨x, hx, rfl⟩ := List.mem_map.1 hsm
    have hx' := hx
    rw [k.meshes] at hx
    obtain ⟨i, hi, rfl⟩ := List.mem_map.1 hx
    have gs := g.meshes _ (surfaceAt_mem (g.known i hi))
    refine ⟨gs.some, ?_, fun e he => hs _ hx' e he⟩
    simpa using gs.tris
  · rw [again_ids starts g k]; exact List.nodup_range
  · rw [again_order starts g k hu]; exact List.nodup_range
  · intro i hi
    rw [again_order starts g k hu] at hi
    rwa [again_ids starts g k]
  · intro f hf
    obtain ⟨x, _, rfl⟩ := List.mem_map.1 (show f ∈ L.faults.map fun f => (f.1, some f.2.1, f.2.2) from hf)
    rfl
  · intro f hf
    obtain ⟨x, _, rfl⟩ := List.mem_map.1 (show f ∈ L.horizons.map fun f => (f.1, some f.2.1, f.2.2) from hf)
    rfl
  · rw [again_tsurfNames starts g k hu]; exact g.names
  · rw [again_tsurfNames starts g k hu]; exact g.distinct
  · intro b hb
    have hb : b ∈ L.boundaries := hb
    rw [bound_eq k hu] at hb
    obtain ⟨x, hx, rfl⟩ := List.mem_map.1 hb
    simpa using g.boundaryItems x hx
  · intro f hf
    obtain ⟨x, hx, rfl⟩ := List.mem_map.1 (show f ∈ L.faults.map fun f => (f.1, some f.2.1, f.2.2) from hf)
    rw [k.faults] at hx
    obtain ⟨y, hy, rfl⟩ := List.mem_map.1 hx
    simpa using g.faultItems y hy
  · intro f hf
    obtain ⟨x, hx, rfl⟩ := List.mem_map.1 (show f ∈ L.horizons.map fun f => (f.1, some f.2.1, f.2.2) from hf)
    rw [k.horizons] at hx
    obtain ⟨y, hy, rfl⟩ := List.mem_map.1 hx
    simpa using g.horizonItems y hy
  · intro f hf
    obtain ⟨x, hx, rfl⟩ := List.mem_map.1 (show f ∈ L.horizons.map fun f => (f.1, some f.2.1, f.2.2) from hf)
    rw [k.horizons] at hx
    obtain ⟨y, hy, rfl⟩ := List.mem_map.1 hx
    exact g.contacts y hy
  · intro i hi
    obtain ⟨b, hbm, hi⟩ := List.mem_flatMap.1 hi
    exact hb.outside b hbm i hi
  · intro b hbm
    obtain ⟨⟨rb, j⟩, hx, rfl⟩ := List.mem_map.1 (show b ∈ L.blocks.zipIdx.map fun x => (⟨x.2, x.1.name, x.1.boundaries, x.1.internals⟩ : Block) from hbm)
    have hj : L.blocks[j]? = some rb := by
      have := List.mem_zipIdx_iff_getElem?.1 hx
      simpa using this
    obtain ⟨b0, hb0, hn, hp1, hp2⟩ := block_of k hj
    have gb := g.blocks b0 hb0
    have hperm : (rb.boundaries ++ rb.internals).Perm ((b0.boundaries ++ b0.internals).map (rank m)) := by
      rw [List.map_append]; exact hp1.append hp2
    refine ⟨?_, ?_, ?_, ?_, ?_, ?_⟩
    · simp only [hn, componentName_idem]; exact gb.name
    · simp only [hn, componentName_idem]; exact gb.notUniverse
    · exact hperm.nodup_iff.2 (gb.once.map_on fun x hx y hy e => idxOf_inj' (gb.known x hx) (gb.known y hy) e)
    · intro i hi
      obtain ⟨o, ho, rfl⟩ := List.mem_map.1 (hperm.mem_iff.1 hi)
      rw [again_order starts g k hu, List.mem_range]
      exact List.idxOf_lt_length_iff.2 (gb.known o ho)
    · have h1 := hp1.length_eq
      have h2 := hp2.length_eq
      simp only [List.length_map] at h1 h2
      have := gb.two
      simp only
      omega
    · exact fun i hi => hb.regions j rb hj i hi
  · intro u hu'
    have hu' : u ∈ L.units.map fun u => (some u.1, u.2) := hu'
    rw [k.units] at hu'
    exact layer g.units u hu'
  · intro u hu'
    have hu' : u ∈ L.faultBlocks.map fun u => (some u.1, u.2) := hu'
    rw [k.faultBlocks] at hu'
    exact layer g.faultBlocks u hu'
  · have e : (again starts L).blocks.length = m.blocks.length := by
      rw [← hcount]; simp [again]
    rw [again_order starts g k hu, e]
    simpa using g.size
  · have := again_points starts g k
    have := g.points
    omega

theorem again_kept [LawfulNum D] [Settled D] (g : GoodModel m sides) (k : Kept m L) (hu : AllClassified m) {L' : Ml.Loaded D}
    (k' : Kept (again starts L) L') : SameModel L L' := by
  have hun := again_unclassified starts g k hu
  have hrank : ∀ l : List Nat, (∀ i ∈ l, i < (order m).length) → l.map (rank (again starts L)) = l := by
    intro l hl
    conv => rhs; rw [← List.map_id l]
    exact List.map_congr_left fun i hi => again_rank starts g k hu (hl i hi)
  have hb : ∀ b ∈ L.boundaries, ∀ i ∈ b.2, i < (order m).length := fun b hb i hi =>
    mem_lt_order g k hu (List.mem_append_left _ (List.mem_append_left _ (List.mem_flatMap.2 ⟨b, hb, hi⟩)))
  have hf : ∀ b ∈ L.faults, ∀ i ∈ b.2.2, i < (order m).length := fun b hb i hi =>
    mem_lt_order g k hu (List.mem_append_left _ (List.mem_append_right _ (List.mem_flatMap.2 ⟨b, hb, hi⟩)))
  have hh : ∀ b ∈ L.horizons, ∀ i ∈ b.2.2, i < (order m).length := fun b hb i hi =>
    mem_lt_order g k hu (List.mem_append_right _ (List.mem_flatMap.2 ⟨b, hb, hi⟩))
  have hname : ∀ b ∈ L.boundaries, componentName b.1 = b.1 := by
    intro b hb
    rw [bound_eq k hu] at hb
    obtain ⟨x, _, rfl⟩ := List.mem_map.1 hb
    exact componentName_idem _
  have hkind : ∀ f ∈ L.faults, keptFault f.1 = f.1 := by
    intro b hb
    rw [k.faults] at hb
    obtain ⟨x, _, rfl⟩ := List.mem_map.1 hb
    exact keptFault_idem _
  have layer : ∀ {us : List (Option Str × List Nat)}, (∀ u ∈ us, GoodLayer (m.blocks.map Block.id) u) →
      ∀ u ∈ us.map fun u => (nameOf u.1, u.2.map (blockRank m)), u.2.map (blockRank (again starts L)) = u.2 := by
    intro us h u hu'
    obtain ⟨v, hv, rfl⟩ := List.mem_map.1 hu'
    simp only [List.map_map]
    apply List.map_congr_left
    intro i hi
    have hlt := blockRank_lt ((h v hv).known i hi)
    simp only [Function.comp_apply]
    unfold blockRank at hlt ⊢
    rw [again_blocks_ids, k.blocks.length_eq.symm]
    have := List.nodup_range.idxOf_getElem (xs := List.range m.blocks.length) _ (by simpa using hlt)
    rwa [List.getElem_range] at this
  refine ⟨k'.name, ?_, ?_, ?_, ?_, ?_, ?_, ?_, ?_⟩
  · rw [k'.surfaceNames, hun, k.surfaceNames, hu]
    have e1 : (again starts L).boundaries = L.boundaries := rfl
    have e2 : faultsOf (again starts L) = L.faults.map fun f => (f.1, some f.2.1, f.2.2) := rfl
    have e3 : horizonsOf (again starts L) = L.horizons.map fun f => (f.1, some f.2.1, f.2.2) := rfl
    rw [e1, e2, e3, bound_eq k hu, k.faults, k.horizons]
    simp [List.flatMap_map, componentName_idem, Function.comp_def, nameOf]
  · rw [k'.boundaries, hun]
    simp only [List.map_nil, List.append_nil, List.isEmpty_nil, if_true]
    conv => rhs; rw [← List.map_id L.boundaries]
    apply List.map_congr_left
    intro b hbm
    rw [hname b hbm, hrank b.2 (hb b hbm)]
    rfl
  · rw [k'.faults]
    have e2 : faultsOf (again starts L) = L.faults.map fun f => (f.1, some f.2.1, f.2.2) := rfl
    rw [e2, List.map_map]
    conv => rhs; rw [← List.map_id L.faults]
    apply List.map_congr_left
    intro b hbm
    simp only [Function.comp_apply, nameOf, Option.getD_some]
    rw [hkind b hbm, hrank b.2.2 (hf b hbm)]
    rfl
  · rw [k'.horizons]
    have e2 : horizonsOf (again starts L) = L.horizons.map fun f => (f.1, some f.2.1, f.2.2) := rfl
    rw [e2, List.map_map]
    conv => rhs; rw [← List.map_id L.horizons]
    apply List.map_congr_left
    intro b hbm
    simp only [Function.comp_apply, nameOf, Option.getD_some]
    rw [hrank b.2.2 (hh b hbm)]
    rfl
  · have hk := k'.blocks
    have hin : ∀ rb ∈ L.blocks, ∀ i ∈ rb.boundaries ++ rb.internals, i < (order m).length := by
      intro rb hrb i hi
      obtain ⟨j, hj⟩ := List.getElem?_of_mem hrb
      obtain ⟨b0, hb0, hn, hp1, hp2⟩ := block_of k hj
      have hperm : (rb.boundaries ++ rb.internals).Perm ((b0.boundaries ++ b0.internals).map (rank m)) := by
        rw [List.map_append]; exact hp1.append hp2
      obtain ⟨o, ho, rfl⟩ := List.mem_map.1 (hperm.mem_iff.1 hi)
      exact List.idxOf_lt_length_iff.2 ((g.blocks b0 hb0).known o ho)
    have hcn : ∀ rb ∈ L.blocks, componentName rb.name = rb.name := by
      intro rb hrb
      obtain ⟨j, hj⟩ := List.getElem?_of_mem hrb
      obtain ⟨b0, hb0, hn, _⟩ := block_of k hj
      rw [hn, componentName_idem]
    have eb : (again starts L).blocks = L.blocks.zipIdx.map fun x => (⟨x.2, x.1.name, x.1.boundaries, x.1.internals⟩ : Block) := rfl
    rw [eb] at hk
    have gen : ∀ (l : List RBlock) (j : Nat) (l' : List RBlock), (∀ rb ∈ l, rb ∈ L.blocks) →
        List.Forall₂ (BlockRead (rank (again starts L))) ((l.zipIdx j).map fun x => (⟨x.2, x.1.name, x.1.boundaries, x.1.internals⟩ : Block)) l' →
        List.Forall₂ (fun (b b' : RBlock) => b'.name = b.name ∧ b'.boundaries.Perm b.boundaries ∧ b'.internals.Perm b.internals) l l' := by
      intro l
      induction l with
      | nil => intro j l' _ h; cases h; exact .nil
      | cons rb l ih =>
        intro j l' hl h
        rw [List.zipIdx_cons, List.map_cons] at h
        cases h with
        | cons h1 h2 =>
          refine .cons ?_ (ih (j + 1) _ (fun x hx => hl x (List.mem_cons_of_mem _ hx)) h2)
          have hm := hl rb List.mem_cons_self
          obtain ⟨a1, a2, a3⟩ := h1
          simp only at a1 a2 a3
          rw [hrank _ (fun i hi => hin rb hm i (List.mem_append_left _ hi))] at a2
          rw [hrank _ (fun i hi => hin rb hm i (List.mem_append_right _ hi))] at a3
          exact ⟨a1.trans (hcn rb hm), a2, a3⟩
    exact gen L.blocks 0 L'.blocks (fun _ h => h) hk
  · rw [k'.units]
    have e : unitsOf (again starts L) = L.units.map fun u => (some u.1, u.2) := rfl
    rw [e, List.map_map]
    conv => rhs; rw [← List.map_id L.units]
    apply List.map_congr_left
    intro u hum
    have := layer g.units u (by rw [← k.units]; exact hum)
    simp [nameOf, this]
  · rw [k'.faultBlocks]
    have e : faultBlocksOf (again starts L) = L.faultBlocks.map fun u => (some u.1, u.2) := rfl
    rw [e, List.map_map]
    conv => rhs; rw [← List.map_id L.faultBlocks]
    apply List.map_congr_left
    intro u hum
    have := layer g.faultBlocks u (by rw [← k.faultBlocks]; exact hum)
    simp [nameOf, this]
  · have hids : ((again starts L).surfaces.map Surface.id).Nodup := by rw [again_ids starts g k]; exact List.nodup_range
    have e0 : order (again starts L) = (again starts L).surfaces.map Surface.id := by rw [again_order starts g k hu, again_ids starts g k]
    rw [k'.meshes, e0]
    simp only [again, List.map_map]
    conv => rhs; rw [← List.map_id L.meshes]
    apply List.map_congr_left
    intro x hx
    simp only [Function.comp_apply, id_eq]
    have hself := surfaceAt_self (m := again starts L) hids
      (s := { id := x.1, name := L.surfaces.getD x.1 [], points := x.2.1, triangles := x.2.2, starts := starts x.1 }) (List.mem_map.2 ⟨x, hx, rfl⟩)
    have hlt : x.1 < (order m).length := by
      have : x.1 ∈ List.range (order m).length := by rw [← meshes_ids g k]; exact List.mem_map.2 ⟨x, hx, rfl⟩
      exact List.mem_range.1 this
    have hr := again_rank starts g k hu hlt
    have hpts : x.2.1.map Pt.round = x.2.1 := by
      rw [k.meshes] at hx
      obtain ⟨i, _, rfl⟩ := List.mem_map.1 hx
      simp only [List.map_map]
      apply List.map_congr_left
      intro p _
      simp [Pt.round, round_round]
    simp only [again] at hself hr
    rw [hself, hr, hpts]

end

/-- A model that was saved to a `.ml` file and loaded can be saved and loaded again, and this gives the same model. -/
def Stable (D : Type) [Num D] : Prop :=
  ∀ (m : Model D) (sides : Sides.AllSides), GoodModel m sides → ∀ (f : File) (L : Ml.Loaded D), saveMl m sides = .ok f → loadMl f = .ok L →
    ∀ (starts : Nat → List (Nat × Nat)) (sides' : Sides.AllSides), StartsIn starts L → HasSides sides' L →
      ∃ (f' : File) (L' : Ml.Loaded D), saveMl (again starts L) sides' = .ok f' ∧ loadMl f' = .ok L' ∧ SameModel L L'

/-- **C177** for models whose surfaces are all in a collection. -/
theorem stable_partial [LawfulNum D] [Settled D] (hp : PlainNumbers D) {m : Model D} {sides : Sides.AllSides} (g : GoodModel m sides) (hu : AllClassified m)
    {f : File} {L : Ml.Loaded D} (hf : saveMl m sides = .ok f) (hL : loadMl f = .ok L) {starts : Nat → List (Nat × Nat)} {sides' : Sides.AllSides}
    (hs : StartsIn starts L) (hb : HasSides sides' L) :
    ∃ (f' : File) (L' : Ml.Loaded D), saveMl (again starts L) sides' = .ok f' ∧ loadMl f' = .ok L' ∧ SameModel L L' := by
  obtain ⟨f0, L0, h1, h2, k⟩ := round_trip hp g
  rw [hf] at h1
  cases h1
  rw [hL] at h2
  cases h2
  obtain ⟨f', L', h3, h4, k'⟩ := round_trip hp (again_good starts g k hu hs hb)
  exact ⟨f', L', h3, h4, again_kept starts g k hu k'⟩

/-! ## Surfaces in no collection -/

/-- **C177 fails for every model with a surface in no collection**: no file saved from the loaded model loads, whatever the order of its model boundaries. -/
theorem unstable [LawfulNum D] (hp : PlainNumbers D) {m : Model D} {L : Ml.Loaded D} (k : Kept m L) (hu : ¬ AllClassified m) {m' : Model D}
    (hm : m'.boundaries.Perm L.boundaries) {sides' : Sides.AllSides} {f' : File} (hf : saveMl m' sides' = .ok f') (L' : Ml.Loaded D) : loadMl f' ≠ .ok L' := by
  intro hL
  have hb := k.boundaries
  rw [if_neg (show ¬ (unclassified m).isEmpty = true from fun h => hu (List.isEmpty_iff.1 h))] at hb
  generalize hU : (cs!"undefined boundary", (unclassified m).map fun s => rank m s.id) = U at hb
  have hX : ∀ s ∈ unclassified m, (componentName s.name, [rank m s.id]) ∈ m.boundaries.map (fun b => (componentName b.1, b.2.map (rank m))) ++ (unclassified m).map (fun s => (componentName s.name, [rank m s.id])) :=
    fun s hs => List.mem_append_right _ (List.mem_map.2 ⟨s, hs, rfl⟩)
  generalize m.boundaries.map (fun b => (componentName b.1, b.2.map (rank m))) ++ (unclassified m).map (fun s => (componentName s.name, [rank m s.id])) = X at hb hX
  rw [hb] at hm
  obtain ⟨p, q, e⟩ := List.append_of_mem (hm.mem_iff.2 (List.mem_append_right X List.mem_cons_self))
  have hpq : (p ++ q).Perm X := by
    have h1 : (U :: (p ++ q)).Perm (U :: X) := List.perm_middle.symm.trans ((e ▸ hm).trans (List.perm_append_singleton _ _))
    exact h1.cons_inv
  -- the collections of the second model
  let g : Str × List Nat → MlGroups.Group := fun b => (.ok cs!"boundary", .ok (componentName b.1), b.2)
  obtain ⟨tl, hc⟩ : ∃ tl, collections m' = m'.boundaries.map g ++ tl := by
    unfold collections
    rw [List.append_assoc]
    exact ⟨_, rfl⟩
  by_cases hall : ∀ s ∈ unclassified m, (componentName s.name, [rank m s.id]) ∈ p
  · obtain ⟨i, hi, hno⟩ := MlGroups.own_surface hp hf hL (pre := p.map g) (c := g U) (post := q.map g ++ tl) (by rw [hc, e]; simp)
    have hi : i ∈ U.2 := hi
    rw [← hU] at hi
    obtain ⟨s, hs, rfl⟩ := List.mem_map.1 hi
    exact hno _ (List.mem_map.2 ⟨_, hall s hs, rfl⟩) (List.mem_singleton.2 rfl)
  · obtain ⟨s, hs, hn⟩ : ∃ s ∈ unclassified m, (componentName s.name, [rank m s.id]) ∉ p := by
      by_contra h
      exact hall fun s hs => by
        by_contra h'
        exact h ⟨s, hs, h'⟩
    have hq := (List.mem_append.1 (hpq.mem_iff.2 (hX s hs))).resolve_left hn
    obtain ⟨q1, q2, eq⟩ := List.append_of_mem hq
    obtain ⟨i, hi, hno⟩ := MlGroups.own_surface hp hf hL (pre := (p ++ U :: q1).map g) (c := g (componentName s.name, [rank m s.id])) (post := q2.map g ++ tl) (by rw [hc, e, eq]; simp)
    have hi : i ∈ [rank m s.id] := hi
    rw [List.mem_singleton] at hi
    refine hno (g U) (List.mem_map.2 ⟨U, by simp, rfl⟩) ?_
    show i ∈ U.2
    rw [← hU, hi]
    exact List.mem_map.2 ⟨s, hs, rfl⟩

/-- A side for each surface. -/
def trueSides (L : Ml.Loaded D) : Sides.AllSides where
  outside := L.boundaries.flatMap fun b => b.2.map fun i => (i, true)
  regions := L.blocks.zipIdx.flatMap fun x => x.1.boundaries.map fun i => ((x.2, i), true)

theorem find_isSome {K V : Type} [DecidableEq K] {l : List (K × V)} {a : K} {v : V} (h : (a, v) ∈ l) : (Sides.find l a).isSome := by
  induction l with
  | nil => cases h
  | cons e l ih =>
    rw [Sides.find]
    split
    · rfl
    · rename_i hne
      rcases List.mem_cons.1 h with rfl | h
      · exact absurd rfl hne
      · exact ih h

theorem trueSides_has (L : Ml.Loaded D) : HasSides (trueSides L) L where
  outside b hb i hi := find_isSome (v := true) (List.mem_flatMap.2 ⟨b, hb, List.mem_map.2 ⟨i, hi, rfl⟩⟩)
  regions k b hk i hi := find_isSome (v := true) (List.mem_flatMap.2 ⟨(b, k), List.mem_zipIdx_iff_getElem?.2 hk, List.mem_map.2 ⟨i, hi, rfl⟩⟩)

/-- **C177** holds for exactly the models whose surfaces are all in a collection. -/
theorem stable_iff [LawfulNum D] [Settled D] (hp : PlainNumbers D) {m : Model D} {sides : Sides.AllSides} (g : GoodModel m sides)
    {f : File} {L : Ml.Loaded D} (hf : saveMl m sides = .ok f) (hL : loadMl f = .ok L) :
    (∀ (starts : Nat → List (Nat × Nat)) (sides' : Sides.AllSides), StartsIn starts L → HasSides sides' L →
      ∃ (f' : File) (L' : Ml.Loaded D), saveMl (again starts L) sides' = .ok f' ∧ loadMl f' = .ok L' ∧ SameModel L L') ↔ AllClassified m := by
  refine ⟨fun h => ?_, fun hu starts sides' hs hb => stable_partial hp g hu hf hL hs hb⟩
  by_contra hu
  obtain ⟨f0, L0, h1, h2, k⟩ := round_trip hp g
  rw [hf] at h1
  cases h1
  rw [hL] at h2
  cases h2
  obtain ⟨f', L', h3, h4, -⟩ := h (fun _ => []) (trueSides L) (by intro x _ e he; cases he) (trueSides_has L)
  exact unstable hp k hu (m' := again (fun _ => []) L) (List.Perm.refl _) h3 L' h4

open MlCases in
theorem loose_good : GoodModel looseSurfaces someSides where
  name := by intro n hn; cases hn
  meshes := by
    intro s hs
    have : s = tri 1 ∨ s = { tri 2 with name := cs!"t" } := by simpa [looseSurfaces] using hs
    rcases this with rfl | rfl <;> exact ⟨by decide, by decide, by decide⟩
  ids := by decide
  once := by decide +kernel
  known := by decide +kernel
  faultNames := by decide
  horizonNames := by decide
  names := by decide +kernel
  distinct := by decide +kernel
  boundaryItems := by decide
  faultItems := by decide
  horizonItems := by decide
  contacts := by decide
  outside := by decide
  blocks := by intro b hb; cases hb
  units := by intro u hu; cases hu
  faultBlocks := by intro u hu; cases hu
  size := by decide +kernel
  points := by decide +kernel

/-- **C177 fails**: surfaces in no collection come back in two model boundaries; the file saved from that model does not load. -/
theorem stable_fails : ¬ Stable Int := by
  intro h
  obtain ⟨f, L, hf, hL, _⟩ := round_trip MlCases.plain_int loose_good
  have := (stable_iff MlCases.plain_int loose_good hf hL).1 (h _ _ loose_good f L hf hL)
  revert this
  unfold AllClassified
  decide +kernel

/-- The conditions hold for a model with a boundary, a fault, a horizon, two blocks, a unit and a fault block. -/
example : ∃ (f f' : File) (L L' : Ml.Loaded Int) (sides' : Sides.AllSides), saveMl MlCases.full MlCases.someSides = .ok f ∧ loadMl f = .ok L ∧
    saveMl (again (fun _ => []) L) sides' = .ok f' ∧ loadMl f' = .ok L' ∧ SameModel L L' := by
  obtain ⟨f, L, hf, hL, k⟩ := round_trip MlCases.plain_int MlCases.full_good
  have h0 : (saveMl MlCases.full MlCases.someSides >>= fun f => (loadMl f : Res (Ml.Loaded Int)) >>= fun L =>
      if L.blocks.length = 2 ∧ (∀ b ∈ L.boundaries, ∀ i ∈ b.2, i < 2) ∧ ∀ b ∈ L.blocks, ∀ i ∈ b.boundaries, i < 2 then .ok () else .ub) = .ok () := by
    decide +kernel
  rw [hf, Res.ok_bind, hL, Res.ok_bind] at h0
  by_cases hb : L.blocks.length = 2 ∧ (∀ b ∈ L.boundaries, ∀ i ∈ b.2, i < 2) ∧ ∀ b ∈ L.blocks, ∀ i ∈ b.boundaries, i < 2
  · have two : ∀ n, n < 2 → n = 0 ∨ n = 1 := fun n hn => by omega
    obtain ⟨f', L', h1, h2, h3⟩ := stable_partial MlCases.plain_int MlCases.full_good (by unfold AllClassified; decide) hf hL (starts := fun _ => [])
      (sides' := { regions := [((0, 0), true), ((0, 1), true), ((1, 0), false), ((1, 1), false)], outside := [(0, true), (1, true)] })
      (by intro x _ e he; cases he) ⟨by
        intro b hbm i hi
        rcases two i (hb.2.1 b hbm i hi) with rfl | rfl <;> rfl, by
        intro k b hk i hi
        have hk' := (List.getElem?_eq_some_iff.1 hk).1
        rw [hb.1] at hk'
        rcases two k hk' with rfl | rfl <;> rcases two i (hb.2.2 b (List.mem_of_getElem? hk) i hi) with rfl | rfl <;> rfl⟩
    exact ⟨f, f', L, L', _, hf, hL, h1, h2, h3⟩
  · rw [if_neg hb] at h0
    cases h0

/-- A test: the collections of that model, whose file loads, and a surface of its own for each. -/
example : (collections MlCases.full).map (fun c => c.2.2) = [[1, 2], [3], [4]] := by decide +kernel

end Verif.Props.MlStable
