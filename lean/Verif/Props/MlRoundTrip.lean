import Verif.Lemmas.MlModel

/-!
# Structural models saved to `.ml` files and loaded

The model saved is given by its surfaces, their collections, the blocks and the collections of blocks; in the loaded model surfaces and blocks are
known by their ranks.  `rank m i` is the place of surface `i` in the list of all surfaces of `m`, collection by collection.
-/

set_option linter.unusedSectionVars false

namespace Verif.Props.MlRoundTrip

open Verif Verif.Gocad Verif.GocadMesh Verif.Ml

variable {D : Type} [Num D]

/-- The fault types that `.ml` files tell apart. -/
def keptFault : FaultType → FaultType
  | .normal => .normal
  | .reverse => .reverse
  | _ => .noType

theorem addTsurf_boundary (L : Ml.Loaded D) (n : Str) (fs : List Nat) :
    addTsurf L ⟨n, cs!"boundary", fs⟩ = .ok { L with boundaries := L.boundaries ++ [(n, fs)] } := by
  have h : ¬contains cs!"fault" cs!"boundary" = true := by decide
  unfold addTsurf
  dsimp only
  rw [if_neg h, if_pos (Or.inl rfl)]

theorem addTsurf_fault (L : Ml.Loaded D) (k : FaultType) (n : Str) (fs : List Nat) :
    addTsurf L ⟨n, faultText k, fs⟩ = .ok { L with faults := L.faults ++ [(keptFault k, n, fs)] } := by
  have h : contains cs!"fault" (faultText k) = true := by cases k <;> decide
  have h' : faultOf (faultText k) = .ok (keptFault k) := by cases k <;> rfl
  unfold addTsurf
  dsimp only
  rw [if_pos h, h']
  rfl

theorem addTsurf_horizon (L : Ml.Loaded D) {k : Contact} (hk : k ≠ .erosion ∧ k ≠ .baselap) (n : Str) (fs : List Nat) :
    addTsurf L ⟨n, contactWord k, fs⟩ = .ok { L with horizons := L.horizons ++ [(k, n, fs)] } := by
  have h1 : ¬contains cs!"fault" (contactWord k) = true := by cases k <;> decide
  have h2 : ¬(contactWord k = cs!"boundary" ∨ contactWord k = cs!"lease") := by cases k <;> decide
  have h3 : contactOf (contactWord k) = .ok k := by
    cases k
    · rfl
    · rfl
    · rfl
    · rfl
    · exact absurd rfl hk.1
    · exact absurd rfl hk.2
  unfold addTsurf
  dsimp only
  rw [if_neg h1, if_neg h2, h3]
  rfl

theorem fold_map {α β S : Type} (f : S → β → Res S) (g : α → β) (l : List α) (upd : S → α → S) (h : ∀ s, ∀ a ∈ l, f s (g a) = .ok (upd s a)) :
    ∀ s, Res.foldM' f s (l.map g) = .ok (l.foldl upd s) := by
  induction l with
  | nil => intro s; rfl
  | cons a l ih =>
    intro s
    rw [List.map_cons, Res.foldM'_cons, h s a List.mem_cons_self, Res.ok_bind, ih fun s b hb => h s b (List.mem_cons_of_mem _ hb)]
    rfl

theorem foldl_boundaries {α : Type} (f : α → Str × List Nat) (l : List α) (L : Ml.Loaded D) :
    l.foldl (fun L a => { L with boundaries := L.boundaries ++ [f a] }) L = { L with boundaries := L.boundaries ++ l.map f } := by
  induction l generalizing L with
  | nil => simp
  | cons a l ih => rw [List.foldl_cons, ih]; simp

theorem foldl_faults {α : Type} (f : α → FaultType × Str × List Nat) (l : List α) (L : Ml.Loaded D) :
    l.foldl (fun L a => { L with faults := L.faults ++ [f a] }) L = { L with faults := L.faults ++ l.map f } := by
  induction l generalizing L with
  | nil => simp
  | cons a l ih => rw [List.foldl_cons, ih]; simp

theorem foldl_horizons {α : Type} (f : α → Contact × Str × List Nat) (l : List α) (L : Ml.Loaded D) :
    l.foldl (fun L a => { L with horizons := L.horizons ++ [f a] }) L = { L with horizons := L.horizons ++ l.map f } := by
  induction l generalizing L with
  | nil => simp
  | cons a l ih => rw [List.foldl_cons, ih]; simp

/-- The collections of the surfaces after loading.  The surfaces take the names of their collections; those in no collection come back each in
a model boundary, and all together in another one. -/
structure Kept (m : Model D) (L : Ml.Loaded D) : Prop where
  name : L.name = m.name
  count : L.surfaces.length = (order m).length
  surfaceNames : L.surfaces = m.boundaries.flatMap (fun b => b.2.map fun _ => componentName b.1)
    ++ (faultsOf m).flatMap (fun f => f.2.2.map fun _ => nameOf f.2.1) ++ (horizonsOf m).flatMap (fun h => h.2.2.map fun _ => nameOf h.2.1)
    ++ (unclassified m).map (fun s => componentName s.name)
  boundaries : L.boundaries = m.boundaries.map (fun b => (componentName b.1, b.2.map (rank m)))
    ++ (unclassified m).map (fun s => (componentName s.name, [rank m s.id]))
    ++ if (unclassified m).isEmpty then [] else [(cs!"undefined boundary", (unclassified m).map fun s => rank m s.id)]
  faults : L.faults = (faultsOf m).map fun f => (keptFault f.1, nameOf f.2.1, f.2.2.map (rank m))
  horizons : L.horizons = (horizonsOf m).map fun h => (h.1, nameOf h.2.1, h.2.2.map (rank m))
  blocks : List.Forall₂ (BlockRead (rank m)) m.blocks L.blocks
  units : L.units = (unitsOf m).map fun u => (nameOf u.1, u.2.map (blockRank m))
  faultBlocks : L.faultBlocks = (faultBlocksOf m).map fun u => (nameOf u.1, u.2.map (blockRank m))
  meshes : L.meshes = (order m).map fun i => (rank m i, (surfaceAt m i).points.map Pt.round, (surfaceAt m i).triangles)

theorem tsurfs_split (m : Model D) (h : ∀ i ∈ order m, i ∈ m.surfaces.map Surface.id) :
    ((tsurfsOf m (collsOf m)).map fun t => (⟨t.name, t.kind, (t.items.map Surface.id).map (rank m)⟩ : RTsurf)) =
      m.boundaries.map (fun b => ⟨componentName b.1, cs!"boundary", b.2.map (rank m)⟩)
      ++ (faultsOf m).map (fun f => ⟨nameOf f.2.1, faultText f.1, f.2.2.map (rank m)⟩)
      ++ (horizonsOf m).map (fun h => ⟨nameOf h.2.1, contactWord h.1, h.2.2.map (rank m)⟩)
      ++ (unclassified m).map (fun s => ⟨componentName s.name, cs!"boundary", [rank m s.id]⟩) := by
  unfold tsurfsOf collsOf
  simp only [List.map_append]
  rw [List.map_map, List.map_map, List.map_map, List.map_map]
  congr 1
  congr 1
  · congr 1
    · apply List.map_congr_left
      intro b hb
      simp only [Function.comp_apply]
      have := map_surfaceAt_id (m := m) (l := b.2) fun i hi => h i (mem_order_boundary m hb hi)
      rw [this]
    · apply List.map_congr_left
      intro b hb
      simp only [Function.comp_apply]
      have := map_surfaceAt_id (m := m) (l := b.2.2) fun i hi => h i (mem_order_fault m hb hi)
      rw [this]
  · apply List.map_congr_left
    intro b hb
    simp only [Function.comp_apply]
    have := map_surfaceAt_id (m := m) (l := b.2.2) fun i hi => h i (mem_order_horizon m hb hi)
    rw [this]

/-- The collections of a model, as they are loaded. -/
def keptCollections (m : Model D) (st : RState) (name : Option Str) : Ml.Loaded D :=
  { name, surfaces := st.surfaces
    boundaries := m.boundaries.map (fun b => (componentName b.1, b.2.map (rank m)))
      ++ (unclassified m).map (fun s => (componentName s.name, [rank m s.id]))
      ++ if (unclassified m).isEmpty then [] else [(cs!"undefined boundary", (unclassified m).map fun s => rank m s.id)]
    faults := (faultsOf m).map fun f => (keptFault f.1, nameOf f.2.1, f.2.2.map (rank m))
    horizons := (horizonsOf m).map fun h => (h.1, nameOf h.2.1, h.2.2.map (rank m))
    blocks := st.blocks
    units := st.units
    faultBlocks := st.faultBlocks }

theorem collections_kept {m : Model D} {sides : Sides.AllSides} (g : GoodModel m sides) {st : RState} (r : ComponentsRead m st) (name : Option Str) :
    createTsurfs name st = .ok (keptCollections m st name) := by
  unfold keptCollections
  unfold createTsurfs
  rw [r.tsurfs, tsurfs_split m g.known]
  rw [Res.foldM'_append, Res.foldM'_append, Res.foldM'_append]
  rw [fold_map _ _ _ (fun (L : Ml.Loaded D) (b : Str × List Nat) => { L with boundaries := L.boundaries ++ [(componentName b.1, b.2.map (rank m))] })
    (fun L b _ => addTsurf_boundary L _ _), foldl_boundaries, Res.ok_bind]
  rw [fold_map _ _ _ (fun (L : Ml.Loaded D) (f : FaultType × Option Str × List Nat) =>
      { L with faults := L.faults ++ [(keptFault f.1, nameOf f.2.1, f.2.2.map (rank m))] })
    (fun L b _ => addTsurf_fault L _ _ _), foldl_faults, Res.ok_bind]
  rw [fold_map _ _ _ (fun (L : Ml.Loaded D) (h : Contact × Option Str × List Nat) =>
      { L with horizons := L.horizons ++ [(h.1, nameOf h.2.1, h.2.2.map (rank m))] })
    (fun L b hb => addTsurf_horizon L (g.contacts b hb) _ _), foldl_horizons, Res.ok_bind]
  rw [fold_map _ _ _ (fun (L : Ml.Loaded D) (s : Surface D) => { L with boundaries := L.boundaries ++ [(componentName s.name, [rank m s.id])] })
    (fun L b _ => addTsurf_boundary L _ _), foldl_boundaries, Res.ok_bind]
  simp only [List.nil_append, Res.pure_eq]
  unfold addUnassigned
  simp only [r.outside]
  have hdiff : ((m.boundaries.map (fun b => (componentName b.1, b.2.map (rank m))) ++ (unclassified m).map (fun s => (componentName s.name, [rank m s.id]))).flatMap
      Prod.snd).filter (fun i => !((m.boundaries.flatMap Prod.snd).map (rank m)).contains i) = (unclassified m).map fun s => rank m s.id := by
    have e1 : (m.boundaries.map (fun b => (componentName b.1, b.2.map (rank m)))).flatMap Prod.snd = (m.boundaries.flatMap Prod.snd).map (rank m) := by
      generalize m.boundaries = l
      induction l with
      | nil => rfl
      | cons b l ih => rw [List.map_cons, List.flatMap_cons, ih, List.flatMap_cons, List.map_append]
    have e2 : ∀ l : List (Surface D), (l.map (fun s => (componentName s.name, [rank m s.id]))).flatMap Prod.snd = l.map fun s => rank m s.id := by
      intro l
      induction l with
      | nil => rfl
      | cons b l ih => rw [List.map_cons, List.flatMap_cons, ih]; rfl
    rw [List.flatMap_append, e1, e2, List.filter_append]
    rw [List.filter_eq_nil_iff.2, List.nil_append, List.filter_eq_self.2]
    · intro v hv
      obtain ⟨s, hs, rfl⟩ := List.mem_map.1 hv
      rw [Bool.not_eq_true']
      rw [← Bool.not_eq_true, List.contains_iff_mem]
      intro hm
      obtain ⟨i, hi, e⟩ := List.mem_map.1 hm
      have hio : i ∈ order m := by
        obtain ⟨b, hb, hi⟩ := List.mem_flatMap.1 hi
        exact mem_order_boundary m hb hi
      have hso : s.id ∈ order m := by
        unfold order
        exact List.mem_append_right _ (List.mem_map.2 ⟨s, hs, rfl⟩)
      have heq := idxOf_inj' hio hso e
      have hn := g.once
      unfold order at hn
      rw [List.append_assoc, List.append_assoc, List.nodup_append] at hn
      exact hn.2.2 i hi s.id (by simp only [List.mem_append]; exact Or.inr (Or.inr (List.mem_map.2 ⟨s, hs, rfl⟩))) heq
    · intro v hv
      rw [List.contains_iff_mem.2 hv]
      simp
  rw [hdiff]
  by_cases hu : (unclassified m).isEmpty = true
  · have : unclassified m = [] := by simpa using hu
    simp [this]
  · have : (unclassified m).isEmpty = false := by simpa using hu
    simp [this]

/-! ### Surfaces -/

theorem nbPoints_le {all : List (Surface D)} {ss : List (Surface D)} (hs : ss.Sublist all) : nbPoints ss ≤ nbPoints all := by
  induction hs with
  | slnil => exact Nat.le_refl _
  | cons a _ ih => unfold nbPoints at ih ⊢; simp; omega
  | cons_cons a _ ih => unfold nbPoints at ih ⊢; simp; omega

theorem nbPoints_perm {a b : List (Surface D)} (h : a.Perm b) : nbPoints a = nbPoints b := by
  induction h with
  | nil => rfl
  | cons x _ ih => unfold nbPoints at ih ⊢; simp [ih]
  | swap x y l => unfold nbPoints; simp; omega
  | trans _ _ ih1 ih2 => exact ih1.trans ih2

theorem read_all [LawfulNum D] (f : Nat → Nat) : ∀ (T : List (Coll D)), (∀ t ∈ T, GoodName t.name ∧ t.items ≠ [] ∧ (∀ s ∈ t.items, GoodSurface s) ∧ 1 + nbPoints t.items ≤ W) →
    readSurfaces (T.map fun t => ⟨t.name, t.kind, (t.items.map Surface.id).map f⟩) (T.flatMap fun t => writeTSurf t.kind t.name t.items) =
      .ok (T.flatMap fun t => t.items.map fun s => (f s.id, s.points.map Pt.round, s.triangles))
  | [], _ => rfl
  | t :: T, h => by
    obtain ⟨h1, h2, h3, h4⟩ := h t List.mem_cons_self
    have ih := read_all f T (fun t ht => h t (List.mem_cons_of_mem _ ht))
    rw [List.map_cons, List.flatMap_cons, readSurfaces, readTSurf_written h1.obj h2 h3 h4]
    have hb := buildFaces_dataOf t.name t.items h3 h4 t.items [] ((t.items.map Surface.id).map f) rfl (by simp)
    rw [List.length_nil] at hb
    simp only [Res.ok_bind]
    rw [hb, ih]
    simp only [Res.ok_bind, Res.pure_eq, List.flatMap_cons]
    congr 2
    generalize t.items = l
    induction l with
    | nil => rfl
    | cons s l ih => rw [List.map_cons, List.map_cons, List.zipWith_cons_cons, ih]; rfl

/-- The triangle written for a triangle of a face, when the faces before it have `v` vertices: its vertices are numbered after them. -/
theorem face_text (v : Nat) (s : Surface D) :
    writeSurface (1 + v) s = cs!"TFACE" :: (vrtxLinesFrom 1 cs!"VRTX" [] v s.points
      ++ s.triangles.map fun t => trglLine (1 + (v + t.1), 1 + (v + t.2.1), 1 + (v + t.2.2))) := by
  rw [writeSurface_eq, List.map_map]
  congr 2
  apply List.map_congr_left
  intro t _
  simp only [Function.comp_apply, moved, Nat.add_assoc]

/-- A TSurf of any surfaces is read back with the vertices and triangles of every one of them: the triangles of a face refer to the vertices of that
face. -/
theorem faces_kept [LawfulNum D] {kind name : Str} (hn : GoodObjectName name) {ss : List (Surface D)} (hne : ss ≠ []) (hg : ∀ s ∈ ss, GoodSurface s)
    (hW : 1 + nbPoints ss ≤ W) (rest : File) (ranks : List Nat) (hr : ranks.length = ss.length) :
    ∃ ts : TSurf D, readTSurf (writeTSurf kind name ss ++ rest) = .ok (some (ts, rest))
      ∧ buildFaces ts 0 ranks = .ok (ranks.zipWith (fun r s => (r, s.points.map Pt.round, s.triangles)) ss)
      ∧ ts.bstones = (lineStarts 0 ss).map Prod.fst ∧ ts.borders = lineStarts 0 ss := by
  refine ⟨dataOf name ss, readTSurf_written hn hne hg hW rest, ?_, rfl, rfl⟩
  have hb := buildFaces_dataOf name ss hg hW ss [] ranks rfl hr
  rw [List.length_nil] at hb
  exact hb

/-- The surfaces of a collection have no more vertices than the model. -/
theorem coll_points {m : Model D} {sides : Sides.AllSides} (g : GoodModel m sides) {t : Coll D} (ht : t ∈ tsurfsOf m (collsOf m)) :
    1 + nbPoints t.items ≤ W := by
  have hnd : (t.items.map Surface.id).Nodup := by
    have h := g.once
    rw [← idsOf_model g] at h
    unfold idsOf at h
    rw [List.nodup_flatMap] at h
    exact h.1 t ht
  have hnd' : t.items.Nodup := List.Nodup.of_map _ hnd
  have hsub : t.items.Subperm m.surfaces := List.subperm_of_subset hnd' (fun s hs => items_good g ht hs)
  obtain ⟨l, hl, hsl⟩ := hsub
  have := nbPoints_le hsl
  rw [nbPoints_perm hl] at this
  have := g.points
  omega

/-- Saving a model to a `.ml` file and loading the file gives back the surfaces with their meshes, the collections they are in, the blocks with
their boundary and internal surfaces, and the collections of blocks. -/
theorem round_trip [LawfulNum D] (hp : PlainNumbers D) {m : Model D} {sides : Sides.AllSides} (g : GoodModel m sides) :
    ∃ (f : File) (L : Ml.Loaded D), saveMl m sides = .ok f ∧ loadMl f = .ok L ∧ Kept m L := by
  obtain ⟨ls, st, h1, h2, h3⟩ := components_read hp g
  have hw := writeModelSurfaces_model g
  have hc := collections_kept (D := D) g h2 m.name
  have hr := read_all (rank m) (tsurfsOf m (collsOf m)) (fun t ht =>
    ⟨(colls_good g ht).2.1, (colls_good g ht).2.2, fun s hs => g.meshes s (items_good g ht hs), coll_points g ht⟩)
  refine ⟨[cs!"GOCAD Model3d 1"] ++ writeHeader m.name ++ writeCrs {} ++ ls ++ (tsurfsOf m (collsOf m)).flatMap fun t => writeTSurf t.kind t.name t.items,
    { keptCollections m st m.name with
      meshes := (tsurfsOf m (collsOf m)).flatMap fun t => t.items.map fun s => (rank m s.id, s.points.map Pt.round, s.triangles) }, ?_, ?_, ?_⟩
  rotate_left 1
  · unfold loadMl
    have e : [cs!"GOCAD Model3d 1"] ++ writeHeader m.name ++ writeCrs {} ++ ls ++ (tsurfsOf m (collsOf m)).flatMap (fun t => writeTSurf t.kind t.name t.items) =
        cs!"GOCAD Model3d 1" :: (writeHeader m.name ++ (writeCrs {} ++ (ls ++ (tsurfsOf m (collsOf m)).flatMap fun t => writeTSurf t.kind t.name t.items))) := by simp
    rw [e, gotoKeyword_here (by rfl), Res.ok_bind]
    simp only
    rw [readHeader_good g.name, Res.ok_bind]
    simp only
    rw [readCrs_default, Res.ok_bind]
    simp only
    rw [h3, Res.ok_bind]
    simp only
    rw [hc, Res.ok_bind, h2.tsurfs, hr, Res.ok_bind]
    rfl
  · unfold keptCollections
    refine ⟨rfl, ?_, ?_, rfl, rfl, rfl, h2.blocks, h2.units, h2.faultBlocks, ?_⟩
    · simp only [h2.surfaces]
      rw [← idsOf_model g]
      simp [idsOf, List.length_flatMap]
    · simp only [h2.surfaces]
      unfold tsurfsOf collsOf
      have hu : ∀ l : List (Surface D), (l.map fun s => componentName s.name) = l.flatMap fun s => [componentName s.name] := by
        intro l; induction l with
        | nil => rfl
        | cons a l ih => rw [List.map_cons, List.flatMap_cons, ih]; rfl
      simp only [List.flatMap_append, List.flatMap_map, List.map_map, hu]
      rfl
    · simp only
      have hid := idsOf_model g
      unfold idsOf at hid
      rw [← hid, List.map_flatMap]
      apply flatMap_congr'
      intro t ht
      rw [List.map_map]
      apply List.map_congr_left
      intro s hs
      simp only [Function.comp_apply]
      rw [surfaceAt_self g.ids (items_good g ht hs)]
  · unfold saveMl
    rw [h1, hw]
    rfl

end Verif.Props.MlRoundTrip
