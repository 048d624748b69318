import Verif.Lemmas.LsoFacets
import Verif.Props.LsoRoundTrip

/-!
# Relations of the blocks and surfaces of `.lso` files
-/

namespace Verif.Props.LsoRelations

open Verif Verif.Gocad Verif.GocadMesh Verif.Lso Verif.Sides Verif.Props.LsoNumbers Verif.Props.LsoRoundTrip Res

variable {D : Type} [Num D]

/-- Number of facets of the tetrahedra of a block whose unique vertices are those of a triangle of surface `i`. -/
def nbFacets (m : Model D) (b : Block D) (i : Nat) : Nat :=
  ((b.tetras.flatMap triples).filter fun f =>
    (trianglesOf m i).any fun t => (f.map fun v => uniqueOf m ⟨true, b.id, v⟩).isPerm t).length

/-- Number of triangles of surface `i`. -/
def nbTriangles (m : Model D) (i : Nat) : Nat := (trianglesOf m i).length

/-- The surfaces written, in order. -/
def written (m : Model D) : List Nat := (groups m).flatMap Prod.snd

/-- No triangle belongs to two surfaces. -/
def Apart (m : Model D) : Prop :=
  ∀ i ∈ written m, ∀ j ∈ written m, ∀ t ∈ trianglesOf m i, ∀ u ∈ trianglesOf m j, t.Perm u → i = j

theorem groupsOf_flatMap (m : Model D) (gs : List (Str × List Nat)) : (groupsOf m gs).flatMap Prod.snd = (gs.flatMap Prod.snd).map (trianglesOf m) := by
  unfold groupsOf
  induction gs with
  | nil => rfl
  | cons g gs ih => simp only [List.map_cons, List.flatMap_cons, ih, List.map_append]

theorem filter_length_congr {α : Type} {p q : α → Bool} {l : List α} (h : ∀ a ∈ l, p a = q a) : (l.filter p).length = (l.filter q).length := by
  rw [List.filter_congr h]

theorem groupSurfaces_triangles (m : Model D) (gs : List (Str × List Nat)) : ∀ h,
    (groupSurfaces h (groupsOf m gs)).map (fun r => r.triangles.length) = (gs.flatMap Prod.snd).map (nbTriangles m) := by
  induction gs with
  | nil => intro h; rfl
  | cons g gs ih =>
    intro h
    have e : groupSurfaces h (groupsOf m (g :: gs)) = (g.2.map (trianglesOf m)).map (rsurface g.1 h) ++ groupSurfaces (h + 1) (groupsOf m gs) := rfl
    rw [e, List.map_append, ih, List.flatMap_cons, List.map_append, List.map_map, List.map_map]
    congr 1
    refine List.map_congr_left fun i _ => ?_
    simp only [Function.comp, rsurface, nbTriangles]
    rw [(localCells_spec List.nodup_nil (trianglesOf m i)).2.2.2.1, List.length_map]

theorem nodup_getElem?_inj {l : List Nat} (h : l.Nodup) {i j : Nat} {a : Nat} (hi : l[i]? = some a) (hj : l[j]? = some a) : i = j := by
  obtain ⟨h1, e1⟩ := List.getElem?_eq_some_iff.1 hi
  obtain ⟨h2, e2⟩ := List.getElem?_eq_some_iff.1 hj
  exact (List.Nodup.getElem_inj_iff h).1 (e1.trans e2.symm)

/-- The facets counted for a block and a written surface. -/
theorem relationCount_eq {m : Model D} (h : Loadable m) (ha : Apart m) {ps qs : List (Pt D)}
    (hps : List.Forall₂ (PointOf m) (mains m.uniques) ps)
    (hqs : List.Forall₂ (fun e q => (ps.map Pt.round)[e.1]? = some q) (sharedFrom 0 m.uniques) qs) (hm : ∀ c ∈ m.uniques, ∃ x, mainOf c = [x])
    (hp : Placed m) {b : Block D} (hb : b ∈ m.blocks) {k i : Nat} (hk : (written m)[k]? = some i) :
    relationCount (stateOf m (solidOf m ps qs)).facetIds (b.tetras.map fun t => t.map (rank m b.id)) k = nbFacets m b i := by
  have hF : (stateOf m (solidOf m ps qs)).facetIds = (faceFacets (solidOf m ps qs) 0 ((written m).map (trianglesOf m))).reverse := by
    unfold stateOf
    rw [foldl_addGroup, groupsOf_flatMap]
    simp [written]
  unfold relationCount nbFacets
  have e1 : (b.tetras.map fun t => t.map (rank m b.id)).flatMap facets =
      (b.tetras.flatMap triples).map fun f => facetKey (f.map (rank m b.id)) := by
    rw [List.flatMap_map, List.map_flatMap]
    congr 1
    funext t
    rw [facets_eq, triples_map, List.map_map]
    rfl
  rw [e1, List.filter_map, List.length_map]
  refine filter_length_congr ?_
  intro f hf
  obtain ⟨t, ht, hft⟩ := List.mem_flatMap.1 hf
  have hin : ∀ v ∈ f, (⟨true, b.id, v⟩ : Cmv) ∈ order m := fun v hv => hp b hb t ht v (triples_sub hft v hv)
  have hid : (f.map (rank m b.id)).map (idOf (solidOf m ps qs)) = f.map fun v => uniqueOf m ⟨true, b.id, v⟩ := by
    rw [List.map_map]
    refine List.map_congr_left fun v hv => ?_
    simp only [Function.comp, idOf]
    rw [corner_id h.once hps hqs hm (hin v hv)]; rfl
  have hlt : ∀ v ∈ f.map (rank m b.id), v < (solidOf m ps qs).ids.length := by
    intro v hv
    obtain ⟨v0, hv0, rfl⟩ := List.mem_map.1 hv
    exact (List.getElem?_eq_some_iff.1 (corner_id h.once hps hqs hm (hin v0 hv0))).1
  have htet : ∃ c ∈ (solidOf m ps qs).tetras, f.map (rank m b.id) ∈ triples c := by
    refine ⟨t.map (rank m b.id), ?_, ?_⟩
    · change _ ∈ (records m).map Prod.fst
      exact List.mem_map.2 ⟨(t.map (rank m b.id), b.name), List.mem_flatMap.2 ⟨b, hb, List.mem_map.2 ⟨t, ht, rfl⟩⟩, rfl⟩
    · rw [triples_map]; exact List.mem_map_of_mem hft
  have hul : m.uniques.length < W := by have := h.small; rw [order_length hm] at this; omega
  have hgood : ∀ j, ∀ u ∈ trianglesOf m j, GoodTriangle (solidOf m ps qs) u := fun j => h.triangles rfl hul
  have hmem : ∀ n : Nat, (facetKey (f.map (rank m b.id)), n) ∈ (stateOf m (solidOf m ps qs)).facetIds ↔
      ∃ j, (written m)[n]? = some j ∧ ∃ u ∈ trianglesOf m j, (f.map fun v => uniqueOf m ⟨true, b.id, v⟩).Perm u := by
    intro n
    rw [hF, List.mem_reverse, mem_faceFacets]
    constructor
    · rintro ⟨j, ts, e, hj, u, hu, hk⟩
      rw [List.getElem?_map] at hj
      obtain ⟨i', hi', rfl⟩ := Option.map_eq_some_iff.1 hj
      have : n = j := by omega
      subst this
      refine ⟨i', hi', u, hu, ?_⟩
      rw [← hid]
      exact (mem_solidFacets (hgood i' u hu) hlt htet).1 hk
    · rintro ⟨j, hj, u, hu, hper⟩
      refine ⟨n, trianglesOf m j, by omega, by rw [List.getElem?_map, hj]; rfl, u, hu, ?_⟩
      rw [← hid] at hper
      exact (mem_solidFacets (hgood j u hu) hlt htet).2 hper
  have hwn : (written m).Nodup := (kept_surfaces (collections m) []).1
  rw [Bool.eq_iff_iff]
  simp only [Function.comp, decide_eq_true_eq, List.any_eq_true, List.isPerm_iff]
  constructor
  · intro hfind
    obtain ⟨j, hj, u, hu, hper⟩ := (hmem k).1 (find_mem hfind)
    rw [hk] at hj
    cases hj
    exact ⟨u, hu, hper⟩
  · rintro ⟨u, hu, hper⟩
    refine find_of_mem ((hmem k).2 ⟨i, hk, u, hu, hper⟩) ?_
    intro n hn
    obtain ⟨j, hj, u', hu', hper'⟩ := (hmem n).1 hn
    have : i = j := ha i (List.mem_of_getElem? hk) j (List.mem_of_getElem? hj) u hu u' hu' (hper.symm.trans hper')
    subst this
    exact nodup_getElem?_inj hwn hj hk

/-- When the names of the blocks are words and differ, the tetrahedra read for a block are its own. -/
theorem own_tetras {m : Model D} (h : Loadable m) (hn : ∀ b ∈ m.blocks, IsTok b.name) (hd : (m.blocks.map Block.name).Nodup)
    {ps qs : List (Pt D)} {b : Block D} (hb : b ∈ m.blocks) :
    tetrasNamed (solidOf m ps qs) (wordOr b.name cs!"none") = b.tetras.map fun t => t.map (rank m b.id) := by
  have hword : ∀ b ∈ m.blocks, wordOr b.name cs!"none" = b.name := by
    intro b hb
    rw [wordOr_eq (h.names b hb)]
    unfold firstWord; rw [split_tok (hn b hb)]; rfl
  rw [tetrasNamed_solid]
  have hfil : (m.blocks.filter fun b' => wordOr b'.name cs!"none" = wordOr b.name cs!"none") = [b] := by
    have e3 : (m.blocks.filter fun b' => wordOr b'.name cs!"none" = wordOr b.name cs!"none") = m.blocks.filter fun b' => b'.name = b.name :=
      List.filter_congr fun b' hb' => by rw [hword b' hb', hword b hb]
    rw [e3]
    clear e3 hword hn
    generalize m.blocks = bs at hb hd
    induction bs with
    | nil => simp at hb
    | cons a bs ih =>
      rw [List.map_cons, List.nodup_cons] at hd
      rcases List.mem_cons.1 hb with rfl | hb
      · rw [List.filter_cons_of_pos (by simp)]
        congr 1
        rw [List.filter_eq_nil_iff]
        intro x hx
        have : x.name ≠ b.name := fun e => hd.1 (e ▸ List.mem_map_of_mem hx)
        simpa using this
      · have : a.name ≠ b.name := fun e => hd.1 (e ▸ List.mem_map_of_mem hb)
        rw [List.filter_cons_of_neg (by simpa using this)]
        exact ih hb hd.2
  rw [hfil]; simp

/-- A surface is loaded as a boundary of a block when the block has its triangles once, counting facets of tetrahedra and rounding down, and as an
internal surface when it has them twice. -/
theorem relations [LawfulNum D] {m : Model D} (h : Loadable m) (ha : Apart m) (hn : ∀ b ∈ m.blocks, IsTok b.name)
    (hd : (m.blocks.map Block.name).Nodup) {sides : AllSides} {f : File} (hf : saveLso m sides = .ok f) :
    ∃ L : Lso.Loaded D, loadLso f = .ok L ∧ L.surfaces.length = (written m).length ∧
      List.Forall₂ (fun b r => ∀ k, (k ∈ r.boundaries ↔ ∃ i, (written m)[k]? = some i ∧ nbFacets m b i / nbTriangles m i = 1) ∧
        (k ∈ r.internals ↔ ∃ i, (written m)[k]? = some i ∧ nbFacets m b i / nbTriangles m i = 2)) m.blocks L.blocks := by
  obtain ⟨ps, qs, hps, hqs, hm, hp, hw, e⟩ := load_save h hf
  have hS : (stateOf m (solidOf m ps qs)).surfaces = groupSurfaces 0 (groupsOf m (groups m)) := by
    unfold stateOf; rw [foldl_addGroup]; simp
  have hT := groupSurfaces_triangles m (groups m) 0
  refine ⟨_, e, ?_, ?_⟩
  · simp only [hS]
    have := congrArg List.length hT
    simpa [written] using this
  simp only
  rw [List.forall₂_map_right_iff, List.forall₂_same]
  intro b hb k
  have hmine := own_tetras (ps := ps) (qs := qs) h hn hd hb
  have hrel : ∀ c, k ∈ ((relationsOf (stateOf m (solidOf m ps qs)) (tetrasNamed (solidOf m ps qs) (wordOr b.name cs!"none"))).filter
      fun r => r.2 = some (c + 1)).map Prod.fst ↔ ∃ i, (written m)[k]? = some i ∧ nbFacets m b i / nbTriangles m i = c + 1 := by
    intro c
    rw [hmine]
    constructor
    · intro hk
      obtain ⟨⟨k', o⟩, hk', e1⟩ := List.mem_map.1 hk
      obtain ⟨h1, h2⟩ := List.mem_filter.1 hk'
      simp only at e1
      subst e1
      unfold relationsOf at h1
      obtain ⟨⟨sf, j⟩, hz, e2⟩ := List.mem_map.1 h1
      simp only [Prod.mk.injEq] at e2
      obtain ⟨e2, e3⟩ := e2
      subst e2
      have hsf : (stateOf m (solidOf m ps qs)).surfaces[j]? = some sf := by
        have := List.mk_mem_zipIdx_iff_getElem?.1 hz
        simpa using this
      have hlen : ((written m).map (nbTriangles m))[j]? = some sf.triangles.length := by
        have := congrArg (·[j]?) hT
        simp only [List.getElem?_map] at this
        rw [← hS, hsf] at this
        rw [List.getElem?_map]
        exact this.symm
      rw [List.getElem?_map] at hlen
      obtain ⟨i, hi, hit⟩ := Option.map_eq_some_iff.1 hlen
      refine ⟨i, hi, ?_⟩
      have h2' : o = some (c + 1) := by simpa using h2
      rw [h2'] at e3
      unfold relation at e3
      rw [relationCount_eq h ha hps hqs hm hp hb hi] at e3
      simp only at e3
      split at e3
      · cases e3
      · rw [hit]; exact Option.some.inj e3
    · rintro ⟨i, hi, hq⟩
      have hlt := (List.getElem?_eq_some_iff.1 hi).1
      have hlen : ((stateOf m (solidOf m ps qs)).surfaces.map fun r => r.triangles.length)[k]? = some (nbTriangles m i) := by
        rw [hS, hT, List.getElem?_map]
        change ((written m)[k]?).map (nbTriangles m) = _
        rw [hi]; rfl
      rw [List.getElem?_map] at hlen
      obtain ⟨sf, hsf, hsl⟩ := Option.map_eq_some_iff.1 hlen
      refine List.mem_map.2 ⟨(k, some (c + 1)), List.mem_filter.2 ⟨?_, by simp⟩, rfl⟩
      unfold relationsOf
      refine List.mem_map.2 ⟨(sf, k), ?_, ?_⟩
      · exact List.mk_mem_zipIdx_iff_getElem?.2 (by simpa using hsf)
      · simp only [Prod.mk.injEq, true_and]
        unfold relation
        rw [relationCount_eq h ha hps hqs hm hp hb hi]
        simp only
        rw [if_neg, hsl, hq]
        intro h0
        rw [h0] at hq
        simp at hq
  exact ⟨hrel 0, hrel 1⟩

/-- The two tetrahedra: the triangle between them is a boundary of both. -/
example : Apart twoBlocks ∧ written twoBlocks = [9] ∧ twoBlocks.blocks.map (fun b => (nbFacets twoBlocks b 9, nbTriangles twoBlocks 9)) = [(1, 1), (1, 1)] := by
  refine ⟨?_, by decide +kernel, by decide +kernel⟩
  intro i hi j hj _ _ _ _ _
  have e : written twoBlocks = [9] := by decide +kernel
  rw [e] at hi hj
  simp at hi hj
  omega

end Verif.Props.LsoRelations
