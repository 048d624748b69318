import Verif.Props.LsoSaving
import Verif.Props.LsoToMl
import Verif.Props.LsoOutcomes

/-!
# C203: saving the models that are loaded from LSO files

Theorems about `Model.Lso`: how the writer of `.lso` files ends for the models that the reader of `.lso` files gives.
-/

set_option linter.unusedSectionVars false

namespace Verif.Props.LsoResaved

open Verif Verif.Res Verif.Gocad Verif.GocadMesh Verif.Lso Verif.Props.LsoStable
open Verif.Props.Saveable (Returns Sound LsoSaved lso_saved_iff)
open Verif.Props.LsoOutcomes (Vertices own vertices_fwd tetras_fwd vertices_length tetras_inside verticesOf placesOf named content lso_loads_iff Parts isShared)
open Verif.Props.LsoSaving (Complete Undefined outcomes RegionOk)
open Verif.Props.LsoToMl (relations_known surfaces_sorted ranks_all)

variable {D : Type} [Num D]

/-- Each vertex has the number of a unique vertex. -/
theorem vertices_below {up : Bool} {es : List Nat} {ls : File} : ∀ {prev : List (Pt D)} {nb : Nat} {ps : List (Pt D)} {ids : List Nat},
    Vertices up es prev nb ls ps ids → ids.length = ps.length ∧ ∀ i ∈ ids, i < nb + own ls := by
  induction ls with
  | nil => rintro prev nb ps ids ⟨rfl, rfl⟩; exact ⟨rfl, by simp⟩
  | cons l ls ih =>
    rintro prev nb _ _ ⟨p, id, ps, ids, rfl, rfl, hv, h⟩
    obtain ⟨h1, h2⟩ := ih h
    refine ⟨by simp [h1], fun i hi => ?_⟩
    rw [LsoOutcomes.own_cons]
    rcases List.mem_cons.1 hi with rfl | hi
    · rcases hv with ⟨_, _, _, hlt, _⟩ | ⟨hs, _, rfl, _⟩
      · omega
      · rw [hs]; simp only [Bool.false_eq_true, if_false]; omega
    · have := h2 i hi
      omega

/-- The solid that is loaded: each vertex has a point and the number of a unique vertex, and the vertices and tetrahedra of each block are those of the
tetrahedra with its name. -/
structure Sane (L : Loaded D) : Prop where
  points : L.solid.ids.length = L.solid.points.length
  below : ∀ i ∈ L.solid.ids, i < L.solid.nbUnique
  vertices : ∀ b ∈ L.blocks, ∀ v ∈ b.vertices, v < L.solid.points.length
  tetras : ∀ b ∈ L.blocks, ∀ t ∈ b.tetras, ∀ i ∈ t, i < b.vertices.length

theorem solid_below {f : File} {L : Loaded D} (h : loadLso f = .ok L) : L.solid.ids.length = L.solid.points.length ∧ ∀ i ∈ L.solid.ids, i < L.solid.nbUnique := by
  unfold loadLso at h
  obtain ⟨⟨_, f⟩, -, h⟩ := bind_eq_ok.1 h
  obtain ⟨⟨name, f⟩, -, h⟩ := bind_eq_ok.1 h
  obtain ⟨⟨crs, f⟩, -, h⟩ := bind_eq_ok.1 h
  obtain ⟨⟨vh, f⟩, e4, h⟩ := bind_eq_ok.1 h
  obtain ⟨⟨th, f⟩, e5, h⟩ := bind_eq_ok.1 h
  obtain ⟨⟨s1, l, f⟩, e6, h⟩ := bind_eq_ok.1 h
  obtain ⟨⟨l, f⟩, -, h⟩ := bind_eq_ok.1 h
  obtain ⟨⟨s, l', f'⟩, e8, h⟩ := bind_eq_ok.1 h
  obtain ⟨⟨l, f⟩, -, h⟩ := bind_eq_ok.1 h
  obtain ⟨⟨st, l, f⟩, -, h⟩ := bind_eq_ok.1 h
  obtain ⟨⟨bs, i⟩, -, h⟩ := bind_eq_ok.1 h
  cases h
  have hv0 := PointSetOutcomes.header_lengths e4
  have ht0 := PointSetOutcomes.header_lengths e5
  obtain ⟨v, after, ps, ids, _, hvs, hg, _⟩ := vertices_fwd (h := vh) (by simpa using hv0) e6
  obtain ⟨h1, h2⟩ := vertices_below hvs
  have htf : PointSetOutcomes.Filled th s1.tattrs s1.tetras.length := by rw [hg.tattrs, hg.tetras]; simpa using ht0
  obtain ⟨_, _, _, _, ha, _⟩ := tetras_fwd _ (Nat.le_refl _) htf e8
  have e1 : s.ids = ids := by rw [ha.ids, hg.ids]; rfl
  have e2 : s.points = ps := by rw [ha.points, hg.points]; rfl
  have e3 : s.nbUnique = 0 + own (v :: after.takeWhile LsoOutcomes.hasVrtx) := by rw [ha.nb, hg.nb]
  refine ⟨?_, ?_⟩
  · show s.ids.length = s.points.length
    rw [e1, e2, h1]
  · show ∀ i ∈ s.ids, i < s.nbUnique
    rw [e1, e3]
    exact h2

theorem loaded_sane {f : File} {L : Loaded D} (h : loadLso f = .ok L) : Sane L := by
  obtain ⟨h1, h2⟩ := solid_below h
  obtain ⟨P, g⟩ := (lso_loads_iff f (content L)).1 ⟨L, h, rfl⟩
  have hp : L.solid.points.length = P.vertexLines.length := vertices_length g.vertices
  have hin := tetras_inside P.tetrasRead
  have hb : ∀ b ∈ L.blocks, b.vertices = verticesOf (named P.tetras P.names b.name) ∧ b.tetras = placesOf (named P.tetras P.names b.name) := by
    have key : ∀ {ls : File} {bs : List LsoOutcomes.Block}, List.Forall₂ (LsoOutcomes.Region P.th P.tetras P.names) ls bs →
        ∀ b ∈ bs, b.2.1 = verticesOf (named P.tetras P.names b.1) ∧ b.2.2 = placesOf (named P.tetras P.names b.1) := by
      intro ls bs hf
      induction hf with
      | nil => intro b hb; cases hb
      | cons a _ ih =>
        intro b hb
        rcases List.mem_cons.1 hb with rfl | hb
        · exact ⟨a.2.1, a.2.2.1⟩
        · exact ih b hb
    intro b hb
    exact key g.blocks (LsoOutcomes.blockOf b) (List.mem_map.2 ⟨b, hb, rfl⟩)
  refine ⟨h1, h2, fun b hb' v hv => ?_, fun b hb' t ht i hi => ?_⟩
  · rw [(hb b hb').1] at hv
    obtain ⟨t, ht, hvt⟩ := List.mem_flatten.1 (by simpa [verticesOf] using hv)
    unfold named at ht
    obtain ⟨e, he, rfl⟩ := List.mem_map.1 ht
    rw [hp]
    exact hin _ (List.of_mem_zip (List.mem_filter.1 he).1).1 v hvt
  · rw [(hb b hb').2] at ht
    rw [(hb b hb').1]
    obtain ⟨c, hc, rfl⟩ := List.mem_map.1 ht
    obtain ⟨v, hv, rfl⟩ := List.mem_map.1 hi
    exact List.idxOf_lt_length_of_mem (by unfold verticesOf; rw [List.mem_eraseDups]; exact List.mem_flatten.2 ⟨c, hc, hv⟩)

variable {f : File} {L : Loaded D} {ids : Nat → Nat} {ext : List (Str × List Nat)}

/-- The model boundaries are made of surfaces of the model. -/
def Ext (L : Loaded D) (ext : List (Str × List Nat)) : Prop := ∀ c ∈ ext, ∀ i ∈ c.2, i < L.surfaces.length

/-- The model of each file that loads can be saved again. -/
def Resaved (D : Type) [Num D] : Prop := ∀ (f : File) (L : Loaded D), loadLso f = .ok L → ∀ (ids : Nat → Nat) (ext : List (Str × List Nat)) (sides : Sides.AllSides),
  (∀ a b, ids a = ids b → a = b) → Ext L ext → HasSides sides ids L → Returns (saveLso (again ids ext L) sides)

theorem again_sound (hids : ∀ a b, ids a = ids b → a = b) (s : Sane L) : Sound (again ids ext L) where
  once := again_once hids
  points := by
    intro l hl c hc hb
    unfold again at hl
    obtain ⟨u, hu, rfl⟩ := List.mem_map.1 hl
    rcases mem_cmvsAt.1 hc with ⟨_, _, _, _, _, _, _, rfl⟩ | ⟨k, i, v, b, hk, hv, _, rfl⟩
    · simp at hb
    · have hp := s.vertices b (List.mem_of_getElem? hk)
      have hlt := hp v (List.mem_of_getElem? hv)
      have hmem := mem_again_blocks (ids := ids) (ext := ext).2 ⟨k, b, hk, rfl⟩
      exact ⟨L.solid.points[v], _, find_block (again_ids hids) hmem, by
        show (pointsAt L.solid b.vertices)[i]? = _
        rw [pointsAt_getElem? hp, hv]
        exact List.getElem?_eq_getElem hlt⟩

theorem again_complete (h : loadLso f = .ok L) (hext : Ext L ext) : Complete (again ids ext L) where
  corners := by
    intro b1 hb1 t ht i hi
    have s := loaded_sane h
    obtain ⟨k, b, hk, rfl⟩ := mem_again_blocks.1 hb1
    have hb := List.mem_of_getElem? hk
    have hi : i < b.vertices.length := s.tetras b hb t ht i hi
    have hv := s.vertices b hb _ (List.getElem_mem hi)
    have hlt : idOf L.solid b.vertices[i] < L.solid.nbUnique := by
      rw [← s.points] at hv
      unfold idOf
      rw [List.getElem?_eq_getElem hv]
      exact s.below _ (List.getElem_mem hv)
    exact ⟨_, List.mem_of_getElem? (again_uniques hlt), mem_cmvsAt.2 (Or.inr ⟨k, i, _, b, hk, List.getElem?_eq_getElem hi, rfl, rfl⟩)⟩
  faces := by
    intro c hc i hi
    have hlt : i < L.surfaces.length := by
      rcases List.mem_append.1 (show c ∈ (again ids ext L).horizons ++ [] ++ ext from hc) with hc | hc
      · rw [List.append_nil] at hc
        obtain ⟨e, _, rfl⟩ := List.mem_map.1 (show c ∈ L.horizons.zipIdx.map fun e => (e.1, ranksOf L.surfaces e.2) from hc)
        obtain ⟨r, hr, rfl⟩ := List.mem_map.1 hi
        exact (List.getElem?_eq_some_iff.1 (List.mem_zipIdx_iff_getElem?.1 (List.mem_filter.1 hr).1)).1
      · exact hext c hc i hi
    exact ⟨_, again_surfaceOf (List.getElem?_eq_getElem hlt)⟩

/-- Every surface is in a horizon. -/
theorem again_horizon (h : loadLso f = .ok L) {i : Nat} (hi : i < L.surfaces.length) : ∃ c ∈ collections (again ids ext L), i ∈ c.2 := by
  have hr := (surfaces_sorted h).2 _ (List.getElem_mem hi)
  refine ⟨(L.surfaces[i].name, ranksOf L.surfaces L.surfaces[i].horizon), ?_, ?_⟩
  · unfold collections
    refine List.mem_append_left _ (List.mem_append_left _ ?_)
    exact List.mem_map.2 ⟨(L.surfaces[i].name, L.surfaces[i].horizon), List.mem_zipIdx_iff_getElem?.2 hr, rfl⟩
  · exact List.mem_map.2 ⟨(L.surfaces[i], i), List.mem_filter.2 ⟨List.mem_zipIdx_iff_getElem?.2 (List.getElem?_eq_getElem hi), by simp⟩, rfl⟩

/-- What a model needs to be saved again: each unique vertex is at a vertex of a block, each surface has a triangle, and each block has a boundary surface. -/
structure Full (L : Loaded D) : Prop where
  vertices : ∀ u < L.solid.nbUnique, ∃ b ∈ L.blocks, ∃ v ∈ b.vertices, idOf L.solid v = u
  surfaces : ∀ r ∈ L.surfaces, r.triangles ≠ []
  blocks : ∀ b ∈ L.blocks, b.boundaries ≠ []

/-- **C203**, exactly: the model of a file is saved under these three conditions; otherwise saving it is undefined. -/
theorem resaved_iff (h : loadLso f = .ok L) (hids : ∀ a b, ids a = ids b → a = b) (hext : Ext L ext) {sides : Sides.AllSides} (hs : HasSides sides ids L) :
    (Returns (saveLso (again ids ext L) sides) ↔ Full L) ∧ (saveLso (again ids ext L) sides = .ub ↔ ¬Full L) := by
  have s := loaded_sane h
  have snd : Sound (again ids ext L) := again_sound hids s
  have cpl : Complete (again ids ext L) := again_complete (ids := ids) h hext
  have hat : ∀ u < L.solid.nbUnique, ((∃ c ∈ cmvsAt ids L u, c.isBlock = true) ↔ ∃ b ∈ L.blocks, ∃ v ∈ b.vertices, idOf L.solid v = u) := by
    intro u _
    constructor
    · rintro ⟨c, hc, hb⟩
      rcases mem_cmvsAt.1 hc with ⟨_, _, _, _, _, _, _, rfl⟩ | ⟨k, i, v, b, hk, hv, e, rfl⟩
      · simp at hb
      · exact ⟨b, List.mem_of_getElem? hk, v, List.mem_of_getElem? hv, e⟩
    · rintro ⟨b, hb, v, hv, e⟩
      obtain ⟨k, hk⟩ := List.mem_iff_getElem?.1 hb
      obtain ⟨i, hi⟩ := List.mem_iff_getElem?.1 hv
      exact ⟨_, mem_cmvsAt.2 (Or.inr ⟨k, i, v, b, hk, hi, e, rfl⟩), rfl⟩
  have saved : LsoSaved (again ids ext L) sides ↔ Full L := by
    constructor
    · intro g
      refine ⟨fun u hu => (hat u hu).1 (g.vertices _ (List.mem_of_getElem? (again_uniques hu))), fun r hr => ?_, fun b hb => ?_⟩
      · obtain ⟨i, hi⟩ := List.mem_iff_getElem?.1 hr
        obtain ⟨c, hc, hic⟩ := again_horizon (ids := ids) (ext := ext) h (List.getElem?_eq_some_iff.1 hi).1
        obtain ⟨x, hx, ht⟩ := g.faces c hc i hic
        have e : (again ids ext L).surfaces.find? (fun s => s.id = i) = some ⟨i, r.triangles⟩ := again_surfaceOf hi
        rw [e] at hx
        cases hx
        exact ht
      · obtain ⟨k, hk⟩ := List.mem_iff_getElem?.1 hb
        obtain ⟨j, hj, _⟩ := g.regions _ (mem_again_blocks.2 ⟨k, b, hk, rfl⟩)
        intro e
        have hj : b.boundaries[0]? = some j := hj
        rw [e] at hj
        cases hj
    · intro g
      refine ⟨fun l hl => ?_, cpl.corners, fun c hc i hi => ?_, fun b1 hb1 => ?_⟩
      · obtain ⟨u, hu, rfl⟩ := List.mem_map.1 (show l ∈ (List.range L.solid.nbUnique).map (cmvsAt ids L) from hl)
        have hu := List.mem_range.1 hu
        exact (hat u hu).2 (g.vertices u hu)
      · obtain ⟨x, hx⟩ := cpl.faces c hc i hi
        obtain ⟨j, r, hr, rfl⟩ := mem_again_surfaces.1 (List.mem_of_find?_eq_some hx)
        exact ⟨_, hx, g.surfaces r (List.mem_of_getElem? hr)⟩
      · obtain ⟨k, b, hk, rfl⟩ := mem_again_blocks.1 hb1
        have hb := List.mem_of_getElem? hk
        cases e : b.boundaries with
        | nil => exact absurd e (g.blocks b hb)
        | cons j js =>
          have hj : j ∈ b.boundaries := by rw [e]; exact List.mem_cons_self
          exact ⟨j, rfl, hs k b hk j hj, again_horizon h (relations_known h hb j (List.mem_append_left _ hj))⟩
  have hret := (lso_saved_iff snd sides).trans saved
  refine ⟨hret, ?_⟩
  constructor
  · intro e g
    obtain ⟨a, ha⟩ := hret.2 g
    rw [ha] at e
    cases e
  · intro hn
    refine (outcomes snd cpl sides).1.2 ?_
    by_cases h1 : ∀ u < L.solid.nbUnique, ∃ b ∈ L.blocks, ∃ v ∈ b.vertices, idOf L.solid v = u
    · by_cases h2 : ∀ r ∈ L.surfaces, r.triangles ≠ []
      · have h3 : ∃ b ∈ (again ids ext L).blocks, b.boundaries = [] := by
          by_contra hc
          refine hn ⟨h1, h2, fun b hb e => hc ?_⟩
          obtain ⟨k, hk⟩ := List.mem_iff_getElem?.1 hb
          exact ⟨_, mem_again_blocks.2 ⟨k, b, hk, rfl⟩, e⟩
        refine Or.inr (Or.inr ?_)
        -- the first block without boundary
        have first : ∀ {l : List (Block D)}, (∃ b ∈ l, b.boundaries = []) → ∃ pre b post, l = pre ++ b :: post ∧ (∀ x ∈ pre, x.boundaries ≠ []) ∧ b.boundaries = [] := by
          intro l
          induction l with
          | nil => rintro ⟨b, hb, _⟩; cases hb
          | cons a l ih =>
            rintro ⟨b, hb, e⟩
            by_cases ha : a.boundaries = []
            · exact ⟨[], a, l, rfl, by simp, ha⟩
            · rcases List.mem_cons.1 hb with rfl | hb
              · exact absurd e ha
              · obtain ⟨pre, x, post, rfl, h1, h2⟩ := ih ⟨b, hb, e⟩
                exact ⟨a :: pre, x, post, rfl, List.forall_mem_cons.2 ⟨ha, h1⟩, h2⟩
        obtain ⟨pre, b, post, e, hpre, hb⟩ := first h3
        refine ⟨pre, b, post, e, fun x hx => ?_, hb⟩
        have hxm : x ∈ (again ids ext L).blocks := by rw [e]; exact List.mem_append_left _ hx
        obtain ⟨k, b', hk, rfl⟩ := mem_again_blocks.1 hxm
        have hb' := List.mem_of_getElem? hk
        have hne : b'.boundaries ≠ [] := hpre _ hx
        cases eb : b'.boundaries with
        | nil => exact absurd eb hne
        | cons j js =>
          have hj : j ∈ b'.boundaries := by rw [eb]; exact List.mem_cons_self
          exact ⟨j, rfl, hs k b' hk j hj, again_horizon h (relations_known h hb' j (List.mem_append_left _ hj))⟩
      · refine Or.inr (Or.inl ?_)
        obtain ⟨r, hr, ht⟩ : ∃ r ∈ L.surfaces, r.triangles = [] := by
          by_contra hc
          exact h2 fun r hr e => hc ⟨r, hr, e⟩
        obtain ⟨i, hi⟩ := List.mem_iff_getElem?.1 hr
        obtain ⟨c, hc, hic⟩ := again_horizon (ids := ids) (ext := ext) h (List.getElem?_eq_some_iff.1 hi).1
        refine ⟨c, hc, i, hic, ?_⟩
        rintro ⟨x, hx, hne⟩
        have e : (again ids ext L).surfaces.find? (fun s => s.id = i) = some ⟨i, r.triangles⟩ := again_surfaceOf hi
        rw [e] at hx
        cases hx
        exact hne ht
    · refine Or.inl ?_
      by_contra hc
      refine h1 fun u hu => (hat u hu).1 ?_
      by_contra hn
      exact hc ⟨_, List.mem_of_getElem? (again_uniques hu), hn⟩

/-- **C203** for models in which each unique vertex is at a block, each surface has a triangle and each block has a boundary surface. -/
theorem resaved_partial (h : loadLso f = .ok L) (hids : ∀ a b, ids a = ids b → a = b) (hext : Ext L ext) {sides : Sides.AllSides} (hs : HasSides sides ids L)
    (g : Full L) : ∃ f', saveLso (again ids ext L) sides = .ok f' := (resaved_iff h hids hext hs).1.2 g

/-- The lines of `LsoToMl.small` with a vertex that no tetrahedron has. -/
def loose : File :=
  [cs!"GOCAD LightTSolid 1", cs!"HEADER {", cs!"name: m", cs!"}", cs!"GOCAD_ORIGINAL_COORDINATE_SYSTEM", cs!"END_ORIGINAL_COORDINATE_SYSTEM",
    cs!"VRTX 1 0 0 0", cs!"VRTX 2 1 0 0", cs!"VRTX 3 0 1 0", cs!"VRTX 4 0 0 1", cs!"VRTX 5 5 5 5",
    cs!"TETRA 1 2 3 4", cs!"# CTETRA A top top top top", cs!"MODEL", cs!"SURFACE top", cs!"TFACE 1", cs!"KEYVERTICES 1 2 3", cs!"TRGL 1 2 3",
    cs!"SURFACE base", cs!"TFACE 2", cs!"KEYVERTICES 1 2 4", cs!"TRGL 1 2 4", cs!"MODEL_REGION A +1", cs!"END"]

/-- What is loaded from it. -/
def looseModel : Loaded Int := { LsoToMl.smallModel with
  solid := { points := [⟨0, 0, 0⟩, ⟨1, 0, 0⟩, ⟨0, 1, 0⟩, ⟨0, 0, 1⟩, ⟨5, 5, 5⟩], ids := [0, 1, 2, 3, 4], nbUnique := 5, tetras := [[0, 1, 2, 3]], names := [cs!"A"] } }

/-- A test: the file is loaded. -/
theorem loose_loads : loadLso loose = .ok looseModel := by decide +kernel

theorem loose_sides : HasSides LsoToMl.smallSides id looseModel := by
  intro k b hk j hj
  match k, hk with
  | 0, hk =>
    cases hk
    rcases List.mem_cons.1 hj with rfl | hj
    · rfl
    · rw [List.mem_singleton.1 hj]; rfl

/-- **C203 fails**: a file with a vertex of no tetrahedron is loaded, and saving the model is undefined. -/
theorem resaved_fails : ¬Resaved Int := by
  intro h
  have h1 := h loose looseModel loose_loads id [] LsoToMl.smallSides (fun _ _ e => e) (by intro c hc; cases hc) loose_sides
  have g := (resaved_iff loose_loads (fun _ _ e => e) (by intro c hc; cases hc) loose_sides).1.1 h1
  have : ¬∃ b ∈ looseModel.blocks, ∃ v ∈ b.vertices, idOf looseModel.solid v = 4 := by decide
  exact this (g.vertices 4 (by decide))

/-- The hypotheses of `resaved_partial` hold for a model that is loaded. -/
example : loadLso LsoToMl.small = .ok LsoToMl.smallModel ∧ HasSides LsoToMl.smallSides id LsoToMl.smallModel ∧ Full LsoToMl.smallModel :=
  ⟨LsoToMl.small_loads, fun k b hk j hj => loose_sides k b hk j hj, ⟨by decide, by decide, by decide⟩⟩

end Verif.Props.LsoResaved
