import Verif.Lemmas.LsoSurfaces

/-!
# What is loaded from a saved solid
-/

namespace Verif.Lso

open Verif Verif.Gocad Verif.GocadMesh Verif.Sides Res

variable {D : Type} [Num D]

/-! ## The surfaces read -/

/-- A surface made of triangles of the solid. -/
def rsurface (name : Str) (horizon : Nat) (ts : List (List Nat)) : RSurface := ⟨name, horizon, (localCells [] ts).1, (localCells [] ts).2⟩

/-- The facets of surfaces numbered from `n`, in order. -/
def faceFacets (s : Solid D) : Nat → List (List (List Nat)) → List (List Nat × Nat)
  | _, [] => []
  | n, ts :: fs => (ts.flatMap (solidFacets s)).map (fun k => (k, n)) ++ faceFacets s (n + 1) fs

/-- The surfaces of groups, the first group being number `h`. -/
def groupSurfaces : Nat → List (Str × List (List (List Nat))) → List RSurface
  | _, [] => []
  | h, g :: gs => g.2.map (rsurface g.1 h) ++ groupSurfaces (h + 1) gs

theorem addTriangles_eq (s : Solid D) (ts : List (List Nat)) : ∀ (st : RState) (before : List RSurface) (cur : RSurface), st.surfaces = before ++ [cur] →
    addTriangles s st ts =
      { st with
        surfaces := before ++ [{ cur with vertices := (localCells cur.vertices ts).1, triangles := cur.triangles ++ (localCells cur.vertices ts).2 }]
        facetIds := ((ts.flatMap (solidFacets s)).map (fun k => (k, before.length))).reverse ++ st.facetIds
        inspect := st.inspect || ts.any fun t => (solidFacets s t).isEmpty } := by
  induction ts with
  | nil =>
    intro st before cur h
    simp only [addTriangles, List.foldl_nil, localCells, List.append_nil, List.flatMap_nil, List.map_nil, List.reverse_nil, List.nil_append, List.any_nil, Bool.or_false]
    rw [← h]
  | cons t ts ih =>
    intro st before cur h
    have e1 : addTriangle s st t =
        { st with
          surfaces := before ++ [{ cur with vertices := (localCell cur.vertices t).1, triangles := cur.triangles ++ [(localCell cur.vertices t).2] }]
          facetIds := ((solidFacets s t).map (fun k => (k, before.length))).reverse ++ st.facetIds
          inspect := st.inspect || (solidFacets s t).isEmpty } := by
      unfold addTriangle
      have : st.surfaces.reverse = cur :: before.reverse := by rw [h]; simp
      rw [this]
      simp
    have e2 : addTriangles s st (t :: ts) = addTriangles s (addTriangle s st t) ts := rfl
    rw [e2, e1]
    refine (ih _ before { cur with vertices := (localCell cur.vertices t).1, triangles := cur.triangles ++ [(localCell cur.vertices t).2] } rfl).trans ?_
    have e3 : localCells cur.vertices (t :: ts) =
        ((localCells (localCell cur.vertices t).1 ts).1, (localCell cur.vertices t).2 :: (localCells (localCell cur.vertices t).1 ts).2) := rfl
    simp [e3, Bool.or_assoc]

theorem addFaces_eq (s : Solid D) (fs : List (List (List Nat))) : ∀ (st : RState),
    addFaces s st fs =
      { st with
        surfaces := st.surfaces ++ fs.map (rsurface (st.horizons.getLastD []) (st.horizons.length - 1))
        facetIds := (faceFacets s st.surfaces.length fs).reverse ++ st.facetIds
        inspect := st.inspect || fs.any fun ts => ts.any fun t => (solidFacets s t).isEmpty } := by
  induction fs with
  | nil => intro st; simp [addFaces, faceFacets]
  | cons ts fs ih =>
    intro st
    have e1 : addFaces s st (ts :: fs) = addFaces s (addTriangles s (startFace st) ts) fs := rfl
    rw [e1, addTriangles_eq s ts (startFace st) st.surfaces _ rfl, ih]
    simp [startFace, faceFacets, rsurface, Bool.or_assoc]

theorem addGroup_eq (s : Solid D) (st : RState) (g : Str × List (List (List Nat))) :
    addGroup s st g =
      { horizons := st.horizons ++ [g.1]
        surfaces := st.surfaces ++ g.2.map (rsurface g.1 st.horizons.length)
        facetIds := (faceFacets s st.surfaces.length g.2).reverse ++ st.facetIds
        inspect := st.inspect || g.2.any fun ts => ts.any fun t => (solidFacets s t).isEmpty } := by
  unfold addGroup
  rw [addFaces_eq]
  simp

theorem faceFacets_append (s : Solid D) (n : Nat) (a b : List (List (List Nat))) :
    faceFacets s n (a ++ b) = faceFacets s n a ++ faceFacets s (n + a.length) b := by
  induction a generalizing n with
  | nil => rfl
  | cons t a ih => simp [faceFacets, ih, Nat.add_assoc, Nat.add_comm 1]

theorem foldl_addGroup (s : Solid D) (gs : List (Str × List (List (List Nat)))) : ∀ (st : RState),
    gs.foldl (addGroup s) st =
      { horizons := st.horizons ++ gs.map Prod.fst
        surfaces := st.surfaces ++ groupSurfaces st.horizons.length gs
        facetIds := (faceFacets s st.surfaces.length (gs.flatMap Prod.snd)).reverse ++ st.facetIds
        inspect := st.inspect || (gs.flatMap Prod.snd).any fun ts => ts.any fun t => (solidFacets s t).isEmpty } := by
  induction gs with
  | nil => intro st; simp [faceFacets, groupSurfaces]
  | cons g gs ih =>
    intro st
    rw [List.foldl_cons, ih, addGroup_eq]
    simp [groupSurfaces, faceFacets_append, Bool.or_assoc]

/-! ## The tetrahedra written -/

theorem mapM'_inv {α β : Type} {f : α → Res β} : ∀ {l : List α} {r : List β}, Res.mapM' f l = .ok r → List.Forall₂ (fun a b => f a = .ok b) l r := by
  intro l
  induction l with
  | nil => intro r h; cases h; exact List.Forall₂.nil
  | cons a l ih =>
    intro r h
    rw [mapM'_cons] at h
    obtain ⟨b, hb, h2⟩ := bind_eq_ok.1 h
    obtain ⟨bs, hbs, h3⟩ := bind_eq_ok.1 h2
    cases h3
    exact List.Forall₂.cons hb (ih hbs)

/-- Place in the file of a vertex of a block. -/
def rank (m : Model D) (block v : Nat) : Nat := (order m).idxOf ⟨true, block, v⟩

/-- The tetrahedra of the file. -/
def records (m : Model D) : List (List Nat × Str) := m.blocks.flatMap fun b => b.tetras.map fun t => (t.map (rank m b.id), b.name)

theorem tetraLines_append (a b : List (List Nat × Str)) : tetraLines (a ++ b) = tetraLines a ++ tetraLines b := by
  induction a with
  | nil => rfl
  | cons r a ih => simp [tetraLines, ih]

/-- The model has no vertex of a tetrahedron that is not at a unique vertex. -/
def Placed (m : Model D) : Prop := ∀ b ∈ m.blocks, ∀ t ∈ b.tetras, ∀ v ∈ t, (⟨true, b.id, v⟩ : Cmv) ∈ order m

theorem writeTetra_ok {m : Model D} (ho : Once m) (hm : ∀ c ∈ m.uniques, ∃ x, mainOf c = [x]) {b : Block D} {t : List Nat} {ls : File}
    (h : writeTetra m (tables 0 m.uniques.length m.uniques) b t = .ok ls) :
    (∀ v ∈ t, (⟨true, b.id, v⟩ : Cmv) ∈ order m) ∧ ls = tetraLines [(t.map (rank m b.id), b.name)] := by
  obtain ⟨ns, hns, h2⟩ := bind_eq_ok.1 h
  have hf := mapM'_inv hns
  clear hns h
  have key : (∀ v ∈ t, (⟨true, b.id, v⟩ : Cmv) ∈ order m) ∧ ns.map showNat = (t.map (rank m b.id)).map fun v => showNat (v + 1) := by
    clear h2
    induction hf with
    | nil => exact ⟨by simp, rfl⟩
    | cons hv _ ih =>
      have hmem := vertexNumber_mem hm hv
      have e := vertexNumber_eq ho hm hmem
      rw [hv] at e
      have e' := Res.ok.inj e
      refine ⟨?_, ?_⟩
      · intro w hw
        rcases List.mem_cons.1 hw with rfl | hw
        · exact hmem
        · exact ih.1 w hw
      · rw [List.map_cons, List.map_cons, List.map_cons, ih.2, e']
        rfl
  refine ⟨key.1, ?_⟩
  have h3 := Res.ok.inj h2
  rw [← h3, key.2]
  rfl

theorem writeBlockTetras_ok {m : Model D} (ho : Once m) (hm : ∀ c ∈ m.uniques, ∃ x, mainOf c = [x]) {b : Block D} {ts : List (List Nat)} {ls : List File}
    (h : List.Forall₂ (fun t l => writeTetra m (tables 0 m.uniques.length m.uniques) b t = .ok l) ts ls) :
    (∀ t ∈ ts, ∀ v ∈ t, (⟨true, b.id, v⟩ : Cmv) ∈ order m) ∧ ls.flatten = tetraLines (ts.map fun t => (t.map (rank m b.id), b.name)) := by
  induction h with
  | nil => exact ⟨by simp, rfl⟩
  | cons ht _ ih =>
    obtain ⟨h1, h2⟩ := writeTetra_ok ho hm ht
    refine ⟨?_, ?_⟩
    · intro t' ht'
      rcases List.mem_cons.1 ht' with rfl | ht'
      · exact h1
      · exact ih.1 t' ht'
    · rw [List.flatten_cons, ih.2, h2, List.map_cons, ← tetraLines_append]; rfl

theorem writeTetras_ok {m : Model D} (ho : Once m) (hm : ∀ c ∈ m.uniques, ∃ x, mainOf c = [x]) {ls : File}
    (h : writeTetras m (tables 0 m.uniques.length m.uniques) = .ok ls) : Placed m ∧ ls = tetraLines (records m) := by
  obtain ⟨lss, h1, h2⟩ := bind_eq_ok.1 h
  have h3 := Res.ok.inj h2
  rw [← h3]
  have hf := mapM'_inv h1
  unfold Placed records
  clear h h1 h2 h3
  generalize m.blocks = bs at hf
  induction hf with
  | nil => exact ⟨by simp, rfl⟩
  | cons hb _ ih =>
    obtain ⟨g1, g2⟩ := writeBlockTetras_ok ho hm (mapM'_inv hb)
    refine ⟨?_, ?_⟩
    · intro b' hb'
      rcases List.mem_cons.1 hb' with rfl | hb'
      · exact g1
      · exact ih.1 b' hb'
    · rw [List.map_cons, List.flatten_cons, ih.2, g2, List.flatMap_cons, tetraLines_append]

/-! ## Blocks -/

/-- The block read for a name. -/
def loadedBlock (s : Solid D) (st : RState) (w : Str) : RBlock D :=
  { name := w, vertices := (localCells [] (tetrasNamed s w)).1, tetras := (localCells [] (tetrasNamed s w)).2
    boundaries := ((relationsOf st (tetrasNamed s w)).filter fun r => r.2 = some 1).map Prod.fst
    internals := ((relationsOf st (tetrasNamed s w)).filter fun r => r.2 = some 2).map Prod.fst }

/-- Whether a block has to be inspected. -/
def oddBlock (st : RState) (s : Solid D) (w : Str) : Bool := (relationsOf st (tetrasNamed s w)).any fun r => r.2 ≠ none ∧ r.2 ≠ some 1 ∧ r.2 ≠ some 2

/-- The line of a region. -/
def regionLine (n : Str) (side : Bool) (k : Nat) : Str := cs!"MODEL_REGION" ++ spaced [n, (if side then '+' else '-') :: showNat k]

theorem isTok_sign (side : Bool) (k : Nat) : IsTok ((if side then '+' else '-') :: showNat k) := by
  have := isTok_showNat k
  refine ⟨by simp, ?_⟩
  intro c hc
  rcases List.mem_cons.1 hc with rfl | hc
  · cases side <;> rfl
  · exact this.2 c hc

theorem readBlock_regionLine {s : Solid D} {st : RState} (n : Str) (side : Bool) (k : Nat) (hn : split n ≠ []) :
    readBlock {} s st (regionLine n side k) = .ok (loadedBlock s st (wordOr n cs!"none"), oddBlock st s (wordOr n cs!"none")) := by
  have hs : split (regionLine n side k) = cs!"MODEL_REGION" :: (split n ++ [(if side then '+' else '-') :: showNat k]) := by
    unfold regionLine
    rw [split_kw_spaced' (by decide)]
    simp [split_tok (isTok_sign side k)]
  have hi : Res.index (split (regionLine n side k)) 1 = .ok (wordOr n cs!"none") := by
    rw [hs]
    unfold wordOr
    cases h : split n with
    | nil => exact absurd h hn
    | cons a b => rfl
  unfold readBlock
  rw [hi, ok_bind]
  rfl

theorem writeRegions_ok {sides : AllSides} {ex : List (Nat × Nat)} {bs : List (Block D)} {ls : File} (h : Res.mapM' (writeRegion sides ex) bs = .ok ls) :
    List.Forall₂ (fun b l => ∃ s side k, b.boundaries[0]? = some s ∧ find sides.regions (b.id, s) = some side ∧ find ex s = some k ∧
      l = regionLine b.name side k) bs ls := by
  have hf := mapM'_inv h
  clear h
  induction hf with
  | nil => exact List.Forall₂.nil
  | cons hb _ ih =>
    refine List.Forall₂.cons ?_ ih
    obtain ⟨s, h1, h2⟩ := bind_eq_ok.1 hb
    obtain ⟨side, h3, h4⟩ := bind_eq_ok.1 h2
    obtain ⟨k, h5, h6⟩ := bind_eq_ok.1 h4
    exact ⟨s, side, k, index_eq_ok.1 h1, ofParse_eq_ok.1 h3, ofParse_eq_ok.1 h5, (Res.ok.inj h6).symm⟩

theorem readBlocks_lines {s : Solid D} {st : RState} {bs : List (Block D)} {ls : File} (hn : ∀ b ∈ bs, split b.name ≠ [])
    (h : List.Forall₂ (fun (b : Block D) l => ∃ side k, l = regionLine b.name side k) bs ls) : ∀ (acc : List (RBlock D)) (i : Bool),
    ∃ l0 f0, ls ++ [cs!"END"] = l0 :: f0 ∧ (∀ kw ∈ [cs!"SURFACE", cs!"TFACE", cs!"TRGL"], startsWith l0 kw = false) ∧
      readBlocks {} s st (acc, i) l0 f0 =
        .ok (acc ++ bs.map (fun b => loadedBlock s st (wordOr b.name cs!"none")), i || bs.any fun b => oddBlock st s (wordOr b.name cs!"none")) := by
  induction h with
  | nil =>
    intro acc i
    refine ⟨cs!"END", [], rfl, by decide, ?_⟩
    have : startsWith cs!"END" cs!"MODEL_REGION" = false := rfl
    rw [readBlocks, this]
    simp
  | @cons b l bs ls hb _ ih =>
    intro acc i
    obtain ⟨side, k, rfl⟩ := hb
    obtain ⟨l1, f1, e1, _, e2⟩ := ih (fun b hb => hn b (List.mem_cons_of_mem _ hb)) (acc ++ [loadedBlock s st (wordOr b.name cs!"none")])
      (i || oddBlock st s (wordOr b.name cs!"none"))
    refine ⟨regionLine b.name side k, l1 :: f1, by rw [List.cons_append, e1], ?_, ?_⟩
    · intro kw hkw
      simp only [List.mem_cons, List.not_mem_nil, or_false] at hkw
      rcases hkw with rfl | rfl | rfl <;> rfl
    · have : startsWith (regionLine b.name side k) cs!"MODEL_REGION" = true := startsWith_append _ _
      rw [readBlocks, this, if_pos rfl, readBlock_regionLine _ _ _ (hn b (by simp)), ok_bind]
      refine e2.trans ?_
      simp [Bool.or_assoc]

/-! ## The whole file -/

/-- The collections of a model, in the order of writing. -/
def collections (m : Model D) : List (Str × List Nat) := m.horizons ++ m.faults ++ m.boundaries

/-- The models considered: every vertex of a mesh at one unique vertex, cells with the right number of vertices, a tetrahedron, and names that can be
read. -/
structure Loadable (m : Model D) : Prop where
  once : Once m
  name : ∀ n, m.name = some n → GoodObjectName n
  small : (order m).length < W
  tetra : ∃ b ∈ m.blocks, b.tetras ≠ []
  four : ∀ b ∈ m.blocks, ∀ t ∈ b.tetras, t.length = 4
  three : ∀ s ∈ m.surfaces, ∀ t ∈ s.triangles, t.length = 3
  placed : ∀ s ∈ m.surfaces, ∀ t ∈ s.triangles, ∀ v ∈ t, ∃ l ∈ m.uniques, (⟨false, s.id, v⟩ : Cmv) ∈ l
  collections : ∀ c ∈ collections m, GoodName c.1
  names : ∀ b ∈ m.blocks, split b.name ≠ []

/-- The solid read: `ps` are the points of the main vertices, `qs` those of the other ones. -/
def solidOf (m : Model D) (ps qs : List (Pt D)) : Solid D :=
  { points := ps.map Pt.round ++ qs
    ids := List.range m.uniques.length ++ (sharedFrom 0 m.uniques).map Prod.fst
    nbUnique := m.uniques.length
    tetras := (records m).map Prod.fst
    names := (records m).map fun e => wordOr e.2 cs!"none" }

/-- The groups written. -/
def groups (m : Model D) : List (Str × List Nat) := kept [] (collections m)

/-- The surfaces read. -/
def stateOf (m : Model D) (s : Solid D) : RState := (groupsOf m (groups m)).foldl (addGroup s) {}

theorem kept_sub {seen : List Nat} {cs : List (Str × List Nat)} {g : Str × List Nat} (h : g ∈ kept seen cs) : ∃ c ∈ cs, g.1 = c.1 := by
  induction cs generalizing seen with
  | nil => simp [kept] at h
  | cons c cs ih =>
    rw [kept] at h
    split at h
    · obtain ⟨c', hc, e⟩ := ih h
      exact ⟨c', List.mem_cons_of_mem _ hc, e⟩
    · rcases List.mem_cons.1 h with rfl | h
      · exact ⟨c, by simp, rfl⟩
      · obtain ⟨c', hc, e⟩ := ih h
        exact ⟨c', List.mem_cons_of_mem _ hc, e⟩

theorem order_length {m : Model D} (hm : ∀ c ∈ m.uniques, ∃ x, mainOf c = [x]) :
    (order m).length = m.uniques.length + (sharedFrom 0 m.uniques).length := by
  simp [order, mains_length hm]

theorem shared_lt {cs : List (List Cmv)} {v : Nat} {e : Nat × Cmv} (h : e ∈ sharedFrom v cs) : e.1 < v + cs.length := by
  obtain ⟨u, y⟩ := e
  obtain ⟨k, c, hk, e, _⟩ := mem_shared.1 h
  have := (List.getElem?_eq_some_iff.1 hk).1
  simp only; omega

theorem Loadable.triangles {m : Model D} (h : Loadable m) {s : Solid D} (hs : s.nbUnique = m.uniques.length) (hl : m.uniques.length < W) {i : Nat} :
    ∀ t ∈ trianglesOf m i, GoodTriangle s t := by
  intro t ht
  unfold trianglesOf at ht
  cases hsf : surfaceOf m i with
  | none => rw [hsf] at ht; simp at ht
  | some sf =>
    rw [hsf] at ht
    obtain ⟨t0, ht0, rfl⟩ := List.mem_map.1 ht
    have hmem : sf ∈ m.surfaces := List.mem_of_find?_eq_some hsf
    refine ⟨by rw [List.length_map]; exact h.three sf hmem t0 ht0, ?_⟩
    intro v hv
    obtain ⟨v0, hv0, rfl⟩ := List.mem_map.1 hv
    obtain ⟨l, hl', hc⟩ := h.placed sf hmem t0 ht0 v0 hv0
    obtain ⟨u, hu⟩ := List.mem_iff_getElem?.1 hl'
    rw [h.once.unique hu hc, hs]
    have := (List.getElem?_eq_some_iff.1 hu).1
    omega

theorem rank_lt {m : Model D} {b v : Nat} (h : (⟨true, b, v⟩ : Cmv) ∈ order m) : rank m b v < (order m).length := List.idxOf_lt_length_of_mem h

theorem records_good {m : Model D} (h : Loadable m) (hp : Placed m) {e : List Nat × Str} (he : e ∈ records m) :
    e.1.length = 4 ∧ ∀ v ∈ e.1, v < (order m).length := by
  obtain ⟨b, hb, he⟩ := List.mem_flatMap.1 he
  obtain ⟨t, ht, rfl⟩ := List.mem_map.1 he
  refine ⟨by rw [List.length_map]; exact h.four b hb t ht, ?_⟩
  intro v hv
  obtain ⟨v0, hv0, rfl⟩ := List.mem_map.1 hv
  exact rank_lt (hp b hb t ht v0 hv0)

theorem forall₂_length {α β : Type} {R : α → β → Prop} {l : List α} {r : List β} (h : List.Forall₂ R l r) : l.length = r.length := h.length_eq

theorem readPropHeader_absent {pre l : Str} {rest : File} (h : startsWith l (pre ++ cs!"PROPERTIES") = false) :
    readPropHeader (D := D) pre (l :: rest) = .ok ({}, l :: rest) := by
  unfold readPropHeader
  rw [nextKeyword?, if_neg (by simp [h])]

/-- What is loaded from a saved solid. -/
theorem load_save [LawfulNum D] {m : Model D} (h : Loadable m) {sides : AllSides} {f : File} (hf : saveLso m sides = .ok f) :
    ∃ ps qs, List.Forall₂ (PointOf m) (mains m.uniques) ps ∧ List.Forall₂ (fun e q => (ps.map Pt.round)[e.1]? = some q) (sharedFrom 0 m.uniques) qs ∧
      (∀ c ∈ m.uniques, ∃ x, mainOf c = [x]) ∧ Placed m ∧ (∀ g ∈ groups m, ∀ i ∈ g.2, Writable m i) ∧
      loadLso f = .ok
        { name := m.name
          solid := solidOf m ps qs
          horizons := (stateOf m (solidOf m ps qs)).horizons
          surfaces := (stateOf m (solidOf m ps qs)).surfaces
          blocks := m.blocks.map fun b => loadedBlock (solidOf m ps qs) (stateOf m (solidOf m ps qs)) (wordOr b.name cs!"none")
          inspect := (stateOf m (solidOf m ps qs)).inspect ||
            m.blocks.any fun b => oddBlock (stateOf m (solidOf m ps qs)) (solidOf m ps qs) (wordOr b.name cs!"none") } := by
  unfold saveLso at hf
  obtain ⟨⟨vs, vl⟩, h1, h2⟩ := bind_eq_ok.1 hf
  obtain ⟨tl, h3, h4⟩ := bind_eq_ok.1 h2
  obtain ⟨st, h5, h6⟩ := bind_eq_ok.1 h4
  obtain ⟨rl, h7, h8⟩ := bind_eq_ok.1 h6
  obtain ⟨ps, hps, hm, e1, e2⟩ := writeVertices_ok h1
  rw [e1] at h3
  obtain ⟨hpl, e3⟩ := writeTetras_ok h.once hm h3
  have h5' : foldM' (writeCollection m) (sstate [] []) (collections m) = .ok st := h5
  obtain ⟨hw, e4⟩ := writeCollections_ok _ h5'
  have hreg := writeRegions_ok h7
  have e5 := (Res.ok.inj h8).symm
  -- the vertices
  have hol := order_length hm
  have hsmall := h.small
  have hpl' : ps.length = m.uniques.length := by rw [← hps.length_eq, mains_length hm]
  obtain ⟨b0, hb0, hne⟩ := h.tetra
  obtain ⟨t0, ts0, hts0⟩ := List.exists_cons_of_ne_nil hne
  have ht4 := h.four b0 hb0 t0 (by rw [hts0]; simp)
  have hrec : records m ≠ [] := by
    intro e
    have : (t0.map (rank m b0.id), b0.name) ∈ records m := List.mem_flatMap.2 ⟨b0, hb0, List.mem_map.2 ⟨t0, by rw [hts0]; simp, rfl⟩⟩
    rw [e] at this; simp at this
  obtain ⟨r, rs, hr⟩ := List.exists_cons_of_ne_nil hrec
  have hpne : ps ≠ [] := by
    intro e
    have hu : m.uniques = [] := by rw [e] at hpl'; exact List.length_eq_zero_iff.1 hpl'.symm
    cases t0 with
    | nil => simp at ht4
    | cons v t0 =>
      have := hpl b0 hb0 (v :: t0) (by rw [hts0]; simp) v (by simp)
      rw [order, hu] at this
      simp [mains, sharedFrom] at this
  obtain ⟨p, ps', hp⟩ := List.exists_cons_of_ne_nil hpne
  -- rest of the file after the vertices
  generalize htail : tl ++ [cs!"MODEL"] ++ st.lines ++ rl ++ [cs!"END"] = tail at *
  have hfile : f = cs!"GOCAD LightTSolid 1" :: (writeHeader m.name ++ (writeCrs {} ++ (vl ++ tail))) := by
    rw [e5, ← htail]; simp
  let s1 : Solid D := { points := ps.map Pt.round, ids := List.range' 0 ps.length, nbUnique := ps.length }
  obtain ⟨qs, hqs, e6⟩ := readVerticesLoop_shared (D := D) ((sharedFrom 0 m.uniques).map fun e => e.1 + 1) tail s1 (m.uniques.length + 1)
    (by
      intro a ha
      obtain ⟨e, he, rfl⟩ := List.mem_map.1 ha
      have := shared_lt he
      refine ⟨by omega, ?_, by omega⟩
      change e.1 + 1 ≤ ps.length
      omega)
    (by change ps.length ≤ (ps.map Pt.round).length; simp)
  have hqs' : List.Forall₂ (fun e q => (ps.map Pt.round)[e.1]? = some q) (sharedFrom 0 m.uniques) qs := by
    rw [List.forall₂_map_left_iff] at hqs
    exact hqs
  have hql : qs.length = (sharedFrom 0 m.uniques).length := hqs'.length_eq.symm
  refine ⟨ps, qs, hps, hqs', hm, hpl, hw, ?_⟩
  generalize hS : solidOf m ps qs = S
  have hSp : S.points.length = (order m).length := by rw [← hS]; simp [solidOf, hol, hpl', hql]
  have hSu : S.nbUnique = m.uniques.length := by rw [← hS]; rfl
  let s2 : Solid D := { S with tetras := [], names := [] }
  have hvert : readVertices (D := D) true [] {} (vl ++ tail) = readVerticesLoop true [] s2 tail := by
    have ev : vl ++ tail = (cs!"VRTX" ++ spaced (showNat 1 :: p.toks)) :: (vrtxLines 2 ps' ++ (sharedLines (m.uniques.length + 1)
      ((sharedFrom 0 m.uniques).map fun e => e.1 + 1) ++ tail)) := by
      rw [e2, hp]
      simp [vrtxLines]
    unfold readVertices
    have eg : gotoKeywords [cs!"VRTX", cs!"PVRTX"] (vl ++ tail) = .ok (cs!"VRTX" ++ spaced (showNat 1 :: p.toks), vrtxLines 2 ps' ++
      (sharedLines (m.uniques.length + 1) ((sharedFrom 0 m.uniques).map fun e => e.1 + 1) ++ tail)) := by
      rw [ev, gotoKeywords, if_pos]
      rfl
    rw [eg, ok_bind]
    dsimp only
    rw [readVertex_vrtx, ok_bind, readVerticesLoop_vrtx]
    have es : ({ points := ([] : List (Pt D)) ++ [p.round] ++ ps'.map Pt.round, ids := [] ++ [0] ++ List.range' (0 + 1) ps'.length
                 nbUnique := 0 + 1 + ps'.length } : Solid D) = s1 := by
      simp only [s1, hp]
      have en : 0 + 1 + ps'.length = ps'.length + 1 := by omega
      rw [en]
      simp [List.range'_succ]
    refine (congrArg (fun s => readVerticesLoop (D := D) true [] s (sharedLines (m.uniques.length + 1)
      ((sharedFrom 0 m.uniques).map fun e => e.1 + 1) ++ tail)) es).trans ?_
    rw [e6]
    congr 1
    simp only [s2, ← hS, solidOf, s1, hpl', List.map_map, List.range_eq_range']
    congr 2
  -- the tetrahedra
  have htl : tail = tetraLine r.1 :: (ctetraLine r.2 :: tetraLines rs ++ cs!"MODEL" :: (st.lines ++ rl ++ [cs!"END"])) := by
    rw [← htail, e3, hr]
    simp [tetraLines]
  have hnv : contains cs!"VRTX" (tetraLine r.1) = false := by
    refine contains_false (c := 'V') (by decide) ?_
    unfold tetraLine
    intro hc
    rcases List.mem_append.1 hc with hc | hc
    · revert hc; decide
    · rcases mem_spaced hc with hc | ⟨t, ht, hc⟩
      · revert hc; decide
      · obtain ⟨v, _, rfl⟩ := List.mem_map.1 ht
        exact vee_not_mem_showNat _ hc
  have hvert2 : readVertices (D := D) true [] {} (vl ++ tail) =
      .ok (s2, tetraLine r.1, ctetraLine r.2 :: tetraLines rs ++ cs!"MODEL" :: (st.lines ++ rl ++ [cs!"END"])) := by
    rw [hvert, htl, readVerticesLoop, if_neg (by simp [hnv])]
  have htet : readTetras [] s2 (tetraLine r.1) (ctetraLine r.2 :: tetraLines rs ++ cs!"MODEL" :: (st.lines ++ rl ++ [cs!"END"])) =
      .ok (S, cs!"MODEL", st.lines ++ rl ++ [cs!"END"]) := by
    refine (readTetras_lines cs!"MODEL" _ rfl rs r s2 ?_).trans ?_
    · intro e he
      rw [← hr] at he
      obtain ⟨g1, g2⟩ := records_good h hpl he
      refine ⟨g1, fun v hv => ?_⟩
      have := g2 v hv
      refine ⟨?_, by omega⟩
      change v < S.points.length
      omega
    · rw [← hr]
      simp only [s2, ← hS, solidOf, List.nil_append]
  -- the surfaces and the blocks
  have hreg2 : List.Forall₂ (fun (b : Block D) l => ∃ side k, l = regionLine b.name side k) m.blocks rl := by
    refine hreg.imp ?_
    rintro b l ⟨s, side, k, _, _, _, e⟩
    exact ⟨side, k, e⟩
  obtain ⟨l0, f0, el, hkw, eb⟩ := readBlocks_lines (s := S) (st := stateOf m S) h.names hreg2 [] false
  have hst : st.lines = groupsLines m 1 (groups m) := by rw [e4]; simp [sstate, groups]
  have hsurf : readSurfaces S cs!"MODEL" (st.lines ++ rl ++ [cs!"END"]) = .ok (stateOf m S, l0, f0) := by
    rw [List.append_assoc, el, hst]
    refine readSurfaces_lines ?_ _ _ _ hkw ?_
    · rw [hSp, hSu]; omega
    · intro g hg
      obtain ⟨c, hc, e⟩ := kept_sub hg
      refine ⟨e ▸ h.collections c hc, fun i hi => ⟨hw g hg i hi, ?_⟩⟩
      exact h.triangles hSu (by omega)
  -- everything
  have ehead : ∃ l rest, vl ++ tail = l :: rest ∧ startsWith l cs!"PROPERTIES" = false ∧ startsWith l (cs!"TETRA_" ++ cs!"PROPERTIES") = false := by
    refine ⟨cs!"VRTX" ++ spaced (showNat 1 :: p.toks), vrtxLines 2 ps' ++ (sharedLines (m.uniques.length + 1)
      ((sharedFrom 0 m.uniques).map fun e => e.1 + 1) ++ tail), ?_, rfl, rfl⟩
    rw [e2, hp]
    simp [vrtxLines]
  obtain ⟨lh, resth, eh, hh1, hh2⟩ := ehead
  have hpr1 : readPropHeader (D := D) [] (vl ++ tail) = .ok ({}, vl ++ tail) := by rw [eh]; exact readPropHeader_none hh1 _
  have hpr2 : readPropHeader (D := D) cs!"TETRA_" (vl ++ tail) = .ok ({}, vl ++ tail) := by rw [eh]; exact readPropHeader_absent hh2
  unfold loadLso
  have hgo : gotoKeyword cs!"GOCAD LightTSolid" f = .ok (cs!"GOCAD LightTSolid 1", writeHeader m.name ++ (writeCrs {} ++ (vl ++ tail))) := by
    rw [hfile]; exact gotoKeyword_here rfl _
  rw [hgo, ok_bind]
  dsimp only
  rw [readHeader_good h.name, ok_bind]
  dsimp only
  rw [readCrs_default, ok_bind]
  dsimp only
  rw [hpr1, ok_bind]
  dsimp only
  rw [hpr2, ok_bind]
  dsimp only
  have hv3 : readVertices (D := D) ({} : Crs).zPos ({} : PropHeader D).esizes
      { vattrs := ({} : PropHeader D).names.map fun _ => [], tattrs := ({} : PropHeader D).names.map fun _ => [] } (vl ++ tail) =
      .ok (s2, tetraLine r.1, ctetraLine r.2 :: tetraLines rs ++ cs!"MODEL" :: (st.lines ++ rl ++ [cs!"END"])) := hvert2
  rw [hv3, ok_bind]
  dsimp only
  have hsk1 : ∀ g : File, skipSection cs!"VERTEX" (tetraLine r.1) g = .ok (tetraLine r.1, g) := by
    intro g; rfl
  rw [hsk1, ok_bind]
  dsimp only
  have ht3 : readTetras ({} : PropHeader D).esizes s2 (tetraLine r.1) (ctetraLine r.2 :: tetraLines rs ++ cs!"MODEL" :: (st.lines ++ rl ++ [cs!"END"])) =
      .ok (S, cs!"MODEL", st.lines ++ rl ++ [cs!"END"]) := htet
  rw [ht3, ok_bind]
  dsimp only
  have hsk2 : ∀ g : File, skipSection cs!"TETRA" cs!"MODEL" g = .ok (cs!"MODEL", g) := by
    intro g; rfl
  rw [hsk2, ok_bind]
  dsimp only
  rw [hsurf, ok_bind]
  dsimp only
  have hb3 : readBlocks (D := D) ⟨{}, {}⟩ S (stateOf m S) ([], false) l0 f0 = _ := eb
  rw [hb3, ok_bind]
  simp

end Verif.Lso
