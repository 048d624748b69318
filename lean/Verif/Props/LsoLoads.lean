import Verif.Props.LsoRoundTrip

/-!
# Which models saved to `.lso` files can be loaded (C201)

A saved model is loaded if and only if it has a tetrahedron and each collection that is written has a name with a word.
-/

namespace Verif.Props.LsoLoads

open Verif Verif.Gocad Verif.GocadMesh Verif.Lso Verif.Sides Verif.Props.LsoNumbers Verif.Props.LsoRoundTrip Res

variable {D : Type} [Num D]

set_option linter.unusedSectionVars false

/-- The models considered: every vertex of a mesh is at one unique vertex, the vertices of the triangles have unique vertices, the cells have the right
number of vertices, and the vertices have numbers below 2^32.  Nothing is said of the names, nor of the number of cells. -/
structure Sane (m : Model D) : Prop where
  once : Once m
  small : (order m).length < W
  four : ∀ b ∈ m.blocks, ∀ t ∈ b.tetras, t.length = 4
  three : ∀ s ∈ m.surfaces, ∀ t ∈ s.triangles, t.length = 3
  placed : ∀ s ∈ m.surfaces, ∀ t ∈ s.triangles, ∀ v ∈ t, ∃ l ∈ m.uniques, (⟨false, s.id, v⟩ : Cmv) ∈ l

theorem sane_of {m : Model D} (h : Loadable m) : Sane m := ⟨h.once, h.small, h.four, h.three, h.placed⟩

/-- Collection `c` has a surface that no collection of `before` has. -/
def Adds (before : List (Str × List Nat)) (c : Str × List Nat) : Prop := ∃ i ∈ c.2, ∀ d ∈ before, i ∉ d.2

/-- The collections that are written have names with a word. -/
def Named (m : Model D) : Prop :=
  ∀ before c after, m.horizons ++ m.faults ++ m.boundaries = before ++ c :: after → Adds before c → split c.1 ≠ []

/-! ## The collections written -/

theorem mem_fresh {is : List Nat} : ∀ {seen : List Nat} {i : Nat}, i ∈ fresh seen is ↔ i ∈ is ∧ i ∉ seen := by
  induction is with
  | nil => intro seen i; simp [fresh]
  | cons a is ih =>
    intro seen i
    rw [fresh]
    split
    · rename_i ha
      rw [ih, List.mem_cons]
      constructor
      · rintro ⟨h1, h2⟩; exact ⟨Or.inr h1, h2⟩
      · rintro ⟨rfl | h1, h2⟩
        · exact absurd ha h2
        · exact ⟨h1, h2⟩
    · rename_i ha
      rw [List.mem_cons, ih, List.mem_cons, List.mem_append, List.mem_singleton]
      constructor
      · rintro (rfl | ⟨h1, h2⟩)
        · exact ⟨Or.inl rfl, ha⟩
        · exact ⟨Or.inr h1, fun h => h2 (Or.inl h)⟩
      · rintro ⟨h1, h2⟩
        by_cases e : i = a
        · exact Or.inl e
        · rcases h1 with h1 | h1
          · exact absurd h1 e
          · exact Or.inr ⟨h1, fun h => h.elim h2 e⟩

theorem fresh_nil_iff {seen is : List Nat} : fresh seen is = [] ↔ ∀ i ∈ is, i ∈ seen := by
  rw [List.eq_nil_iff_forall_not_mem]
  constructor
  · intro h i hi
    by_contra hn
    exact h i (mem_fresh.2 ⟨hi, hn⟩)
  · intro h i hi
    exact (mem_fresh.1 hi).2 (h i (mem_fresh.1 hi).1)

/-- The names of the collections written are those of the collections that add a surface. -/
theorem kept_names (P : Str → Prop) (cs : List (Str × List Nat)) : ∀ (seen : List Nat) (done : List (Str × List Nat)), (∀ i, i ∈ seen ↔ ∃ d ∈ done, i ∈ d.2) →
    ((∀ g ∈ kept seen cs, P g.1) ↔ ∀ before c after, cs = before ++ c :: after → Adds (done ++ before) c → P c.1) := by
  induction cs with
  | nil => intro seen done _; simp [kept]
  | cons a cs ih =>
    intro seen done hd
    have hadds : Adds done a ↔ fresh seen a.2 ≠ [] := by
      rw [Ne, fresh_nil_iff]
      constructor
      · rintro ⟨i, hi, hn⟩ h
        obtain ⟨d, hd', hi'⟩ := (hd i).1 (h i hi)
        exact hn d hd' hi'
      · intro h
        by_contra hn
        refine h fun i hi => ?_
        by_contra hs
        exact hn ⟨i, hi, fun d hd' hi' => hs ((hd i).2 ⟨d, hd', hi'⟩)⟩
    have hsplit : (∀ before c after, a :: cs = before ++ c :: after → Adds (done ++ before) c → P c.1) ↔
        (Adds done a → P a.1) ∧ ∀ before c after, cs = before ++ c :: after → Adds (done ++ [a] ++ before) c → P c.1 := by
      constructor
      · intro h
        refine ⟨fun ha => h [] a cs rfl (by rw [List.append_nil]; exact ha), fun before c after e ha => h (a :: before) c after (by rw [e]; rfl) ?_⟩
        rw [List.append_assoc] at ha
        exact ha
      · rintro ⟨h1, h2⟩ before c after e ha
        cases before with
        | nil =>
          obtain ⟨rfl, rfl⟩ := List.cons.inj e
          rw [List.append_nil] at ha
          exact h1 ha
        | cons b before =>
          obtain ⟨rfl, e'⟩ := List.cons.inj e
          refine h2 before c after e' ?_
          rw [List.append_assoc]
          exact ha
    rw [hsplit, hadds, kept]
    by_cases hf : fresh seen a.2 = []
    · rw [if_pos hf, ih seen (done ++ [a])]
      · simp [hf]
      · intro i
        rw [hd i]
        constructor
        · rintro ⟨d, h1, h2⟩; exact ⟨d, List.mem_append_left _ h1, h2⟩
        · rintro ⟨d, h1, h2⟩
          rcases List.mem_append.1 h1 with h1 | h1
          · exact ⟨d, h1, h2⟩
          · rw [List.mem_singleton.1 h1] at h2
            exact (hd i).1 (fresh_nil_iff.1 hf i h2)
    · rw [if_neg hf, List.forall_mem_cons, ih (seen ++ fresh seen a.2) (done ++ [a])]
      · simp [hf]
      · intro i
        rw [List.mem_append, mem_fresh, hd i]
        constructor
        · rintro (⟨d, h1, h2⟩ | ⟨h1, _⟩)
          · exact ⟨d, List.mem_append_left _ h1, h2⟩
          · exact ⟨a, by simp, h1⟩
        · rintro ⟨d, h1, h2⟩
          rcases List.mem_append.1 h1 with h1 | h1
          · exact Or.inl ⟨d, h1, h2⟩
          · rw [List.mem_singleton.1 h1] at h2
            by_cases hs : ∃ d ∈ done, i ∈ d.2
            · exact Or.inl hs
            · exact Or.inr ⟨h2, hs⟩

theorem named_iff {m : Model D} : Named m ↔ ∀ g ∈ groups m, split g.1 ≠ [] := by
  unfold Named groups
  rw [kept_names (fun s => split s ≠ []) (collections m) [] [] (by simp)]
  simp [collections]

/-! ## The surfaces read -/

/-- The groups as they are read: with the words of their names. -/
def readGroups (m : Model D) (gs : List (Str × List Nat)) : List (Str × List (List (List Nat))) :=
  gs.map fun g => (readName (split g.1), g.2.map (trianglesOf m))

theorem surfaceLine_named {st : RState} {n : Str} (h : split n ≠ []) :
    surfaceLine st (cs!"SURFACE" ++ spaced [n]) = .ok (some ({ st with horizons := st.horizons ++ [readName (split n)] }, .faces)) := by
  unfold surfaceLine
  have hk : startsWith (cs!"SURFACE" ++ spaced [n]) cs!"SURFACE" = true := startsWith_append _ _
  rw [if_pos hk, split_surface]
  obtain ⟨a, b, e⟩ := List.exists_cons_of_ne_nil h
  rw [e]
  rfl

theorem surfaceLine_unnamed {st : RState} {n : Str} (h : split n = []) : surfaceLine st (cs!"SURFACE" ++ spaced [n]) = .ub := by
  unfold surfaceLine
  have hk : startsWith (cs!"SURFACE" ++ spaced [n]) cs!"SURFACE" = true := startsWith_append _ _
  rw [if_pos hk, split_surface, h]
  rfl

theorem step_surface {s : Solid D} {st : RState} {mode : Mode} (hm : mode ≠ .key) (n : Str) :
    surfacesStep s (st, mode) (cs!"SURFACE" ++ spaced [n]) = surfaceLine st (cs!"SURFACE" ++ spaced [n]) := by
  cases mode with
  | key => exact absurd rfl hm
  | faces => rfl
  | triangles => rfl

/-- The groups of a file are read up to the first one without a name. -/
theorem read_named {m : Model D} {s : Solid D} (hp : s.nbUnique ≤ s.points.length) (gs : List (Str × List Nat)) (rest : File) :
    ∀ {st : RState} {mode : Mode} (n : Nat), mode ≠ .key →
    (∀ g ∈ gs, ∀ i ∈ g.2, Writable m i ∧ ∀ t ∈ trianglesOf m i, GoodTriangle s t) →
    ((∀ g ∈ gs, split g.1 ≠ []) → ∃ mode', mode' ≠ .key ∧ readSurfacesLoop s (st, mode) (groupsLines m n gs ++ rest) =
      readSurfacesLoop s ((readGroups m gs).foldl (addGroup s) st, mode') rest) ∧
    ((∃ g ∈ gs, split g.1 = []) → readSurfacesLoop s (st, mode) (groupsLines m n gs ++ rest) = .ub) := by
  induction gs with
  | nil => intro st mode n hm _; exact ⟨fun _ => ⟨mode, hm, rfl⟩, by simp⟩
  | cons g gs ih =>
    intro st mode n hm h
    have e : groupsLines m n (g :: gs) ++ rest = (cs!"SURFACE" ++ spaced [g.1]) :: (facesLines m n g.2 ++ (groupsLines m (n + g.2.length) gs ++ rest)) := by
      rw [groupsLines, List.cons_append, List.cons_append, List.append_assoc]
    by_cases hn : split g.1 = []
    · refine ⟨fun hall => absurd hn (hall g (by simp)), fun _ => ?_⟩
      rw [e, readSurfacesLoop, step_surface hm, surfaceLine_unnamed hn]
      rfl
    · have key : ∃ mode2, mode2 ≠ .key ∧ readSurfacesLoop s (st, mode) (groupsLines m n (g :: gs) ++ rest) =
          readSurfacesLoop s (addGroup s st (readName (split g.1), g.2.map (trianglesOf m)), mode2) (groupsLines m (n + g.2.length) gs ++ rest) := by
        obtain ⟨mode1, hm1, e1⟩ := read_faces (st := { st with horizons := st.horizons ++ [readName (split g.1)] }) (mode := .faces) hp g.2
          (groupsLines m (n + g.2.length) gs ++ rest) n (by decide) (h g (by simp))
        refine ⟨mode1, hm1, ?_⟩
        rw [e, readSurfacesLoop, step_surface hm, surfaceLine_named hn, ok_bind]
        exact e1
      obtain ⟨mode2, hm2, e2⟩ := key
      obtain ⟨i1, i2⟩ := ih (st := addGroup s st (readName (split g.1), g.2.map (trianglesOf m))) (mode := mode2) (n + g.2.length) hm2
        (fun g' hg' => h g' (List.mem_cons_of_mem _ hg'))
      constructor
      · intro hall
        obtain ⟨mode3, hm3, e3⟩ := i1 fun g' hg' => hall g' (List.mem_cons_of_mem _ hg')
        exact ⟨mode3, hm3, e2.trans e3⟩
      · rintro ⟨g', hg', he⟩
        rcases List.mem_cons.1 hg' with rfl | hg'
        · exact absurd he hn
        · exact e2.trans (i2 ⟨g', hg', he⟩)

theorem readSurfaces_loop {s : Solid D} {l : Str} {ls : File} (h : startsWith l cs!"TFACE" = false) :
    readSurfaces s cs!"MODEL" (l :: ls) = readSurfacesLoop s ({}, .faces) (l :: ls) := by
  have hmo : startsWith cs!"MODEL" cs!"MODEL" = true := rfl
  have e : surfacesStep s ({}, .faces) l = surfaceLine {} l := by
    simp [surfacesStep, faceLine, h]
  unfold readSurfaces
  rw [if_pos hmo, ok_bind, readSurfacesLoop, e]

theorem readSurfaces_named {m : Model D} {s : Solid D} (hp : s.nbUnique ≤ s.points.length) (gs : List (Str × List Nat)) (l : Str) (rest : File)
    (hl : ∀ kw ∈ [cs!"SURFACE", cs!"TFACE", cs!"TRGL"], startsWith l kw = false)
    (h : ∀ g ∈ gs, ∀ i ∈ g.2, Writable m i ∧ ∀ t ∈ trianglesOf m i, GoodTriangle s t) :
    ((∀ g ∈ gs, split g.1 ≠ []) → readSurfaces s cs!"MODEL" (groupsLines m 1 gs ++ l :: rest) = .ok ((readGroups m gs).foldl (addGroup s) {}, l, rest)) ∧
    ((∃ g ∈ gs, split g.1 = []) → readSurfaces s cs!"MODEL" (groupsLines m 1 gs ++ l :: rest) = .ub) := by
  have h1 := hl cs!"SURFACE" (by simp)
  have h2 := hl cs!"TFACE" (by simp)
  have h3 := hl cs!"TRGL" (by simp)
  have hend : ∀ (st : RState) (mode : Mode), mode ≠ .key → readSurfacesLoop s (st, mode) (l :: rest) = .ok (st, l, rest) := by
    intro st mode hm
    rw [readSurfacesLoop]
    have : surfacesStep s (st, mode) l = .ok none := by
      cases mode with
      | key => exact absurd rfl hm
      | faces => simp [surfacesStep, faceLine, surfaceLine, h1, h2]
      | triangles => simp [surfacesStep, faceLine, surfaceLine, h1, h2, h3]
    rw [this, ok_bind]; rfl
  have hloop : readSurfaces s cs!"MODEL" (groupsLines m 1 gs ++ l :: rest) = readSurfacesLoop s ({}, .faces) (groupsLines m 1 gs ++ l :: rest) := by
    cases gs with
    | nil => exact readSurfaces_loop h2
    | cons g gs =>
      rw [groupsLines, List.cons_append, List.cons_append]
      exact readSurfaces_loop rfl
  obtain ⟨i1, i2⟩ := read_named hp gs (l :: rest) (st := {}) (mode := .faces) 1 (by decide) h
  rw [hloop]
  refine ⟨fun hn => ?_, i2⟩
  obtain ⟨mode, hm, e⟩ := i1 hn
  rw [e]
  exact hend _ _ hm

/-! ## The regions read -/

/-- A region is read whatever its name: without a word, the block has the sign and number of its surface as name. -/
theorem readBlock_region {s : Solid D} {st : RState} (n : Str) (side : Bool) (k : Nat) :
    readBlock {} s st (regionLine n side k) =
      .ok (loadedBlock s st (wordOr n ((if side then '+' else '-') :: showNat k)), oddBlock st s (wordOr n ((if side then '+' else '-') :: showNat k))) := by
  have hs : split (regionLine n side k) = cs!"MODEL_REGION" :: (split n ++ [(if side then '+' else '-') :: showNat k]) := by
    unfold regionLine
    rw [split_kw_spaced' (by decide)]
    simp [split_tok (isTok_sign side k)]
  have hi : Res.index (split (regionLine n side k)) 1 = .ok (wordOr n ((if side then '+' else '-') :: showNat k)) := by
    rw [hs]
    unfold wordOr
    cases h : split n with
    | nil => rfl
    | cons a b => rfl
  unfold readBlock
  rw [hi, ok_bind]
  rfl

/-- A block read from the region of a saved block: with the first word of the name, or the sign and number of a surface. -/
def Reads (s : Solid D) (st : RState) (b : Block D) (r : RBlock D) : Prop :=
  ∃ (side : Bool) (k : Nat), r = loadedBlock s st (wordOr b.name ((if side then '+' else '-') :: showNat k))

theorem readBlocks_regions {s : Solid D} {st : RState} {bs : List (Block D)} {ls : File}
    (h : List.Forall₂ (fun (b : Block D) l => ∃ side k, l = regionLine b.name side k) bs ls) : ∀ (acc : List (RBlock D)) (i : Bool),
    ∃ l0 f0, ls ++ [cs!"END"] = l0 :: f0 ∧ (∀ kw ∈ [cs!"SURFACE", cs!"TFACE", cs!"TRGL"], startsWith l0 kw = false) ∧
      ∃ rs j, List.Forall₂ (Reads s st) bs rs ∧ readBlocks {} s st (acc, i) l0 f0 = .ok (acc ++ rs, j) := by
  induction h with
  | nil =>
    intro acc i
    refine ⟨cs!"END", [], rfl, by decide, [], i, .nil, ?_⟩
    have : startsWith cs!"END" cs!"MODEL_REGION" = false := rfl
    rw [readBlocks, this]
    simp
  | @cons b l bs ls hb _ ih =>
    intro acc i
    obtain ⟨side, k, rfl⟩ := hb
    obtain ⟨l1, f1, e1, _, rs, j, hr, e2⟩ := ih (acc ++ [loadedBlock s st (wordOr b.name ((if side then '+' else '-') :: showNat k))])
      (i || oddBlock st s (wordOr b.name ((if side then '+' else '-') :: showNat k)))
    refine ⟨regionLine b.name side k, l1 :: f1, by rw [List.cons_append, e1], ?_, _, j, .cons ⟨side, k, rfl⟩ hr, ?_⟩
    · intro kw hkw
      simp only [List.mem_cons, List.not_mem_nil, or_false] at hkw
      rcases hkw with rfl | rfl | rfl <;> rfl
    · have : startsWith (regionLine b.name side k) cs!"MODEL_REGION" = true := startsWith_append _ _
      rw [readBlocks, this, if_pos rfl, readBlock_region, ok_bind]
      refine e2.trans ?_
      simp

/-! ## The whole file -/

/-- What `loadLso` does once the vertices have been read, in a file without properties. -/
def afterVertices (name : Option Str) (s : Solid D) (l : Str) (f : File) : Res (Loaded D) := do
  let (l, f) ← skipSection cs!"VERTEX" l f
  let (s, l, f) ← readTetras [] s l f
  let (l, f) ← skipSection cs!"TETRA" l f
  let (st, l, f) ← readSurfaces s l f
  let (blocks, inspect) ← readBlocks {} s st ([], false) l f
  pure { name, solid := s, horizons := st.horizons, surfaces := st.surfaces, blocks, inspect := st.inspect || inspect }

/-- The lines of a saved file from its tetrahedra on. -/
def tailLines (m : Model D) (rl : File) : File := tetraLines (records m) ++ cs!"MODEL" :: (groupsLines m 1 (groups m) ++ (rl ++ [cs!"END"]))

theorem tailLines_head (m : Model D) (rl : File) : ∃ l rest, tailLines m rl = l :: rest ∧ startsWith l cs!"PROPERTIES" = false ∧
    startsWith l (cs!"TETRA_" ++ cs!"PROPERTIES") = false := by
  unfold tailLines
  cases records m with
  | nil => exact ⟨_, _, rfl, rfl, rfl⟩
  | cons r rs =>
    refine ⟨_, _, rfl, rfl, ?_⟩
    obtain ⟨vs, n⟩ := r
    cases vs <;> rfl

/-- The vertices of a saved file, read. -/
theorem front [LawfulNum D] {m : Model D} (h : Sane m) {sides : AllSides} {f : File} (hf : saveLso m sides = .ok f) :
    ∃ ps qs rl, List.Forall₂ (PointOf m) (mains m.uniques) ps ∧ List.Forall₂ (fun e q => (ps.map Pt.round)[e.1]? = some q) (sharedFrom 0 m.uniques) qs ∧
      (∀ c ∈ m.uniques, ∃ x, mainOf c = [x]) ∧ Placed m ∧ (∀ g ∈ groups m, ∀ i ∈ g.2, Writable m i) ∧
      List.Forall₂ (fun (b : Block D) l => ∃ side k, l = regionLine b.name side k) m.blocks rl ∧
      (solidOf m ps qs).points.length = (order m).length ∧
      (m.uniques ≠ [] → (loadLso f : Res (Loaded D)) =
        (readVerticesLoop true [] { solidOf m ps qs with tetras := [], names := [] } (tailLines m rl) >>= fun r =>
          afterVertices (m.name.map fun n => readName (split n)) r.1 r.2.1 r.2.2)) ∧
      (m.uniques = [] → (loadLso f : Res (Loaded D)) =
        (gotoKeywords [cs!"VRTX", cs!"PVRTX"] (tailLines m rl) >>= fun r => readVertex true [] {} r.1 >>= fun s => readVerticesLoop true [] s r.2 >>= fun r =>
          afterVertices (m.name.map fun n => readName (split n)) r.1 r.2.1 r.2.2)) := by
  unfold saveLso at hf
  obtain ⟨⟨vs, vl⟩, h1, h2⟩ := bind_eq_ok.1 hf
  obtain ⟨tl, h3, h4⟩ := bind_eq_ok.1 h2
  obtain ⟨st, h5, h6⟩ := bind_eq_ok.1 h4
  obtain ⟨rl, h7, h8⟩ := bind_eq_ok.1 h6
  obtain ⟨ps, hps, hm, e1, e2⟩ := writeVertices_ok h1
  rw [e1] at h3
  obtain ⟨hpl, e3⟩ := writeTetras_ok h.once hm h3
  have h5' : foldM' (writeCollection m) (sstate [] []) (collections m) = .ok st := h5
  obtain ⟨hw, e4⟩ := writeCollections_ok _ h5'
  have hreg := writeRegions_ok h7
  have e5 := (Res.ok.inj h8).symm
  have hol := order_length hm
  have hsmall := h.small
  have hpl' : ps.length = m.uniques.length := by rw [← hps.length_eq, mains_length hm]
  have hst : st.lines = groupsLines m 1 (groups m) := by rw [e4]; simp [sstate, groups]
  have htail : tl ++ [cs!"MODEL"] ++ st.lines ++ rl ++ [cs!"END"] = tailLines m rl := by
    rw [e3, hst, tailLines]; simp
  generalize htl : tailLines m rl = tail at *
  have hfile : f = cs!"GOCAD LightTSolid 1" :: (writeHeader m.name ++ (writeCrs {} ++ (vl ++ tail))) := by
    rw [e5, ← htail]; simp
  have hreg2 : List.Forall₂ (fun (b : Block D) l => ∃ side k, l = regionLine b.name side k) m.blocks rl := by
    refine hreg.imp ?_
    rintro b l ⟨s, side, k, _, _, _, e⟩
    exact ⟨side, k, e⟩
  let s1 : Solid D := { points := ps.map Pt.round, ids := List.range' 0 ps.length, nbUnique := ps.length }
  obtain ⟨qs, hqs, e6⟩ := readVerticesLoop_shared (D := D) ((sharedFrom 0 m.uniques).map fun e => e.1 + 1) tail s1 (m.uniques.length + 1)
    (by
      intro a ha
      obtain ⟨e, he, rfl⟩ := List.mem_map.1 ha
      have := shared_lt he
      refine ⟨by omega, ?_, by omega⟩
      change e.1 + 1 ≤ ps.length
      omega)
    (by change ps.length ≤ (ps.map Pt.round).length; simp)
  have hqs' : List.Forall₂ (fun e q => (ps.map Pt.round)[e.1]? = some q) (sharedFrom 0 m.uniques) qs := by
    rw [List.forall₂_map_left_iff] at hqs
    exact hqs
  have hql : qs.length = (sharedFrom 0 m.uniques).length := hqs'.length_eq.symm
  -- the lines before the vertices
  have hhead : ∀ l rest, vl ++ tail = l :: rest → startsWith l cs!"PROPERTIES" = false → startsWith l (cs!"TETRA_" ++ cs!"PROPERTIES") = false →
      (loadLso f : Res (Loaded D)) = (readVertices true [] {} (vl ++ tail) >>= fun r =>
        afterVertices (m.name.map fun n => readName (split n)) r.1 r.2.1 r.2.2) := by
    intro lh resth eh hh1 hh2
    have hpr1 : readPropHeader (D := D) [] (vl ++ tail) = .ok ({}, vl ++ tail) := by rw [eh]; exact readPropHeader_none hh1 _
    have hpr2 : readPropHeader (D := D) cs!"TETRA_" (vl ++ tail) = .ok ({}, vl ++ tail) := by rw [eh]; exact readPropHeader_absent hh2
    unfold loadLso
    have hgo : gotoKeyword cs!"GOCAD LightTSolid" f = .ok (cs!"GOCAD LightTSolid 1", writeHeader m.name ++ (writeCrs {} ++ (vl ++ tail))) := by
      rw [hfile]; exact gotoKeyword_here rfl _
    rw [hgo, ok_bind]
    dsimp only
    rw [readHeader_writeHeader, ok_bind]
    dsimp only
    rw [readCrs_default, ok_bind]
    dsimp only
    rw [hpr1, ok_bind]
    dsimp only
    rw [hpr2, ok_bind]
    rfl
  refine ⟨ps, qs, rl, hps, hqs', hm, hpl, hw, hreg2, ?_, ?_, ?_⟩
  · simp [solidOf, hol, hpl', hql]
  · intro hne
    have hpne : ps ≠ [] := by
      intro e
      rw [e] at hpl'
      exact hne (List.length_eq_zero_iff.1 hpl'.symm)
    obtain ⟨p, ps', hp⟩ := List.exists_cons_of_ne_nil hpne
    have ev : vl ++ tail = (cs!"VRTX" ++ spaced (showNat 1 :: p.toks)) :: (Lso.vrtxLines 2 ps' ++ (sharedLines (m.uniques.length + 1)
      ((sharedFrom 0 m.uniques).map fun e => e.1 + 1) ++ tail)) := by
      rw [e2, hp]
      simp [Lso.vrtxLines]
    rw [hhead _ _ ev rfl rfl]
    refine congrArg (· >>= _) ?_
    unfold readVertices
    have eg : gotoKeywords [cs!"VRTX", cs!"PVRTX"] (vl ++ tail) = .ok (cs!"VRTX" ++ spaced (showNat 1 :: p.toks), Lso.vrtxLines 2 ps' ++
      (sharedLines (m.uniques.length + 1) ((sharedFrom 0 m.uniques).map fun e => e.1 + 1) ++ tail)) := by
      rw [ev, gotoKeywords, if_pos]
      rfl
    rw [eg, ok_bind]
    dsimp only
    rw [readVertex_vrtx, ok_bind, readVerticesLoop_vrtx]
    have es : ({ points := ([] : List (Pt D)) ++ [p.round] ++ ps'.map Pt.round, ids := [] ++ [0] ++ List.range' (0 + 1) ps'.length
                 nbUnique := 0 + 1 + ps'.length } : Solid D) = s1 := by
      simp only [s1, hp]
      have en : 0 + 1 + ps'.length = ps'.length + 1 := by omega
      rw [en]
      simp [List.range'_succ]
    refine (congrArg (fun s => readVerticesLoop (D := D) true [] s (sharedLines (m.uniques.length + 1)
      ((sharedFrom 0 m.uniques).map fun e => e.1 + 1) ++ tail)) es).trans ?_
    rw [e6]
    congr 1
    · simp only [solidOf, s1, hpl', List.map_map, List.range_eq_range']
      congr 2
    · exact htl.symm
  · intro he
    have hp : ps = [] := by
      rw [he] at hpl'
      exact List.length_eq_zero_iff.1 hpl'
    have evl : vl = [] := by
      rw [e2, hp, he]
      rfl
    obtain ⟨l, rest, eh, hh1, hh2⟩ := tailLines_head m rl
    rw [htl] at eh
    rw [hhead l rest (by rw [evl]; exact eh) hh1 hh2, evl, List.nil_append]
    rw [htl]
    unfold readVertices
    cases gotoKeywords [cs!"VRTX", cs!"PVRTX"] tail with
    | ok r =>
      change ((readVertex (D := D) true [] {} r.1 >>= fun s => readVerticesLoop true [] s r.2) >>= _) = _
      rw [bind_assoc']
      rfl
    | throw => rfl
    | ub => rfl
    | diverge => rfl

theorem records_nil_iff {m : Model D} : records m = [] ↔ ∀ b ∈ m.blocks, b.tetras = [] := by
  unfold records
  rw [List.flatMap_eq_nil_iff]
  simp

theorem gotoKeywords_none {kws : List Str} {f : File} (h : ∀ l ∈ f, kws.any (startsWith l) = false) : gotoKeywords kws f = .throw := by
  induction f with
  | nil => rfl
  | cons l f ih =>
    rw [gotoKeywords, if_neg (by rw [h l (by simp)]; decide)]
    exact ih fun l' hl => h l' (List.mem_cons_of_mem _ hl)

theorem forall₂_right {α β : Type} {R : α → β → Prop} {l : List α} {r : List β} (h : List.Forall₂ R l r) {b : β} (hb : b ∈ r) : ∃ a, R a b := by
  induction h with
  | nil => simp at hb
  | cons hab _ ih =>
    rcases List.mem_cons.1 hb with rfl | hb
    · exact ⟨_, hab⟩
    · exact ih hb

/-- Without unique vertices there is nothing in a model. -/
theorem nothing {m : Model D} (h : Sane m) (hp : Placed m) (hw : ∀ g ∈ groups m, ∀ i ∈ g.2, Writable m i) (he : m.uniques = []) :
    records m = [] ∧ ∀ g ∈ groups m, g.2 = [] := by
  constructor
  · rw [records_nil_iff]
    intro b hb
    cases ht : b.tetras with
    | nil => rfl
    | cons t ts =>
      have h4 := h.four b hb t (by rw [ht]; simp)
      cases t with
      | nil => simp at h4
      | cons v t =>
        have := hp b hb (v :: t) (by rw [ht]; simp) v (by simp)
        rw [order, he] at this
        simp [mains, sharedFrom] at this
  · intro g hg
    cases hi : g.2 with
    | nil => rfl
    | cons i is =>
      obtain ⟨s, hs, hne⟩ := hw g hg i (by rw [hi]; simp)
      obtain ⟨t, ts, ht⟩ := List.exists_cons_of_ne_nil hne
      have hmem : s ∈ m.surfaces := List.mem_of_find?_eq_some hs
      have h3 := h.three s hmem t (by rw [ht]; simp)
      cases t with
      | nil => simp at h3
      | cons v t =>
        obtain ⟨l, hl, _⟩ := h.placed s hmem (v :: t) (by rw [ht]; simp) v (by simp)
        rw [he] at hl
        simp at hl

theorem kept_ne {cs : List (Str × List Nat)} : ∀ {seen : List Nat}, ∀ g ∈ kept seen cs, g.2 ≠ [] := by
  induction cs with
  | nil => intro seen g hg; simp [kept] at hg
  | cons c cs ih =>
    intro seen g hg
    rw [kept] at hg
    split at hg
    · exact ih g hg
    · rename_i hf
      rcases List.mem_cons.1 hg with rfl | hg
      · exact hf
      · exact ih g hg

/-- **A saved model without unique vertices is refused** with an exception. -/
theorem empty_refused [LawfulNum D] {m : Model D} (h : Sane m) {sides : AllSides} {f : File} (hf : saveLso m sides = .ok f) (he : m.uniques = []) :
    (loadLso f : Res (Loaded D)) = .throw := by
  obtain ⟨ps, qs, rl, _, _, _, hpl, hw, hreg, _, _, e⟩ := front h hf
  obtain ⟨hr, hg⟩ := nothing h hpl hw he
  have hgr : groups m = [] := by
    cases hgs : groups m with
    | nil => rfl
    | cons g gs =>
      have hmem : g ∈ groups m := by rw [hgs]; simp
      exact absurd (hg g hmem) (kept_ne g hmem)
  have hlines : ∀ l ∈ tailLines m rl, [cs!"VRTX", cs!"PVRTX"].any (startsWith l) = false := by
    intro l hl
    rw [tailLines, hr, hgr] at hl
    simp only [tetraLines, groupsLines, List.nil_append, List.mem_cons, List.mem_append, List.not_mem_nil, or_false] at hl
    rcases hl with rfl | hl | rfl
    · rfl
    · obtain ⟨b, side, k, rfl⟩ := forall₂_right hreg hl
      rfl
    · rfl
  rw [e he, gotoKeywords_none hlines]
  rfl

/-- **A saved model without tetrahedra cannot be loaded**: undefined behaviour. -/
theorem no_tetra_ub [LawfulNum D] {m : Model D} (h : Sane m) {sides : AllSides} {f : File} (hf : saveLso m sides = .ok f) (hu : m.uniques ≠ [])
    (ht : ∀ b ∈ m.blocks, b.tetras = []) : (loadLso f : Res (Loaded D)) = .ub := by
  obtain ⟨ps, qs, rl, _, _, _, _, _, _, _, e, _⟩ := front h hf
  have hl : tailLines m rl = cs!"MODEL" :: (groupsLines m 1 (groups m) ++ (rl ++ [cs!"END"])) := by
    rw [tailLines, records_nil_iff.2 ht]; rfl
  have hv : contains cs!"VRTX" cs!"MODEL" = false := by decide
  rw [e hu, hl, readVerticesLoop, if_neg (by rw [hv]; decide), ok_bind]
  unfold afterVertices
  have hsk : ∀ g : File, skipSection cs!"VERTEX" cs!"MODEL" g = .ok (cs!"MODEL", g) := fun g => rfl
  rw [hsk, ok_bind]
  dsimp only
  have htet : ∀ (s : Solid D) (g : File), readTetras [] s cs!"MODEL" g = .ub := by
    intro s g
    have : ∀ l2, readTetra [] s cs!"MODEL" l2 = .ub := fun l2 => rfl
    match g with
    | [] => rw [readTetras, this]; rfl
    | [l2] => rw [readTetras, this]; rfl
    | l2 :: l3 :: ls => rw [readTetras, this]; rfl
  rw [htet]
  rfl

theorem triangles_good {m : Model D} (h : Sane m) {s : Solid D} (hs : s.nbUnique = m.uniques.length) (hl : m.uniques.length < W) {i : Nat} :
    ∀ t ∈ trianglesOf m i, GoodTriangle s t := by
  intro t ht
  unfold trianglesOf at ht
  cases hsf : surfaceOf m i with
  | none => rw [hsf] at ht; simp at ht
  | some sf =>
    rw [hsf] at ht
    obtain ⟨t0, ht0, rfl⟩ := List.mem_map.1 ht
    have hmem : sf ∈ m.surfaces := List.mem_of_find?_eq_some hsf
    refine ⟨by rw [List.length_map]; exact h.three sf hmem t0 ht0, ?_⟩
    intro v hv
    obtain ⟨v0, hv0, rfl⟩ := List.mem_map.1 hv
    obtain ⟨l, hl', hc⟩ := h.placed sf hmem t0 ht0 v0 hv0
    obtain ⟨u, hu⟩ := List.mem_iff_getElem?.1 hl'
    rw [h.once.unique hu hc, hs]
    have := (List.getElem?_eq_some_iff.1 hu).1
    omega

theorem records_sane {m : Model D} (h : Sane m) (hp : Placed m) {e : List Nat × Str} (he : e ∈ records m) :
    e.1.length = 4 ∧ ∀ v ∈ e.1, v < (order m).length := by
  obtain ⟨b, hb, he⟩ := List.mem_flatMap.1 he
  obtain ⟨t, ht, rfl⟩ := List.mem_map.1 he
  refine ⟨by rw [List.length_map]; exact h.four b hb t ht, ?_⟩
  intro v hv
  obtain ⟨v0, hv0, rfl⟩ := List.mem_map.1 hv
  exact rank_lt (hp b hb t ht v0 hv0)

/-- The surfaces read. -/
def readState (m : Model D) (s : Solid D) : RState := (readGroups m (groups m)).foldl (addGroup s) {}

/-- The solid of a saved model with tetrahedra, read. -/
theorem solid_read [LawfulNum D] {m : Model D} (h : Sane m) {sides : AllSides} {f : File} (hf : saveLso m sides = .ok f) (ht : ∃ b ∈ m.blocks, b.tetras ≠ []) :
    ∃ ps qs rs j, List.Forall₂ (PointOf m) (mains m.uniques) ps ∧ List.Forall₂ (fun e q => (ps.map Pt.round)[e.1]? = some q) (sharedFrom 0 m.uniques) qs ∧
      List.Forall₂ (Reads (solidOf m ps qs) (readState m (solidOf m ps qs))) m.blocks rs ∧
      ((∀ g ∈ groups m, split g.1 ≠ []) → (loadLso f : Res (Loaded D)) = .ok
        { name := m.name.map fun n => readName (split n)
          solid := solidOf m ps qs
          horizons := (readState m (solidOf m ps qs)).horizons
          surfaces := (readState m (solidOf m ps qs)).surfaces
          blocks := rs
          inspect := (readState m (solidOf m ps qs)).inspect || j }) ∧
      ((∃ g ∈ groups m, split g.1 = []) → (loadLso f : Res (Loaded D)) = .ub) := by
  obtain ⟨ps, qs, rl, hps, hqs, hm, hpl, hw, hreg, hSp, e, _⟩ := front h hf
  have hsmall := h.small
  have hol := order_length hm
  obtain ⟨b0, hb0, hne⟩ := ht
  obtain ⟨t0, ts0, hts0⟩ := List.exists_cons_of_ne_nil hne
  have ht4 := h.four b0 hb0 t0 (by rw [hts0]; simp)
  have hrec : records m ≠ [] := fun e => hne (records_nil_iff.1 e b0 hb0)
  have hu : m.uniques ≠ [] := fun he => hrec (nothing h hpl hw he).1
  obtain ⟨r, rs, hr⟩ := List.exists_cons_of_ne_nil hrec
  generalize hS : solidOf m ps qs = S at *
  have hSu : S.nbUnique = m.uniques.length := by rw [← hS]; rfl
  obtain ⟨l0, f0, el, hkw, rbs, j, hrb, eb⟩ := readBlocks_regions (s := S) (st := readState m S) hreg [] false
  refine ⟨ps, qs, rbs, j, hps, hqs, ?_, ?_⟩
  · rw [hS]; exact hrb
  rw [hS]
  have htl : tailLines m rl = tetraLine r.1 :: (ctetraLine r.2 :: tetraLines rs ++ cs!"MODEL" :: (groupsLines m 1 (groups m) ++ l0 :: f0)) := by
    rw [tailLines, hr, el]
    simp [tetraLines]
  have hnv : contains cs!"VRTX" (tetraLine r.1) = false := by
    refine contains_false (c := 'V') (by decide) ?_
    unfold tetraLine
    intro hc
    rcases List.mem_append.1 hc with hc | hc
    · revert hc; decide
    · rcases mem_spaced hc with hc | ⟨t, ht, hc⟩
      · revert hc; decide
      · obtain ⟨v, _, rfl⟩ := List.mem_map.1 ht
        exact vee_not_mem_showNat _ hc
  let s2 : Solid D := { S with tetras := [], names := [] }
  have htet : readTetras [] s2 (tetraLine r.1) (ctetraLine r.2 :: tetraLines rs ++ cs!"MODEL" :: (groupsLines m 1 (groups m) ++ l0 :: f0)) =
      .ok (S, cs!"MODEL", groupsLines m 1 (groups m) ++ l0 :: f0) := by
    refine (readTetras_lines cs!"MODEL" _ rfl rs r s2 ?_).trans ?_
    · intro e he
      rw [← hr] at he
      obtain ⟨g1, g2⟩ := records_sane h hpl he
      refine ⟨g1, fun v hv => ?_⟩
      have := g2 v hv
      refine ⟨?_, by omega⟩
      change v < S.points.length
      omega
    · rw [← hr]
      simp only [s2, ← hS, solidOf, List.nil_append]
  have hload : (loadLso f : Res (Loaded D)) = (readSurfaces S cs!"MODEL" (groupsLines m 1 (groups m) ++ l0 :: f0) >>= fun r =>
      readBlocks {} S r.1 ([], false) r.2.1 r.2.2 >>= fun q => pure
        { name := m.name.map fun n => readName (split n), solid := S, horizons := r.1.horizons, surfaces := r.1.surfaces, blocks := q.1
          inspect := r.1.inspect || q.2 }) := by
    rw [e hu, htl, readVerticesLoop, if_neg (by rw [hnv]; decide), ok_bind]
    unfold afterVertices
    have hsk1 : ∀ g : File, skipSection cs!"VERTEX" (tetraLine r.1) g = .ok (tetraLine r.1, g) := fun g => rfl
    rw [hsk1, ok_bind]
    dsimp only
    rw [htet, ok_bind]
    dsimp only
    have hsk2 : ∀ g : File, skipSection cs!"TETRA" cs!"MODEL" g = .ok (cs!"MODEL", g) := fun g => rfl
    rw [hsk2, ok_bind]
  obtain ⟨i1, i2⟩ := readSurfaces_named (m := m) (s := S) (by rw [hSp, hSu]; omega) (groups m) l0 f0 hkw
    fun g hg i hi => ⟨hw g hg i hi, triangles_good h hSu (by omega)⟩
  constructor
  · intro hn
    rw [hload, i1 hn, ok_bind]
    have eb' : readBlocks {} S (readState m S) ([], false) l0 f0 = .ok (rbs, j) := eb
    change (readBlocks {} S (readState m S) ([], false) l0 f0 >>= _) = _
    rw [eb', ok_bind]
    rfl
  · intro hn
    rw [hload, i2 hn]
    rfl

theorem horizons_read (m : Model D) (s : Solid D) : (readState m s).horizons = (groups m).map fun g => readName (split g.1) := by
  unfold readState
  rw [foldl_addGroup]
  simp [readGroups, Function.comp_def]

/-! ## The statements -/

/-- **C201.**  A saved model is loaded if and only if it has a tetrahedron and every collection that is written has a name with a word.  (Full statement: a
saved model is loaded.) -/
theorem saved_loads_partial [LawfulNum D] {m : Model D} (h : Sane m) {sides : AllSides} {f : File} (hf : saveLso m sides = .ok f) :
    (∃ L : Loaded D, loadLso f = .ok L) ↔ (∃ b ∈ m.blocks, b.tetras ≠ []) ∧ Named m := by
  rw [named_iff]
  by_cases ht : ∃ b ∈ m.blocks, b.tetras ≠ []
  · obtain ⟨ps, qs, rs, j, _, _, _, h1, h2⟩ := solid_read h hf ht
    by_cases hn : ∀ g ∈ groups m, split g.1 ≠ []
    · exact ⟨fun _ => ⟨ht, hn⟩, fun _ => ⟨_, h1 hn⟩⟩
    · have hn' : ∃ g ∈ groups m, split g.1 = [] := by
        by_contra hc
        exact hn fun g hg e => hc ⟨g, hg, e⟩
      refine ⟨fun ⟨L, e⟩ => ?_, fun hh => absurd hh.2 hn⟩
      rw [h2 hn'] at e
      cases e
  · refine ⟨fun ⟨L, e⟩ => ?_, fun hh => absurd hh.1 ht⟩
    have ht' : ∀ b ∈ m.blocks, b.tetras = [] := by
      intro b hb
      by_contra hc
      exact ht ⟨b, hb, hc⟩
    by_cases hu : m.uniques = []
    · rw [empty_refused h hf hu] at e
      cases e
    · rw [no_tetra_ub h hf hu ht'] at e
      cases e

/-- **C201, the other files.**  A saved model that is not loaded is refused with an exception if it has no unique vertex, and has undefined behaviour
otherwise. -/
theorem saved_ub_iff [LawfulNum D] {m : Model D} (h : Sane m) {sides : AllSides} {f : File} (hf : saveLso m sides = .ok f) :
    ((loadLso f : Res (Loaded D)) = .throw ↔ m.uniques = []) ∧
    ((loadLso f : Res (Loaded D)) = .ub ↔ m.uniques ≠ [] ∧ ¬((∃ b ∈ m.blocks, b.tetras ≠ []) ∧ Named m)) := by
  rw [named_iff]
  by_cases hu : m.uniques = []
  · rw [empty_refused h hf hu]
    simp [hu]
  · by_cases ht : ∃ b ∈ m.blocks, b.tetras ≠ []
    · obtain ⟨ps, qs, rs, j, _, _, _, h1, h2⟩ := solid_read h hf ht
      by_cases hn : ∀ g ∈ groups m, split g.1 ≠ []
      · rw [h1 hn]
        exact ⟨⟨fun e => (by cases e), fun e => absurd e hu⟩, fun e => (by cases e), fun e => absurd ⟨ht, hn⟩ e.2⟩
      · have hn' : ∃ g ∈ groups m, split g.1 = [] := by
          by_contra hc
          exact hn fun g hg e => hc ⟨g, hg, e⟩
        rw [h2 hn']
        exact ⟨⟨fun e => (by cases e), fun e => absurd e hu⟩, fun _ => ⟨hu, fun e => hn e.2⟩, fun _ => rfl⟩
    · have ht' : ∀ b ∈ m.blocks, b.tetras = [] := by
        intro b hb
        by_contra hc
        exact ht ⟨b, hb, hc⟩
      rw [no_tetra_ub h hf hu ht']
      exact ⟨⟨fun e => (by cases e), fun e => absurd e hu⟩, fun _ => ⟨hu, fun e => ht e.1⟩, fun _ => rfl⟩

/-- **The names that come back**: the words of the names of the model and of the collections written, separated by one blank, without quotes; the first word
of the name of each block, or the sign and number of a surface when the name has no word. -/
theorem names_back [LawfulNum D] {m : Model D} (h : Sane m) {sides : AllSides} {f : File} (hf : saveLso m sides = .ok f) {L : Loaded D}
    (hl : loadLso f = .ok L) : L.name = m.name.map (fun n => readName (split n)) ∧ L.horizons = (groups m).map (fun g => readName (split g.1)) ∧
      List.Forall₂ (fun b r => r.name = firstWord b.name ∨ split b.name = [] ∧ ∃ (side : Bool) (k : Nat), r.name = (if side then '+' else '-') :: showNat k)
        m.blocks L.blocks := by
  obtain ⟨ht, hn⟩ := (saved_loads_partial h hf).1 ⟨L, hl⟩
  obtain ⟨ps, qs, rs, j, _, _, hr, h1, _⟩ := solid_read h hf ht
  rw [h1 (named_iff.1 hn)] at hl
  obtain rfl := Res.ok.inj hl
  refine ⟨rfl, horizons_read _ _, hr.imp ?_⟩
  rintro b r ⟨side, k, rfl⟩
  by_cases hb : split b.name = []
  · refine Or.inr ⟨hb, side, k, ?_⟩
    change wordOr b.name _ = _
    simp [wordOr, hb]
  · exact Or.inl (wordOr_eq hb)

/-- The two tetrahedra, with a horizon whose name is a blank. -/
def blankHorizon : Model Int := { twoBlocks with horizons := [(cs!" ", [9])] }

/-- The points of the two tetrahedra, without the tetrahedra. -/
def noTetra : Model Int := { twoBlocks with blocks := twoBlocks.blocks.map fun b => { b with tetras := [] } }

theorem blankHorizon_sane : Sane blankHorizon where
  once := by unfold Once; decide
  small := by decide +kernel
  four := by decide
  three := by decide
  placed := by decide

theorem noTetra_sane : Sane noTetra where
  once := by unfold Once; decide
  small := by decide +kernel
  four := by decide
  three := by decide
  placed := by decide

theorem saved_of {r : Res File} (h : (match r with | .ok _ => true | _ => false) = true) : ∃ f, r = .ok f := by
  cases r with
  | ok f => exact ⟨f, rfl⟩
  | _ => cases h

/-- "Every saved model is loaded" is false: a model with a collection named by a blank, and one without tetrahedra, have undefined behaviour. -/
theorem not_always_loaded : (∃ (m : Model Int) (sides : AllSides) (f : File), Sane m ∧ saveLso m sides = .ok f ∧ (loadLso f : Res (Loaded Int)) = .ub ∧
      (∃ b ∈ m.blocks, b.tetras ≠ [])) ∧
    ∃ (m : Model Int) (sides : AllSides) (f : File), Sane m ∧ saveLso m sides = .ok f ∧ (loadLso f : Res (Loaded Int)) = .ub ∧ Named m := by
  constructor
  · obtain ⟨f, hf⟩ := saved_of (r := saveLso blankHorizon twoSides) (by decide +kernel)
    refine ⟨blankHorizon, twoSides, f, blankHorizon_sane, hf, ?_, by decide⟩
    exact (saved_ub_iff blankHorizon_sane hf).2.2 ⟨by decide, fun h => absurd (named_iff.1 h.2) (by decide)⟩
  · obtain ⟨f, hf⟩ := saved_of (r := saveLso noTetra twoSides) (by decide +kernel)
    refine ⟨noTetra, twoSides, f, noTetra_sane, hf, ?_, named_iff.2 (by decide)⟩
    exact (saved_ub_iff noTetra_sane hf).2.2 ⟨by decide, fun h => absurd h.1 (by decide)⟩

/-- The hypotheses hold for the two tetrahedra, whose file is loaded; and for a model with nothing, whose file is refused. -/
example : (∃ f, saveLso twoBlocks twoSides = .ok f ∧ ∃ L : Loaded Int, loadLso f = .ok L) ∧
    ∃ f, saveLso ({} : Model Int) twoSides = .ok f ∧ (loadLso f : Res (Loaded Int)) = .throw := by
  constructor
  · obtain ⟨f, hf⟩ := saved_of (r := saveLso twoBlocks twoSides) (by decide +kernel)
    exact ⟨f, hf, (saved_loads_partial (sane_of twoBlocks_loadable) hf).2 ⟨by decide, named_iff.2 (by decide)⟩⟩
  · obtain ⟨f, hf⟩ := saved_of (r := saveLso ({} : Model Int) twoSides) (by decide +kernel)
    exact ⟨f, hf, empty_refused ⟨by unfold Once; decide, by decide, by decide, by decide, by decide⟩ hf rfl⟩

end Verif.Props.LsoLoads
