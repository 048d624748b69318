import Verif.Lemmas.MlModel

/-!
# Component numbers of `.ml` files

For every model that can be saved, the numbers in the universe, the regions, the layers and the fault blocks are those of the `TFACE` and
`REGION` records of the same file, and the records are numbered from 1 in the order of the file.
-/

set_option linter.unusedSectionVars false

namespace Verif.Props.MlNumbers

open Verif Verif.Gocad Verif.GocadMesh Verif.Ml

variable {D : Type} [Num D]

/-- The `TFACE` records of the surfaces `ids`, numbered from `n`; each has the three points of the first triangle of its surface. -/
def FaceRecords (m : Model D) : Nat → List Nat → File → Prop
  | _, [], f => f = []
  | n, i :: is, f => ∃ (kind name : Str) (s : Surface D) (key rest : File), surfaceOf m i = .ok s ∧ keyTriangle s = .ok key
      ∧ f = (cs!"TFACE" ++ spaced [showNat n, kind, name]) :: (key ++ rest) ∧ FaceRecords m (n + 1) is rest

/-- The word for surface `i` in a list: a sign and the number of its `TFACE` record. -/
def SignedNumber (ids : List Nat) (i : Nat) (x : Str) : Prop := i ∈ ids ∧ ∃ side, x = signed side (1 + ids.idxOf i)

/-- The `REGION` records of blocks, numbered from `n`: the boundary surfaces and then each internal surface on both sides. -/
def RegionRecords (ids : List Nat) : Nat → List Block → File → Prop
  | _, [], f => f = []
  | n, b :: bs, f => ∃ (items : List Str) (rest : File), List.Forall₂ (SignedNumber ids) (b.boundaries ++ b.internals.flatMap fun i => [i, i]) items
      ∧ f = (cs!"REGION" ++ spaced [showNat n, componentName b.name]) :: (wrapped cs!"  " 0 items ++ rest) ∧ RegionRecords ids (n + 1) bs rest

/-- The `LAYER` or `FAULT_BLOCK` records: the number of block `b` is that of its `REGION` record, the first of which has number `n`. -/
def LayerRecords (keyword : Str) (n : Nat) (blocks : List Nat) : List (Option Str × List Nat) → File → Prop
  | [], f => f = []
  | l :: ls, f => ∃ (name : Str) (rest : File), l.1 = some name ∧ (∀ i ∈ l.2, i ∈ blocks)
      ∧ f = (keyword ++ spaced [name]) :: (wrapped cs!"  " 0 (l.2.map fun i => showNat (n + blocks.idxOf i)) ++ rest)
      ∧ LayerRecords keyword n blocks ls rest

/-! ### `TFACE` records -/

theorem FaceRecords.snoc {m : Model D} {i : Nat} {s : Surface D} {key : File} (hs : surfaceOf m i = .ok s) (hk : keyTriangle s = .ok key) (kind name : Str) :
    ∀ (ids : List Nat) (n : Nat) (f : File), FaceRecords m n ids f →
      FaceRecords m n (ids ++ [i]) (f ++ (cs!"TFACE" ++ spaced [showNat (n + ids.length), kind, name]) :: key)
  | [], n, f, h => by
    have h : f = [] := h
    subst h
    exact ⟨kind, name, s, key, [], hs, hk, by simp, rfl⟩
  | j :: ids, n, f, h => by
    obtain ⟨kind', name', s', key', rest, h1, h2, h3, h4⟩ := h
    have := FaceRecords.snoc hs hk kind name ids (n + 1) rest h4
    refine ⟨kind', name', s', key', _, h1, h2, ?_, this⟩
    rw [h3, List.length_cons, Nat.add_assoc n 1, Nat.add_comm 1]
    simp only [List.cons_append, List.append_assoc]

/-- What is known while the `TFACE` records are written. -/
structure Inv (m : Model D) (ids : List Nat) (st : Faces) : Prop where
  once : ids.Nodup
  comps : st.comps = numbered 1 ids
  next : st.next = 1 + ids.length
  out : FaceRecords m 1 ids st.out

theorem inv_face {m : Model D} {ids : List Nat} {st st' : Faces} (h : Inv m ids st) {kind name : Str} {s : Surface D} (hs : surfaceOf m s.id = .ok s)
    (hi : s.id ∉ ids) (hw : writeFace st kind name s = .ok st') : Inv m (ids ++ [s.id]) st' := by
  have hany : st.comps.any (fun e => e.1 = s.id) = false := by
    rw [h.comps, any_numbered]; simpa using hi
  rw [writeFace_new st kind name s hany] at hw
  obtain ⟨key, hk, hw⟩ := Res.bind_eq_ok.1 hw
  simp only [Res.ok.injEq] at hw
  subst hw
  refine ⟨?_, ?_, ?_, ?_⟩
  · rw [List.nodup_append]
    refine ⟨h.once, by simp, ?_⟩
    intro a ha b hb e
    rw [List.mem_singleton] at hb
    subst e; subst hb
    exact hi ha
  · rw [numbered_append, h.comps, h.next]; rfl
  · simp only [List.length_append, List.length_singleton, h.next]; omega
  · have := h.out.snoc hs hk kind name
    rw [← h.next] at this
    exact this

theorem inv_items {m : Model D} {kind name : Res Str} : ∀ (l : List Nat) {ids : List Nat} {st st' : Faces}, Inv m ids st →
    Res.foldM' (writeItem m kind name) st l = .ok st' → ∃ ids', Inv m ids' st' ∧ ∀ i, i ∈ ids' ↔ i ∈ ids ∨ i ∈ l
  | [], ids, st, st', h, hf => by
    have : st = st' := by simpa using hf
    subst this
    exact ⟨ids, h, by simp⟩
  | a :: l, ids, st, st', h, hf => by
    rw [Res.foldM'_cons] at hf
    obtain ⟨st1, h1, hg⟩ := Res.bind_eq_ok.1 hf
    clear hf
    unfold writeItem at h1
    by_cases hc : st.comps.any (fun e => e.1 = a) = true
    · rw [if_pos hc] at h1
      simp only [Res.ok.injEq] at h1
      subst h1
      obtain ⟨ids', hi, hm⟩ := inv_items l h hg
      refine ⟨ids', hi, fun i => ?_⟩
      rw [h.comps, any_numbered] at hc
      have ha : a ∈ ids := by simpa using hc
      rw [hm, List.mem_cons]
      constructor
      · rintro (h | h)
        · exact Or.inl h
        · exact Or.inr (Or.inr h)
      · rintro (h | rfl | h)
        · exact Or.inl h
        · exact Or.inl ha
        · exact Or.inr h
    · rw [if_neg hc] at h1
      obtain ⟨k, -, h2⟩ := Res.bind_eq_ok.1 h1
      obtain ⟨n, -, h3⟩ := Res.bind_eq_ok.1 h2
      obtain ⟨s, hs, h4⟩ := Res.bind_eq_ok.1 h3
      have e := surfaceOf_id hs
      subst e
      have hi : s.id ∉ ids := by
        intro hh
        apply hc
        rw [h.comps, any_numbered]
        simpa using hh
      obtain ⟨ids', hi', hm⟩ := inv_items l (inv_face h hs hi h4) hg
      refine ⟨ids', hi', fun i => ?_⟩
      rw [hm, List.mem_append, List.mem_singleton, List.mem_cons, or_assoc]

theorem inv_collections {m : Model D} : ∀ (cs : List (Res Str × Res Str × List Nat)) {ids : List Nat} {st st' : Faces}, Inv m ids st →
    Res.foldM' (fun st c => Res.foldM' (writeItem m c.1 c.2.1) st c.2.2) st cs = .ok st' →
    ∃ ids', Inv m ids' st' ∧ ∀ i, i ∈ ids' ↔ i ∈ ids ∨ i ∈ cs.flatMap fun c => c.2.2
  | [], ids, st, st', h, hf => by
    have : st = st' := by simpa using hf
    subst this
    exact ⟨ids, h, by simp⟩
  | c :: cs, ids, st, st', h, hf => by
    rw [Res.foldM'_cons] at hf
    obtain ⟨st1, h1, hf⟩ := Res.bind_eq_ok.1 hf
    obtain ⟨ids1, hi1, hm1⟩ := inv_items c.2.2 h h1
    obtain ⟨ids', hi', hm'⟩ := inv_collections cs hi1 hf
    refine ⟨ids', hi', fun i => ?_⟩
    rw [hm', hm1, List.flatMap_cons, List.mem_append, or_assoc]

theorem inv_singles {m : Model D} {kind : Str} : ∀ (l : List (Surface D)) {ids : List Nat} {st st' : Faces}, Inv m ids st →
    (∀ s ∈ l, surfaceOf m s.id = .ok s) → (ids ++ l.map Surface.id).Nodup →
    Res.foldM' (fun st s => writeFace st kind (componentName s.name) s) st l = .ok st' → Inv m (ids ++ l.map Surface.id) st'
  | [], ids, st, st', h, _, _, hf => by
    have : st = st' := by simpa using hf
    subst this
    simpa using h
  | s :: l, ids, st, st', h, hs, hn, hf => by
    rw [Res.foldM'_cons] at hf
    obtain ⟨st1, h1, hf⟩ := Res.bind_eq_ok.1 hf
    have hi : s.id ∉ ids := by
      intro hh
      rw [List.nodup_append] at hn
      exact hn.2.2 s.id hh s.id (by simp) rfl
    have h2 := inv_face h (hs s List.mem_cons_self) hi h1
    have h3 := inv_singles l h2 (fun t ht => hs t (List.mem_cons_of_mem _ ht)) (by simpa using hn) hf
    simpa using h3

theorem collections_items (m : Model D) : (collections m).flatMap (fun c => c.2.2) =
    m.boundaries.flatMap Prod.snd ++ (faultsOf m).flatMap (fun f => f.2.2) ++ (horizonsOf m).flatMap (fun h => h.2.2) := by
  unfold collections
  simp only [List.flatMap_append, List.flatMap_map]

theorem unclassified_apart {m : Model D} {s : Surface D} (hs : s ∈ unclassified m) : s.id ∉ (collections m).flatMap fun c => c.2.2 := by
  unfold unclassified at hs
  obtain ⟨-, h⟩ := List.mem_filter.1 hs
  rw [collections_items]
  simp only [Bool.and_eq_true, Bool.not_eq_true', Bool.or_eq_true, List.any_eq_false, List.contains_iff_mem] at h
  simp only [List.mem_append, List.mem_flatMap, not_or]
  refine ⟨⟨?_, ?_⟩, ?_⟩
  · rintro ⟨b, hb, hi⟩; exact h.1 b hb hi
  · rintro ⟨b, hb, hi⟩
    unfold faultsOf at hb
    rcases h.2 with h2 | h2
    · rw [if_pos h2] at hb; cases hb
    · split at hb
      · cases hb
      · exact h2.1.1 b hb hi
  · rintro ⟨b, hb, hi⟩
    unfold horizonsOf at hb
    rcases h.2 with h2 | h2
    · rw [if_pos h2] at hb; cases hb
    · split at hb
      · cases hb
      · exact h2.1.2 b hb hi

/-- The `TFACE` records are numbered from 1, and each surface of a collection or in no collection has one. -/
theorem face_numbers {m : Model D} (hn : (m.surfaces.map Surface.id).Nodup) {st : Faces} (h : writeTfaces m = .ok st) :
    ∃ ids, Inv m ids st ∧ ∀ i, i ∈ ids ↔ i ∈ order m := by
  unfold writeTfaces at h
  obtain ⟨st1, h1, h2⟩ := Res.bind_eq_ok.1 h
  have h0 : Inv m [] ({} : Faces) := ⟨List.nodup_nil, rfl, rfl, rfl⟩
  obtain ⟨ids1, hi1, hm1⟩ := inv_collections _ h0 h1
  refine ⟨ids1 ++ (unclassified m).map Surface.id, ?_, ?_⟩
  · apply inv_singles _ hi1 ?_ ?_ h2
    · intro s hs
      have hs' : s ∈ m.surfaces := by unfold unclassified at hs; exact (List.mem_filter.1 hs).1
      rw [surfaceOf_surfaceAt (List.mem_map.2 ⟨s, hs', rfl⟩), surfaceAt_self hn hs']
    · rw [List.nodup_append]
      refine ⟨hi1.once, ?_, ?_⟩
      · unfold unclassified
        exact hn.sublist ((List.filter_sublist).map _)
      · intro a ha b hb e
        subst e
        obtain ⟨s, hs, rfl⟩ := List.mem_map.1 hb
        rw [hm1] at ha
        rcases ha with ha | ha
        · cases ha
        · exact unclassified_apart hs ha
  · intro i
    unfold order
    rw [List.mem_append, hm1, collections_items, List.mem_append (t := (unclassified m).map Surface.id)]
    simp

/-! ### Numbers in the lists -/

theorem signed_numbers {ids : List Nat} (side : Nat → Res Bool) : ∀ (l : List Nat) {items : List Str},
    Res.mapM' (fun i => do
      let side ← side i
      let n ← atKey (numbered 1 ids) i
      pure (signed side n)) l = .ok items → List.Forall₂ (SignedNumber ids) l items
  | [], items, h => by
    have : [] = items := by simpa using h
    subst this
    exact .nil
  | i :: l, items, h => by
    rw [Res.mapM'_cons] at h
    obtain ⟨x, hx, h⟩ := Res.bind_eq_ok.1 h
    obtain ⟨xs, hxs, h⟩ := Res.bind_eq_ok.1 h
    simp only [Res.pure_eq, Res.ok.injEq] at h
    subst h
    refine .cons ?_ (signed_numbers side l hxs)
    obtain ⟨b, -, hx⟩ := Res.bind_eq_ok.1 hx
    obtain ⟨n, hn, hx⟩ := Res.bind_eq_ok.1 hx
    simp only [Res.pure_eq, Res.ok.injEq] at hx
    subst hx
    obtain ⟨hi, rfl⟩ := key_number hn
    exact ⟨hi, b, rfl⟩
where
  key_number {ids : List Nat} {i n k : Nat} (h : atKey (numbered k ids) i = .ok n) : i ∈ ids ∧ n = k + ids.idxOf i := by
    by_cases hi : i ∈ ids
    · rw [atKey_numbered hi] at h
      simp only [Res.ok.injEq] at h
      exact ⟨hi, h.symm⟩
    · exfalso
      have : Sides.find (numbered k ids) i = none := by
        clear h
        induction ids generalizing k with
        | nil => rfl
        | cons a ids ih =>
          rw [numbered, Sides.find, if_neg (by rintro rfl; exact hi List.mem_cons_self)]
          exact ih fun h => hi (List.mem_cons_of_mem _ h)
      unfold atKey at h
      rw [this] at h
      simp at h

theorem both_sides {ids : List Nat} : ∀ (l : List Nat) {inner : List (List Str)},
    Res.mapM' (fun i => do
      let n ← atKey (numbered 1 ids) i
      pure [signed true n, signed false n]) l = .ok inner → List.Forall₂ (SignedNumber ids) (l.flatMap fun i => [i, i]) inner.flatten
  | [], items, h => by
    have : [] = items := by simpa using h
    subst this
    exact .nil
  | i :: l, items, h => by
    rw [Res.mapM'_cons] at h
    obtain ⟨x, hx, h⟩ := Res.bind_eq_ok.1 h
    obtain ⟨xs, hxs, h⟩ := Res.bind_eq_ok.1 h
    simp only [Res.pure_eq, Res.ok.injEq] at h
    subst h
    obtain ⟨n, hn, hx⟩ := Res.bind_eq_ok.1 hx
    simp only [Res.pure_eq, Res.ok.injEq] at hx
    subst hx
    obtain ⟨hi, rfl⟩ := signed_numbers.key_number hn
    exact .cons ⟨hi, true, rfl⟩ (.cons ⟨hi, false, rfl⟩ (both_sides l hxs))

theorem region_records {ids : List Nat} {sides : Sides.AllSides} : ∀ (bs : List Block) (n : Nat) {f : File},
    writeBlocks sides (numbered 1 ids) n bs = .ok f → RegionRecords ids n bs f
  | [], n, f, h => by
    have : [] = f := by simpa [writeBlocks] using h
    exact this.symm
  | b :: bs, n, f, h => by
    unfold writeBlocks at h
    obtain ⟨l, hl, h⟩ := Res.bind_eq_ok.1 h
    obtain ⟨r, hr, h⟩ := Res.bind_eq_ok.1 h
    simp only [Res.pure_eq, Res.ok.injEq] at h
    subst h
    unfold writeRegion at hl
    obtain ⟨bounds, hb, hl⟩ := Res.bind_eq_ok.1 hl
    obtain ⟨inner, hin, hl⟩ := Res.bind_eq_ok.1 hl
    simp only [Res.pure_eq, Res.ok.injEq] at hl
    subst hl
    refine ⟨bounds ++ inner.flatten, r, ?_, by simp only [List.cons_append], region_records bs (n + 1) hr⟩
    exact forall₂_append (signed_numbers (fun i => atKey sides.regions (b.id, i)) _ hb) (both_sides _ hin)

theorem layer_numbers {n : Nat} {blocks : List Nat} : ∀ (w : List Nat) {items : List Str},
    Res.mapM' (fun i => do
      let n ← atKey (numbered n blocks) i
      pure (showNat n)) w = .ok items → (∀ i ∈ w, i ∈ blocks) ∧ items = w.map fun i => showNat (n + blocks.idxOf i)
  | [], items, h => by
    have : [] = items := by simpa using h
    subst this
    simp
  | a :: w, items, hit => by
    rw [Res.mapM'_cons] at hit
    obtain ⟨y, hy, hit⟩ := Res.bind_eq_ok.1 hit
    obtain ⟨ys, hys, hit⟩ := Res.bind_eq_ok.1 hit
    simp only [Res.pure_eq, Res.ok.injEq] at hit
    subst hit
    obtain ⟨k, hk, hy⟩ := Res.bind_eq_ok.1 hy
    simp only [Res.pure_eq, Res.ok.injEq] at hy
    subst hy
    obtain ⟨ha, rfl⟩ := signed_numbers.key_number hk
    obtain ⟨i1, i2⟩ := layer_numbers w hys
    refine ⟨?_, by rw [i2]; rfl⟩
    intro i hi
    rcases List.mem_cons.1 hi with rfl | hi
    · exact ha
    · exact i1 i hi

theorem layer_records {keyword : Str} {n : Nat} {blocks : List Nat} : ∀ (ls : List (Option Str × List Nat)) {fs : List File},
    Res.mapM' (writeLayer keyword (numbered n blocks)) ls = .ok fs → LayerRecords keyword n blocks ls fs.flatten
  | [], fs, h => by
    have : [] = fs := by simpa using h
    subst this
    exact rfl
  | l :: ls, fs, h => by
    rw [Res.mapM'_cons] at h
    obtain ⟨x, hx, h⟩ := Res.bind_eq_ok.1 h
    obtain ⟨xs, hxs, h⟩ := Res.bind_eq_ok.1 h
    simp only [Res.pure_eq, Res.ok.injEq] at h
    subst h
    unfold writeLayer at hx
    obtain ⟨name, hname, hx⟩ := Res.bind_eq_ok.1 hx
    obtain ⟨items, hit, hx⟩ := Res.bind_eq_ok.1 hx
    simp only [Res.pure_eq, Res.ok.injEq] at hx
    subst hx
    have hn : l.1 = some name := by
      unfold nameValue at hname
      cases h1 : l.1 with
      | none => rw [h1] at hname; simp at hname
      | some v => rw [h1] at hname; simp at hname; rw [hname]
    have hall := layer_numbers l.2 hit
    refine ⟨name, xs.flatten, hn, hall.1, ?_, layer_records ls hxs⟩
    rw [hall.2]
    simp only [List.flatten_cons, List.cons_append]

/-- In every file saved for a model the surfaces have the numbers 1, 2, … in the order of their `TFACE` records, the universe has the next number
and the blocks the following ones, in the order of their `REGION` records; the lists of the universe, of the regions, of the layers and of the
fault blocks have the numbers of the records of the surfaces and blocks they contain. -/
theorem component_numbers {m : Model D} {sides : Sides.AllSides} (hn : (m.surfaces.map Surface.id).Nodup) {f : File}
    (h : writeComponents m sides = .ok f) :
    ∃ (ids : List Nat) (tsurfs faces regions layers faultBlocks : File) (items : List Str),
      ids.Nodup ∧ (∀ i, i ∈ ids ↔ i ∈ order m)
      ∧ f = tsurfs ++ faces ++ (cs!"REGION " ++ showNat (1 + ids.length) ++ cs!"  Universe ") :: wrapped cs!"  " 0 items ++ regions ++ (layers ++ faultBlocks)
        ++ [cs!"END"]
      ∧ FaceRecords m 1 ids faces
      ∧ List.Forall₂ (SignedNumber ids) (m.boundaries.flatMap Prod.snd) items
      ∧ RegionRecords ids (2 + ids.length) m.blocks regions
      ∧ LayerRecords cs!"LAYER" (2 + ids.length) (m.blocks.map Block.id) (unitsOf m) layers
      ∧ LayerRecords cs!"FAULT_BLOCK" (2 + ids.length) (m.blocks.map Block.id) (faultBlocksOf m) faultBlocks := by
  unfold writeComponents at h
  obtain ⟨tsurfs, ht, h⟩ := Res.bind_eq_ok.1 h
  obtain ⟨faces, hfc, h⟩ := Res.bind_eq_ok.1 h
  obtain ⟨uni, hu, h⟩ := Res.bind_eq_ok.1 h
  obtain ⟨regions, hr, h⟩ := Res.bind_eq_ok.1 h
  obtain ⟨layers, hl, h⟩ := Res.bind_eq_ok.1 h
  simp only [Res.pure_eq, Res.ok.injEq] at h
  subst h
  obtain ⟨ids, hi, hm⟩ := face_numbers hn hfc
  have e2 : faces.next + 1 = 2 + ids.length := by rw [hi.next]; omega
  rw [hi.comps] at hu hr
  rw [e2] at hr hl
  unfold writeUniverse at hu
  obtain ⟨items, hit, hu⟩ := Res.bind_eq_ok.1 hu
  simp only [Res.pure_eq, Res.ok.injEq] at hu
  subst hu
  rw [blockNumbers_eq] at hl
  unfold writeLayers at hl
  have hs := signed_numbers (fun i => atKey sides.outside i) _ hit
  have hreg := region_records _ _ hr
  rw [hi.next]
  by_cases hb : m.isBRep = true
  · rw [if_pos hb] at hl
    simp only [Res.ok.injEq] at hl
    subst hl
    refine ⟨ids, tsurfs, faces.out, regions, [], [], items, hi.once, hm, ?_, hi.out, hs, hreg, ?_, ?_⟩
    · simp only [List.append_assoc, List.append_nil, List.nil_append]
    · unfold unitsOf; rw [if_pos hb]; exact rfl
    · unfold faultBlocksOf; rw [if_pos hb]; exact rfl
  · rw [if_neg hb] at hl
    obtain ⟨la, hla, hl⟩ := Res.bind_eq_ok.1 hl
    obtain ⟨fb, hfb, hl⟩ := Res.bind_eq_ok.1 hl
    simp only [Res.pure_eq, Res.ok.injEq] at hl
    subst hl
    refine ⟨ids, tsurfs, faces.out, regions, la.flatten, fb.flatten, items, hi.once, hm, ?_, hi.out, hs, hreg, ?_, ?_⟩
    · simp only [List.append_assoc]
    · unfold unitsOf; rw [if_neg hb]; exact layer_records _ hla
    · unfold faultBlocksOf; rw [if_neg hb]; exact layer_records _ hfb

end Verif.Props.MlNumbers
