import Verif.Lemmas.MlComponents

/-! Lemmas on the component section of `.ml` files: the numbers written, the universe, the regions and the layers. -/

set_option linter.unusedSectionVars false

namespace Verif.Ml

open Verif Verif.Gocad Verif.GocadMesh

variable {D : Type} [Num D]

/-- Consecutive numbers. -/
def numbered : Nat → List Nat → List (Nat × Nat)
  | _, [] => []
  | n, i :: is => (i, n) :: numbered (n + 1) is

theorem numbered_append (n : Nat) (a b : List Nat) : numbered n (a ++ b) = numbered n a ++ numbered (n + a.length) b := by
  induction a generalizing n with
  | nil => rfl
  | cons i is ih =>
    rw [List.cons_append, numbered, ih, numbered, List.length_cons]
    simp [Nat.add_assoc, Nat.add_comm 1]

theorem any_numbered (n : Nat) (is : List Nat) (i : Nat) : (numbered n is).any (fun e => e.1 = i) = is.contains i := by
  induction is generalizing n with
  | nil => rfl
  | cons m ns ih =>
    rw [numbered, List.any_cons, ih, List.contains_cons]
    simp [beq_eq_decide, eq_comm]

theorem find_numbered {n : Nat} {is : List Nat} {i : Nat} (h : i ∈ is) : Sides.find (numbered n is) i = some (n + is.idxOf i) := by
  induction is generalizing n with
  | nil => simp at h
  | cons m ns ih =>
    rw [numbered, Sides.find]
    by_cases e : m = i
    · subst e; simp
    · rw [if_neg e]
      rcases List.mem_cons.1 h with h | h
      · exact absurd h.symm e
      · rw [ih h, List.idxOf_cons_ne _ e]
        congr 1; omega

theorem blockNumbers_eq (n : Nat) (bs : List Block) : blockNumbers n bs = numbered n (bs.map Block.id) := by
  induction bs generalizing n with
  | nil => rfl
  | cons b bs ih => rw [blockNumbers, ih]; rfl

/-! ### Numbers of the surfaces -/

/-- The collections of a model, with their surfaces. -/
structure Resolved (m : Model D) (colls : List (Coll D)) : Prop where
  colls : List.Forall₂ (fun c t => c.1 = .ok t.kind ∧ c.2.1 = .ok t.name ∧ List.Forall₂ (fun i s => surfaceOf m i = .ok s) c.2.2 t.items)
    (collections m) colls

/-- The TSurfs of the file. -/
def tsurfsOf (m : Model D) (colls : List (Coll D)) : List (Coll D) :=
  colls ++ (unclassified m).map fun s => ⟨cs!"boundary", componentName s.name, [s]⟩

/-- Identifiers of the surfaces in the order of the file. -/
def idsOf (T : List (Coll D)) : List Nat := T.flatMap fun t => t.items.map Surface.id

theorem surfaceOf_id {m : Model D} {i : Nat} {s : Surface D} (h : surfaceOf m i = .ok s) : s.id = i := by
  unfold surfaceOf at h
  cases hf : m.surfaces.find? (fun s => s.id = i) with
  | none => rw [hf] at h; simp at h
  | some t =>
    rw [hf] at h
    simp at h
    subst h
    simpa using List.find?_some hf

theorem writeFace_new (st : Faces) (kind name : Str) (s : Surface D) (h : st.comps.any (fun e => e.1 = s.id) = false) :
    writeFace st kind name s = (keyTriangle s >>= fun key => .ok
      { comps := st.comps ++ [(s.id, st.next)], next := st.next + 1, out := st.out ++ (cs!"TFACE" ++ spaced [showNat st.next, kind, name]) :: key }) := by
  unfold writeFace Sides.emplace
  rw [h]
  rfl

/-- All the surfaces of a collection are written when none of them is already. -/
theorem writeItems (m : Model D) (kind name : Str) {items : List Nat} {ss : List (Surface D)}
    (h : List.Forall₂ (fun i s => surfaceOf m i = .ok s) items ss) :
    ∀ st : Faces, (st.comps.map Prod.fst ++ ss.map Surface.id).Nodup →
      Res.foldM' (writeItem m (.ok kind) (.ok name)) st items = (faceLines kind name st.next ss >>= fun ls => .ok
        { comps := st.comps ++ numbered st.next (ss.map Surface.id), next := st.next + ss.length, out := st.out ++ ls }) := by
  induction h with
  | nil => intro st _; simp [faceLines, numbered]
  | @cons i s items ss his _ ih =>
    intro st hn
    have hid := surfaceOf_id his
    have hnot : st.comps.any (fun e => e.1 = s.id) = false := by
      rw [List.any_eq_false]
      intro e he
      rw [List.nodup_append] at hn
      have := hn.2.2 e.1 (List.mem_map.2 ⟨e, he, rfl⟩) s.id (by simp)
      simpa using this
    have hone : writeItem m (.ok kind) (.ok name) st i = writeFace st kind name s := by
      unfold writeItem
      rw [← hid, hnot]
      simp only [Bool.false_eq_true, if_false, Res.ok_bind]
      rw [hid, his, Res.ok_bind]
    rw [Res.foldM'_cons, hone, writeFace_new st kind name s hnot, faceLines]
    cases hk : keyTriangle s with
    | ok key =>
      simp only [Res.ok_bind]
      rw [ih _ (by simpa using hn)]
      cases faceLines kind name (st.next + 1) ss with
      | ok ls => simp [numbered]; omega
      | throw => rfl
      | ub => rfl
      | diverge => rfl
    | throw => rfl
    | ub => rfl
    | diverge => rfl

theorem writeColls (m : Model D) {cs : List (Res Str × Res Str × List Nat)} {T : List (Coll D)}
    (h : List.Forall₂ (fun c t => c.1 = .ok t.kind ∧ c.2.1 = .ok t.name ∧ List.Forall₂ (fun i s => surfaceOf m i = .ok s) c.2.2 t.items) cs T) :
    ∀ st : Faces, (st.comps.map Prod.fst ++ idsOf T).Nodup →
      Res.foldM' (fun st c => Res.foldM' (writeItem m c.1 c.2.1) st c.2.2) st cs = (collLines st.next T >>= fun ls => .ok
        { comps := st.comps ++ numbered st.next (idsOf T), next := st.next + (idsOf T).length, out := st.out ++ ls }) := by
  induction h with
  | nil => intro st _; simp [collLines, numbered, idsOf]
  | @cons c t cs T hct _ ih =>
    intro st hn
    obtain ⟨h1, h2, h3⟩ := hct
    have e : idsOf (t :: T) = t.items.map Surface.id ++ idsOf T := rfl
    rw [e] at hn ⊢
    rw [Res.foldM'_cons, h1, h2, writeItems m t.kind t.name h3 st (by
      rw [← List.append_assoc] at hn
      exact (List.nodup_append.1 hn).1), collLines]
    cases faceLines t.kind t.name st.next t.items with
    | ok a =>
      simp only [Res.ok_bind]
      rw [ih]
      · cases collLines (st.next + t.items.length) T with
        | ok b => simp [numbered_append]; omega
        | throw => rfl
        | ub => rfl
        | diverge => rfl
      · have hm : (numbered st.next (t.items.map Surface.id)).map Prod.fst = t.items.map Surface.id := by
          generalize t.items.map Surface.id = l
          generalize st.next = n
          induction l generalizing n with
          | nil => rfl
          | cons a l ih => rw [numbered, List.map_cons, ih]
        simp only [List.map_append, hm]
        rwa [List.append_assoc]
    | throw => rfl
    | ub => rfl
    | diverge => rfl

theorem collLines_append : ∀ (a b : List (Coll D)) (n : Nat), collLines n (a ++ b) =
    (collLines n a >>= fun x => collLines (n + (idsOf a).length) b >>= fun y => .ok (x ++ y))
  | [], b, n => by
    simp only [List.nil_append, collLines, idsOf, List.flatMap_nil, List.length_nil, Nat.add_zero, Res.ok_bind]
    cases collLines n b <;> rfl
  | t :: a, b, n => by
    have e : (idsOf (t :: a)).length = t.items.length + (idsOf a).length := by simp [idsOf]
    rw [List.cons_append, collLines, collLines, collLines_append a b, e]
    cases faceLines t.kind t.name n t.items with
    | ok x =>
      simp only [Res.ok_bind]
      cases collLines (n + t.items.length) a with
      | ok y =>
        simp only [Res.ok_bind, ← Nat.add_assoc]
        cases collLines (n + t.items.length + (idsOf a).length) b <;> simp
      | throw => rfl
      | ub => rfl
      | diverge => rfl
    | throw => rfl
    | ub => rfl
    | diverge => rfl

theorem writeSingles (kind : Str) (l : List (Surface D)) : ∀ st : Faces, (st.comps.map Prod.fst ++ l.map Surface.id).Nodup →
    Res.foldM' (fun st s => writeFace st kind (componentName s.name) s) st l =
      (collLines st.next (l.map fun s => ⟨kind, componentName s.name, [s]⟩) >>= fun ls => .ok
        { comps := st.comps ++ numbered st.next (l.map Surface.id), next := st.next + l.length, out := st.out ++ ls }) := by
  induction l with
  | nil => intro st _; simp [collLines, numbered]
  | cons s l ih =>
    intro st hn
    have hnot : st.comps.any (fun e => e.1 = s.id) = false := by
      rw [List.any_eq_false]
      intro e he
      rw [List.nodup_append] at hn
      have := hn.2.2 e.1 (List.mem_map.2 ⟨e, he, rfl⟩) s.id (by simp)
      simpa using this
    rw [Res.foldM'_cons, writeFace_new st _ _ s hnot, List.map_cons, collLines, faceLines, faceLines]
    cases keyTriangle s with
    | ok key =>
      simp only [Res.ok_bind, Res.pure_eq]
      rw [ih _ (by simpa using hn)]
      have e : ([s] : List (Surface D)).length = 1 := rfl
      rw [e]
      cases collLines (st.next + 1) (l.map fun s => ⟨kind, componentName s.name, [s]⟩) with
      | ok b => simp [numbered]; omega
      | throw => rfl
      | ub => rfl
      | diverge => rfl
    | throw => rfl
    | ub => rfl
    | diverge => rfl

theorem idsOf_append (a b : List (Coll D)) : idsOf (a ++ b) = idsOf a ++ idsOf b := by simp [idsOf]

theorem idsOf_singles (kind : Str) (l : List (Surface D)) : idsOf (l.map fun s => ⟨kind, componentName s.name, [s]⟩) = l.map Surface.id := by
  induction l with
  | nil => rfl
  | cons s l ih => rw [List.map_cons, List.map_cons, ← ih]; rfl

/-- The numbers of the surfaces are their ranks among the `TFACE` lines. -/
theorem writeTfaces_eq (m : Model D) {colls : List (Coll D)} (hr : Resolved m colls) (hn : (idsOf (tsurfsOf m colls)).Nodup) :
    writeTfaces m = (collLines 1 (tsurfsOf m colls) >>= fun ls => .ok
      { comps := numbered 1 (idsOf (tsurfsOf m colls)), next := 1 + (idsOf (tsurfsOf m colls)).length, out := ls }) := by
  unfold tsurfsOf at hn ⊢
  rw [idsOf_append, idsOf_singles] at hn
  unfold writeTfaces
  rw [writeColls m hr.colls {} (by simpa using (List.nodup_append.1 hn).1), collLines_append, idsOf_append, idsOf_singles]
  simp only [List.nil_append]
  cases collLines 1 colls with
  | ok a =>
    simp only [Res.ok_bind]
    rw [writeSingles]
    · simp only
      cases collLines (1 + (idsOf colls).length) ((unclassified m).map fun s => (⟨cs!"boundary", componentName s.name, [s]⟩ : Coll D)) with
      | ok b => simp [numbered_append]; omega
      | throw => rfl
      | ub => rfl
      | diverge => rfl
    · have hm : ∀ (l : List Nat) (n : Nat), (numbered n l).map Prod.fst = l := by
        intro l
        induction l with
        | nil => intro n; rfl
        | cons a l ih => intro n; rw [numbered, List.map_cons, ih]
      rw [hm]
      exact hn
  | throw => rfl
  | ub => rfl
  | diverge => rfl

/-! ### Lists of numbers -/

theorem mapM'_eq_map {α β : Type} {f : α → Res β} {g : α → β} {l : List α} (h : ∀ a ∈ l, f a = .ok (g a)) : Res.mapM' f l = .ok (l.map g) :=
  Res.mapM'_ok h

/-- Numbers of the boundary surfaces, with their signs. -/
theorem atKey_numbered {n : Nat} {ids : List Nat} {i : Nat} (h : i ∈ ids) : atKey (numbered n ids) i = .ok (n + ids.idxOf i) := by
  unfold atKey; rw [find_numbered h]; rfl

/-- The universe. -/
theorem run_universe (st : RState) (next : Nat) {items : List Str} {vs : List Nat}
    (h : List.Forall₂ (fun x v => IsTok x ∧ universeToken st x = .ok (some v)) items vs) :
    NoEnd ((cs!"REGION " ++ showNat next ++ cs!"  Universe ") :: wrapped cs!"  " 0 items)
    ∧ run (st, .top) ((cs!"REGION " ++ showNat next ++ cs!"  Universe ") :: wrapped cs!"  " 0 items) =
      .ok ({ st with outside := st.outside ++ vs }, .top) := by
  constructor
  · intro l hl
    rcases List.mem_cons.1 hl with rfl | hl
    · rfl
    · exact wrapped_noEnd items cs!"  " 0 rfl l hl
  · have e : split (cs!"REGION " ++ showNat next ++ cs!"  Universe ") = [cs!"REGION", showNat next, cs!"Universe"] := by
      have e1 : cs!"REGION " ++ showNat next ++ cs!"  Universe " = cs!"REGION" ++ ' ' :: (showNat next ++ ' ' :: cs!" Universe ") := by
        rw [List.append_assoc]; rfl
      rw [e1, split_append_space, split_append_space, split_tok (isTok_showNat next)]
      rfl
    rw [run_cons, step_top]
    unfold topLine
    rw [e]
    have h1 : (cs!"REGION" = cs!"TSURF") = False := by decide
    have h2 : (cs!"REGION" = cs!"TFACE") = False := by decide
    simp only [h1, h2, if_false, if_true]
    have hu : readRegionKeyword [showNat next, cs!"Universe"] = .ok .outside := by
      unfold readRegionKeyword
      have : readName (List.drop 1 [showNat next, cs!"Universe"]) = cs!"Universe" := rfl
      rw [this]
      rfl
    rw [hu]
    simp only [Res.ok_bind, Res.pure_eq]
    have := run_wrapped (listMode_outside st) h cs!"  " cs!" " 0 [] [] rfl rfl
    simpa using this

/-- A region. -/
theorem run_region (st : RState) (next : Nat) {name : Str} (hg : GoodName name) (hu : name ≠ cs!"Universe") {items : List Str} {vs bs is : List Nat}
    (h : List.Forall₂ (fun x v => IsTok x ∧ surfaceToken x = .ok (some v)) items vs) (hn : (bs ++ is).Nodup)
    (hp : vs.Perm (bs ++ (is ++ is))) (hl : 2 ≤ bs.length + 2 * is.length) (hs : ∀ v ∈ bs ++ is, v < st.surfaces.length) :
    NoEnd ((cs!"REGION" ++ spaced [showNat next, name]) :: wrapped cs!"  " 0 items)
    ∧ ∃ rb : RBlock, rb.name = name ∧ rb.boundaries.Perm bs ∧ rb.internals.Perm is ∧
      run (st, .top) ((cs!"REGION" ++ spaced [showNat next, name]) :: wrapped cs!"  " 0 items) =
        .ok ({ st with blocks := st.blocks ++ [rb] }, .top) := by
  constructor
  · intro l hl
    rcases List.mem_cons.1 hl with rfl | hl
    · rfl
    · exact wrapped_noEnd items cs!"  " 0 rfl l hl
  · obtain ⟨rel, hrel, hb, hi⟩ := relations_regions hn hp hl
    refine ⟨⟨name, (rel.filter fun r => r.1).map Prod.snd, (rel.filter fun r => !r.1).map Prod.snd⟩, rfl, hb, hi, ?_⟩
    have e : split (cs!"REGION" ++ spaced [showNat next, name]) = cs!"REGION" :: showNat next :: split name := by
      rw [split_kw_spaced' (by decide)]
      simp [split_tok (isTok_showNat next)]
    rw [run_cons, step_top]
    unfold topLine
    rw [e]
    have h1 : (cs!"REGION" = cs!"TSURF") = False := by decide
    have h2 : (cs!"REGION" = cs!"TFACE") = False := by decide
    simp only [h1, h2, if_false, if_true]
    have hm : readRegionKeyword (showNat next :: split name) = .ok (.block name []) := by
      unfold readRegionKeyword
      have : readName (List.drop 1 (showNat next :: split name)) = name := readName_split hg.obj
      rw [this]
      simp only [hu, if_false]
      have hne := hg.1
      cases hsp : split name with
      | nil => exact absurd hsp hne
      | cons a l => rfl
    rw [hm]
    simp only [Res.ok_bind, Res.pure_eq]
    have := run_wrapped (listMode_block st name) h cs!"  " cs!" " 0 [] [] rfl rfl
    rw [this]
    simp only [List.nil_append]
    unfold closeBlock
    rw [hrel]
    have hall : Res.mapM' (fun r : Bool × Nat => Res.index st.surfaces r.2) rel = .ok (rel.map fun r => (st.surfaces.getD r.2 [])) := by
      apply Res.mapM'_ok
      intro r hr
      have hlt : r.2 < st.surfaces.length := by
        apply hs
        rw [List.mem_append]
        obtain ⟨k, v⟩ := r
        cases k
        · right
          exact hi.subset (List.mem_map.2 ⟨(false, v), by simp [hr], rfl⟩)
        · left
          exact hb.subset (List.mem_map.2 ⟨(true, v), by simp [hr], rfl⟩)
      rw [Res.index_of_lt hlt]
      simp [List.getD_eq_getElem?_getD, hlt]
    rw [Res.ok_bind, hall]
    rfl

/-- A layer. -/
theorem run_layer (st : RState) {name : Str} (hg : GoodName name) {items : List Str} {vs : List Nat}
    (h : List.Forall₂ (fun x v => IsTok x ∧ layerToken st x = .ok (some v)) items vs) :
    NoEnd ((cs!"LAYER" ++ spaced [name]) :: wrapped cs!"  " 0 items)
    ∧ run (st, .top) ((cs!"LAYER" ++ spaced [name]) :: wrapped cs!"  " 0 items) =
      .ok ({ st with units := st.units ++ [(name, layerBlocks st vs)] }, .top) := by
  constructor
  · intro l hl
    rcases List.mem_cons.1 hl with rfl | hl
    · rfl
    · exact wrapped_noEnd items cs!"  " 0 rfl l hl
  · have e : split (cs!"LAYER" ++ spaced [name]) = cs!"LAYER" :: split name := by
      rw [split_kw_spaced' (by decide)]; simp
    rw [run_cons, step_top]
    unfold topLine
    rw [e]
    have hr := readName_split hg.obj
    cases hsp : split name with
    | nil => exact absurd hsp hg.1
    | cons a l =>
      have h1 : (cs!"LAYER" = cs!"TSURF") = False := by decide
      have h2 : (cs!"LAYER" = cs!"TFACE") = False := by decide
      have h3 : (cs!"LAYER" = cs!"REGION") = False := by decide
      simp only [h1, h2, h3, if_false, if_true]
      rw [← hsp, hr]
      simp only [Res.ok_bind]
      have := run_wrapped (listMode_layer st name) h cs!"  " cs!" " 0 [] [] rfl rfl
      simpa using this

/-- A fault block. -/
theorem run_faultBlock (st : RState) {name : Str} (hg : GoodName name) {items : List Str} {vs : List Nat}
    (h : List.Forall₂ (fun x v => IsTok x ∧ layerToken st x = .ok (some v)) items vs) :
    NoEnd ((cs!"FAULT_BLOCK" ++ spaced [name]) :: wrapped cs!"  " 0 items)
    ∧ run (st, .top) ((cs!"FAULT_BLOCK" ++ spaced [name]) :: wrapped cs!"  " 0 items) =
      .ok ({ st with faultBlocks := st.faultBlocks ++ [(name, layerBlocks st vs)] }, .top) := by
  constructor
  · intro l hl
    rcases List.mem_cons.1 hl with rfl | hl
    · rfl
    · exact wrapped_noEnd items cs!"  " 0 rfl l hl
  · have e : split (cs!"FAULT_BLOCK" ++ spaced [name]) = cs!"FAULT_BLOCK" :: split name := by
      rw [split_kw_spaced' (by decide)]; simp
    rw [run_cons, step_top]
    unfold topLine
    rw [e]
    have hr := readName_split hg.obj
    cases hsp : split name with
    | nil => exact absurd hsp hg.1
    | cons a l =>
      have h1 : (cs!"FAULT_BLOCK" = cs!"TSURF") = False := by decide
      have h2 : (cs!"FAULT_BLOCK" = cs!"TFACE") = False := by decide
      have h3 : (cs!"FAULT_BLOCK" = cs!"REGION") = False := by decide
      have h4 : (cs!"FAULT_BLOCK" = cs!"LAYER") = False := by decide
      simp only [h1, h2, h3, h4, if_false, if_true]
      rw [← hsp, hr]
      simp only [Res.ok_bind]
      have := run_wrapped (listMode_faultBlock st name) h cs!"  " cs!" " 0 [] [] rfl rfl
      simpa using this

end Verif.Ml
