import Verif.Props.FemRanges
import Mathlib.Data.List.Perm.Subperm
import Mathlib.Data.List.Nodup

/-!
# C32, C33, C54 and C55: values and sets of FEFLOW files
-/

namespace Verif.Props.FemValues

open Verif Verif.Fem Verif.Props.FemRanges

/-! ## Specification -/

/-- The content of a line of values: a value, then ranges of items. -/
def readLine (l : Str) : Option (List (Str × Nat)) :=
  match split l with
  | [] => none
  | v :: ts => (expandAll ts).map fun ids => ids.map fun i => (v, i)

/-- The content of lines of values. -/
def readLines : List Str → Option (List (Str × Nat))
  | [] => some []
  | l :: ls => do
    let a ← readLine l
    let b ← readLines ls
    some (a ++ b)

theorem readLines_append (a b : List Str) :
    readLines (a ++ b) = (readLines a).bind fun x => (readLines b).map fun y => x ++ y := by
  induction a with
  | nil => simp [readLines]
  | cons t ts ih =>
    simp only [List.cons_append, readLines, ih]
    cases readLine t with
    | none => rfl
    | some x =>
      cases readLines ts with
      | none => rfl
      | some y =>
        cases readLines b with
        | none => rfl
        | some z => simp

theorem readLines_flatMap {α : Type} (l : List α) (f : α → List Str) (g : α → List (Str × Nat)) (h : ∀ a ∈ l, readLines (f a) = some (g a)) :
    readLines (l.flatMap f) = some (l.flatMap g) := by
  induction l with
  | nil => rfl
  | cons a as ih =>
    rw [List.flatMap_cons, readLines_append, h a (by simp), ih fun b hb => h b (by simp [hb])]
    rfl

/-! ## Lines of one value -/

theorem readLine_chunk {v c : Str} (hv : IsTok v) :
    readLine (cs!"  " ++ v ++ cs!"  " ++ c ++ cs!" ") = (expandAll (split c)).map fun ids => ids.map fun i => (v, i) := by
  have e : split (cs!"  " ++ v ++ cs!"  " ++ c ++ cs!" ") = v :: split c := by
    have e1 : cs!"  " ++ v ++ cs!"  " ++ c ++ cs!" " = ' ' :: ' ' :: (v ++ ' ' :: ' ' :: (c ++ ' ' :: [])) := by simp
    rw [e1, split_cons_ws rfl, split_cons_ws rfl, split_tok_append hv, split_cons_ws rfl, split_append_space]
    simp [split]
  unfold readLine
  rw [e]

theorem readLines_writeChunks {v : Str} (hv : IsTok v) (max : Nat) {es : List Nat} (h : ∀ e ∈ es, e < NO_ID) :
    readLines (writeChunks es v max) = some (es.map fun i => (v, i)) := by
  have key : ∀ (cs : List Str) (es : List Nat), readRanges cs = some es →
      readLines (cs.map fun c => cs!"  " ++ v ++ cs!"  " ++ c ++ cs!" ") = some (es.map fun i => (v, i)) := by
    intro cs
    induction cs with
    | nil =>
      intro es h
      have : es = [] := by
        simp only [readRanges, List.flatMap_nil, expandAll, Option.some.injEq] at h
        exact h.symm
      subst this
      rfl
    | cons c cs ih =>
      intro es h
      unfold readRanges at h
      rw [List.flatMap_cons, expandAll_append] at h
      cases h1 : expandAll (split c) with
      | none => rw [h1] at h; simp at h
      | some x =>
        cases h2 : expandAll (cs.flatMap split) with
        | none => rw [h1, h2] at h; simp at h
        | some y =>
          rw [h1, h2] at h
          simp only [Option.bind_some, Option.map_some, Option.some.injEq] at h
          subst h
          rw [List.map_cons, readLines, readLine_chunk hv, h1, ih y h2]
          simp
  exact key _ _ (ranges_decoded max es h)

/-! ## Maps -/

section Maps

variable {K : Type} [DecidableEq K]

/-- The content of a map. -/
def pairs (m : List (K × List Nat)) : List (K × Nat) := m.flatMap fun e => e.2.map fun i => (e.1, i)

theorem insertKey_perm (le : K → K → Bool) (k : K) (ks : List K) : (insertKey le k ks).Perm (k :: ks) := by
  induction ks with
  | nil => exact List.Perm.refl _
  | cons k' ks ih =>
    rw [insertKey]
    split
    · exact List.Perm.refl _
    · exact (ih.cons k').trans (List.Perm.swap _ _ _)

theorem sortKeys_perm (le : K → K → Bool) (ks : List K) : (sortKeys le ks).Perm ks := by
  induction ks with
  | nil => exact List.Perm.refl _
  | cons k ks ih => exact (insertKey_perm le k _).trans (ih.cons k)

theorem pairs_push (m : List (K × List Nat)) (k : K) (i : Nat) : (pairs (push m k i)).Perm (pairs m ++ [(k, i)]) := by
  induction m with
  | nil => simp [push, pairs]
  | cons e m ih =>
    obtain ⟨k', l⟩ := e
    rw [push]
    split
    · rename_i h
      subst h
      simp only [pairs, List.flatMap_cons, List.map_append, List.map_cons, List.map_nil, List.append_assoc]
      exact List.Perm.append_left _ List.perm_append_comm
    · simp only [pairs, List.flatMap_cons, List.append_assoc]
      exact List.Perm.append_left _ ih

theorem keys_push (m : List (K × List Nat)) (k : K) (i : Nat) :
    (push m k i).map Prod.fst = if k ∈ m.map Prod.fst then m.map Prod.fst else m.map Prod.fst ++ [k] := by
  induction m with
  | nil => simp [push]
  | cons e m ih =>
    obtain ⟨k', l⟩ := e
    rw [push]
    by_cases h : k' = k
    · simp [h]
    · rw [if_neg h, List.map_cons, ih]
      have h' : ¬ k = k' := fun e => h e.symm
      by_cases hm : k ∈ m.map Prod.fst
      · rw [if_pos hm, if_pos (by simp only [List.map_cons, List.mem_cons]; exact Or.inr hm)]
        rfl
      · rw [if_neg hm, if_neg (by simp only [List.map_cons, List.mem_cons]; exact fun h => h.elim h' hm)]
        rfl

theorem nodup_push {m : List (K × List Nat)} (h : (m.map Prod.fst).Nodup) (k : K) (i : Nat) : ((push m k i).map Prod.fst).Nodup := by
  rw [keys_push]
  split
  · exact h
  · rename_i hk
    rw [List.nodup_append]
    exact ⟨h, by simp, by intro a ha b hb e; rw [List.mem_singleton] at hb; rw [hb] at e; exact hk (by rw [← e]; exact ha)⟩

theorem get_of_mem {m : List (K × List Nat)} (h : (m.map Prod.fst).Nodup) {e : K × List Nat} (he : e ∈ m) : getIds m e.1 = e.2 := by
  induction m with
  | nil => simp at he
  | cons x m ih =>
    obtain ⟨k', l⟩ := x
    rw [getIds]
    rw [List.map_cons, List.nodup_cons] at h
    rcases List.mem_cons.1 he with rfl | he
    · simp
    · have : ¬ k' = e.1 := by
        intro hk
        exact h.1 (by dsimp only; rw [hk]; exact List.mem_map_of_mem he)
      rw [if_neg this]
      exact ih h.2 he

/-- The distribution groups the items by value. -/
theorem distribution_ok {n : Nat} {values : List K} (h : n ≤ values.length) :
    ∃ m : List (K × List Nat), distribution n values = .ok m ∧ (m.map Prod.fst).Nodup ∧
      (pairs m).Perm ((values.take n).zipIdx.map fun v => (v.1, v.2 + 1)) := by
  induction n with
  | zero => exact ⟨[], rfl, by simp, by simp [pairs]⟩
  | succ n ih =>
    obtain ⟨m, h1, h2, h3⟩ := ih (by omega)
    refine ⟨push m values[n] (n + 1), ?_, nodup_push h2 _ _, ?_⟩
    · unfold distribution at h1 ⊢
      rw [List.range_succ, Res.foldM'_append, h1, Res.ok_bind, Res.foldM'_cons, Res.index_of_lt (by omega : n < values.length)]
      rfl
    · refine (pairs_push _ _ _).trans ?_
      rw [List.take_succ_eq_append_getElem (by omega), List.zipIdx_append]
      simp only [List.map_append]
      refine List.Perm.append h3 ?_
      simp [Nat.min_eq_left (by omega : n ≤ values.length)]

theorem distribution_ub {n : Nat} {values : List K} (h : values.length < n) : distribution n values = .ub := by
  obtain ⟨m, h1, -, -⟩ := distribution_ok (Nat.le_refl values.length)
  unfold distribution at h1 ⊢
  obtain ⟨k, rfl⟩ : ∃ k, n = values.length + (1 + k) := ⟨n - values.length - 1, by omega⟩
  rw [List.range_add, Res.foldM'_append, h1, Res.ok_bind, List.range_add]
  have : Res.index values values.length = .ub := by simp [Res.index]
  simp [this]

/-- The lines of a map denote its content. -/
theorem distributionLines_read {toStr : K → Str} (htok : ∀ v, IsTok (toStr v)) (le : K → K → Bool) {m : List (K × List Nat)}
    (hnd : (m.map Prod.fst).Nodup) (hid : ∀ p ∈ pairs m, p.2 < NO_ID) :
    ∃ ps, readLines (distributionLines toStr le m) = some ps ∧ ps.Perm ((pairs m).map fun p => (toStr p.1, p.2)) := by
  refine ⟨_, readLines_flatMap _ _ (fun v => (getIds m v).map fun i => (toStr v, i)) ?_, ?_⟩
  · intro v hv
    rw [(sortKeys_perm le _).mem_iff, List.mem_map] at hv
    obtain ⟨e, he, rfl⟩ := hv
    refine readLines_writeChunks (htok _) _ ?_
    intro i hi
    rw [get_of_mem hnd he] at hi
    exact hid (e.1, i) (by
      unfold pairs
      rw [List.mem_flatMap]
      exact ⟨e, he, List.mem_map.2 ⟨i, hi, rfl⟩⟩)
  · refine ((sortKeys_perm le _).flatMap_right _).trans (List.Perm.of_eq ?_)
    rw [List.flatMap_map]
    unfold pairs
    rw [List.map_flatMap]
    have : ∀ e ∈ m, (getIds m e.1).map (fun i => (toStr e.1, i)) = (e.2.map fun i => (e.1, i)).map fun p => (toStr p.1, p.2) := by
      intro e he
      rw [get_of_mem hnd he, List.map_map]
      rfl
    clear hnd hid
    revert this
    generalize getIds m = g
    intro this
    induction m with
    | nil => rfl
    | cons e m ih =>
      rw [List.flatMap_cons, List.flatMap_cons, this e (by simp), ih fun x hx => this x (by simp [hx])]

/-- What is written for an attribute when the number of polyhedra is `n`: the `n` first items. -/
theorem writeProperty_read {toStr : K → Str} (htok : ∀ v, IsTok (toStr v)) (le : K → K → Bool) {n : Nat} (name : Str) {values : List K}
    (h : n ≤ values.length) (hn : n + 1 < NO_ID) :
    ∃ (lines : File) (ps : List (Str × Nat)), writeProperty toStr le n name values = .ok (name :: lines) ∧ readLines lines = some ps ∧
      ps.Perm ((values.take n).zipIdx.map fun v => (toStr v.1, v.2 + 1)) := by
  obtain ⟨m, h1, h2, h3⟩ := distribution_ok h
  have hid : ∀ p ∈ pairs m, p.2 < NO_ID := by
    intro p hp
    have := h3.mem_iff.1 hp
    rw [List.mem_map] at this
    obtain ⟨⟨v, i⟩, hv, rfl⟩ := this
    have := List.snd_lt_of_mem_zipIdx hv
    rw [List.length_take] at this
    dsimp only at this ⊢
    omega
  obtain ⟨ps, h4, h5⟩ := distributionLines_read htok le h2 hid
  refine ⟨distributionLines toStr le m, ps, ?_, h4, h5.trans ?_⟩
  · unfold writeProperty
    rw [h1]
    rfl
  · refine (h3.map _).trans (List.Perm.of_eq ?_)
    rw [List.map_map]
    rfl

/-- **C33.**  For each property of the elements, each element is listed exactly once, under its own value. -/
theorem elements_listed {toStr : K → Str} (htok : ∀ v, IsTok (toStr v)) (le : K → K → Bool) (name : Str) {values : List K}
    (hn : values.length + 1 < NO_ID) :
    ∃ (lines : File) (ps : List (Str × Nat)), writeProperty toStr le values.length name values = .ok (name :: lines) ∧
      readLines lines = some ps ∧ ps.Perm (values.zipIdx.map fun v => (toStr v.1, v.2 + 1)) := by
  have := writeProperty_read htok le name (Nat.le_refl values.length) hn
  rw [List.take_length] at this
  exact this

example : writeProperty (fun v : Int => showInt v) (fun a b => decide (a ≤ b)) 4 cs!"p" [7, 2, 7, 7] =
    .ok [cs!"p", cs!"  2  2 ", cs!"  7  1 3-4 "] := by decide +kernel

/-- **C32 when there are as many nodes as elements**: each node is listed exactly once, under its own value. -/
theorem nodes_listed_partial {toStr : K → Str} (htok : ∀ v, IsTok (toStr v)) (le : K → K → Bool) (name : Str) {values : List K}
    {nbPolyhedra : Nat} (he : nbPolyhedra = values.length) (hn : values.length + 1 < NO_ID) :
    ∃ (lines : File) (ps : List (Str × Nat)), writeProperty toStr le nbPolyhedra name values = .ok (name :: lines) ∧
      readLines lines = some ps ∧ ps.Perm (values.zipIdx.map fun v => (toStr v.1, v.2 + 1)) := by
  subst he
  exact elements_listed htok le name hn

/-- **C32 fails with fewer elements than nodes**: the last node is not listed. -/
theorem last_node_missing {toStr : K → Str} (htok : ∀ v, IsTok (toStr v)) (le : K → K → Bool) (name : Str) {values : List K}
    {nbPolyhedra : Nat} (h : nbPolyhedra < values.length) (hn : nbPolyhedra + 1 < NO_ID) :
    ∃ (lines : File) (ps : List (Str × Nat)), writeProperty toStr le nbPolyhedra name values = .ok (name :: lines) ∧
      readLines lines = some ps ∧ ∀ v, (v, values.length) ∉ ps := by
  obtain ⟨lines, ps, h1, h2, h3⟩ := writeProperty_read htok le name (Nat.le_of_lt h) hn
  refine ⟨lines, ps, h1, h2, ?_⟩
  intro v hv
  have := h3.mem_iff.1 hv
  rw [List.mem_map] at this
  obtain ⟨⟨x, i⟩, hx, e⟩ := this
  have hi := List.snd_lt_of_mem_zipIdx hx
  rw [List.length_take] at hi
  simp only [Prod.mk.injEq] at e
  dsimp only at hi
  omega

/-- **C32 fails with more elements than nodes**: the attribute is read out of bounds. -/
theorem nodes_out_of_bounds {toStr : K → Str} (le : K → K → Bool) (name : Str) {values : List K} {nbPolyhedra : Nat}
    (h : values.length < nbPolyhedra) : writeProperty toStr le nbPolyhedra name values = .ub := by
  unfold writeProperty
  rw [distribution_ub h]
  rfl

end Maps

/-! ## Headers -/

variable {D : Type}

/-- The number announced by the header of a section. -/
def announced (header : Str) : Option Int := parseZ ((header.drop 1).takeWhile fun c => c != ',')

theorem comma_not_mem_showNat (n : Nat) : ',' ∉ showNat n := by
  intro h
  obtain ⟨d, hd, e⟩ := (showNat_spec n).2.1 _ h
  have : ∀ d, d < 10 → ',' ≠ digitChar d := by decide
  exact this d hd e

theorem comma_not_mem_showInt (z : Int) : ',' ∉ showInt z := by
  cases z with
  | ofNat n => exact comma_not_mem_showNat n
  | negSucc n =>
    intro h
    rcases List.mem_cons.1 h with h | h
    · exact absurd h (by decide)
    · exact comma_not_mem_showNat _ h

theorem announced_showInt (z : Int) (r : Str) : announced (cs!" " ++ showInt z ++ cs!", " ++ r) = some z := by
  unfold announced
  have e : (cs!" " ++ showInt z ++ cs!", " ++ r).drop 1 = showInt z ++ ',' :: ' ' :: r := by simp
  rw [e, List.takeWhile_append_of_pos]
  · simp [parseZ_showInt]
  · intro c hc
    have : c ≠ ',' := fun h => comma_not_mem_showInt z (h ▸ hc)
    simp [this]

/-- The property blocks of a section begin with the names of the attributes. -/
theorem bodies_named [DecidableEq D] {toStr : D → Str} {le : D → D → Bool} {n : Nat} {attrs : List (Attr D)} : ∀ {bodies : List File},
    Res.mapM' (fun a => writeProperty toStr le n a.name a.values) attrs = .ok bodies →
      bodies.length = attrs.length ∧ bodies.map List.head? = attrs.map fun a => some a.name := by
  induction attrs with
  | nil => intro bodies h; simp at h; subst h; simp
  | cons a as ih =>
    intro bodies h
    rw [Res.mapM'_cons, Res.bind_eq_ok] at h
    obtain ⟨b, hb, h⟩ := h
    rw [Res.bind_eq_ok] at h
    obtain ⟨bs, hbs, h⟩ := h
    simp only [Res.ok.injEq] at h
    subst h
    obtain ⟨i1, i2⟩ := ih hbs
    unfold writeProperty at hb
    rw [Res.bind_eq_ok] at hb
    obtain ⟨d, _, hb⟩ := hb
    simp only [Res.pure_eq, Res.ok.injEq] at hb
    subst hb
    simp [i1, i2]

/-- **C54 for nodes.**  The section of the nodes announces as many properties as it has: the three coordinates and the scalar
attributes of the vertices, but for their points. -/
theorem nodal_count [Num D] [DecidableEq D] (toStr : D → Str) (le : D → D → Bool) (m : Mesh D) {f : File}
    (h : writeRefNodalDist toStr le m = .ok f) :
    ∃ (header : Str) (blocks : List File), f = cs!"REF_DIS_I" :: header :: blocks.flatten ∧ announced header = some (blocks.length : Int) ∧
      blocks.map List.head? = [some cs!"X", some cs!"Y", some cs!"Z"] ++
        (m.vertexAttrs.filter fun a => decide (a.genericable = true ∧ a.name ≠ cs!"points")).map fun a => some a.name := by
  have hf : (m.vertexAttrs.filter fun a => decide (a.genericable = true ∧ a.name ≠ cs!"points")) = nodalAttrs m := by
    unfold nodalAttrs
    refine List.filter_congr fun a _ => ?_
    rw [Bool.eq_iff_iff]
    simp
  rw [hf]
  unfold writeRefNodalDist at h
  rw [Res.bind_eq_ok] at h
  obtain ⟨bodies, h1, h2⟩ := h
  simp only [Res.pure_eq, Res.ok.injEq] at h2
  have hb := bodies_named h1
  refine ⟨cs!" " ++ showInt (((3 + (nodalAttrs m).length : Nat)) : Int) ++ cs!", " ++ (showNat m.points.length ++ cs!", 0"),
    [writeCoordDist le cs!"X" (m.points.map Pt.x), writeCoordDist le cs!"Y" (m.points.map Pt.y),
    writeCoordDist le cs!"Z" (m.points.map Pt.z)] ++ bodies, ?_, ?_, ?_⟩
  · rw [← h2]
    simp [showInt]
  · rw [announced_showInt]
    simp [hb.1]
    omega
  · rw [List.map_append, hb.2]
    rfl

/-- The names of the attributes that the tetrahedra always have, and that are not properties. -/
def ownNames : List Str := [cs!"tetrahedron_vertices", cs!"tetrahedron_adjacents", cs!"geode_active"]

/-- The section of the elements has the scalar attributes of the tetrahedra but for their own, and announces three less than all of them. -/
theorem element_blocks [DecidableEq D] (toStr : D → Str) (le : D → D → Bool) (m : Mesh D) {f : File}
    (h : writeRefElementDist toStr le m = .ok f) :
    ∃ (header : Str) (blocks : List File), f = cs!"REF_DISE_I" :: header :: blocks.flatten ∧
      announced header = some ((m.polyhedronAttrs.length : Int) - 3) ∧
      blocks.map List.head? = (m.polyhedronAttrs.filter fun a => decide (a.genericable = true ∧ a.name ∉ ownNames)).map fun a => some a.name := by
  have hf : (m.polyhedronAttrs.filter fun a => decide (a.genericable = true ∧ a.name ∉ ownNames)) = elementAttrs m := by
    unfold elementAttrs ownNames
    refine List.filter_congr fun a _ => ?_
    rw [Bool.eq_iff_iff]
    simp [and_assoc]
  rw [hf]
  unfold writeRefElementDist at h
  rw [Res.bind_eq_ok] at h
  obtain ⟨bodies, h1, h2⟩ := h
  simp only [Res.pure_eq, Res.ok.injEq] at h2
  have hb := bodies_named h1
  refine ⟨cs!" " ++ showInt (nbElemAtt m) ++ cs!", " ++ (showNat m.polyhedra.length ++ cs!", 0"), bodies, ?_, ?_, hb.2⟩
  · rw [← h2]
    simp
  · rw [announced_showInt]
    rfl

/-- **C54 fails for elements**: an attribute of strings, such as the block names added by the export of models, is announced and not
written. -/
def mesh1 : Mesh Int where
  points := []
  polyhedra := []
  vertexAttrs := []
  polyhedronAttrs := [⟨cs!"tetrahedron_vertices", false, []⟩, ⟨cs!"tetrahedron_adjacents", false, []⟩, ⟨cs!"geode_active", true, []⟩,
    ⟨cs!"Block_ID_polyhedron", false, []⟩]

theorem element_count_wrong : writeRefElementDist (fun v : Int => showInt v) (fun a b => decide (a ≤ b)) mesh1 =
    .ok [cs!"REF_DISE_I", cs!" 1, 0, 0"] := by decide +kernel

/-- The number announced for the elements is right exactly when three attributes are left out. -/
theorem element_count_partial (m : Mesh D) : nbElemAtt m = (elementAttrs m).length ↔
    (m.polyhedronAttrs.filter fun a => !(a.genericable &&
      !(a.name == cs!"tetrahedron_vertices" || a.name == cs!"tetrahedron_adjacents" || a.name == cs!"geode_active"))).length = 3 := by
  have h := List.length_eq_length_filter_add (l := m.polyhedronAttrs) (fun a : Attr D => a.genericable &&
    !(a.name == cs!"tetrahedron_vertices" || a.name == cs!"tetrahedron_adjacents" || a.name == cs!"geode_active"))
  unfold nbElemAtt elementAttrs
  rw [h]
  push_cast
  constructor
  · intro e
    have : (3 : Int) = ((m.polyhedronAttrs.filter fun a => !(a.genericable &&
      !(a.name == cs!"tetrahedron_vertices" || a.name == cs!"tetrahedron_adjacents" || a.name == cs!"geode_active"))).length : Int) := by
      omega
    exact_mod_cast this.symm
  · intro e
    rw [e]
    omega

/-! ## Sets -/

theorem vertexRegionMap_ok (blocks : List (List Str)) :
    ((vertexRegionMap blocks).map Prod.fst).Nodup ∧
      (pairs (vertexRegionMap blocks)).Perm (blocks.zipIdx.flatMap fun b => b.1.map fun name => (name, b.2 + 1)) := by
  unfold vertexRegionMap
  have inner : ∀ (names : List Str) (i : Nat) (m : List (Str × List Nat)), (m.map Prod.fst).Nodup →
      ((names.foldl (fun m name => push m name i) m).map Prod.fst).Nodup ∧
      (pairs (names.foldl (fun m name => push m name i) m)).Perm (pairs m ++ names.map fun name => (name, i)) := by
    intro names i
    induction names with
    | nil => intro m h; exact ⟨h, by simp⟩
    | cons n ns ih =>
      intro m h
      obtain ⟨h1, h2⟩ := ih (push m n i) (nodup_push h _ _)
      refine ⟨h1, h2.trans ?_⟩
      refine ((pairs_push m n i).append_right _).trans ?_
      simp
  have outer : ∀ (bs : List (List Str × Nat)) (m : List (Str × List Nat)), (m.map Prod.fst).Nodup →
      ((bs.foldl (fun m b => b.1.foldl (fun m name => push m name (b.2 + 1)) m) m).map Prod.fst).Nodup ∧
      (pairs (bs.foldl (fun m b => b.1.foldl (fun m name => push m name (b.2 + 1)) m) m)).Perm
        (pairs m ++ bs.flatMap fun b => b.1.map fun name => (name, b.2 + 1)) := by
    intro bs
    induction bs with
    | nil => intro m h; exact ⟨h, by simp⟩
    | cons b bs ih =>
      intro m h
      obtain ⟨i1, i2⟩ := inner b.1 (b.2 + 1) m h
      obtain ⟨h1, h2⟩ := ih _ i1
      refine ⟨h1, h2.trans ?_⟩
      refine (i2.append_right _).trans ?_
      simp
  have := outer blocks.zipIdx [] (by simp)
  simpa [pairs] using this

/-- **C55 for nodes.**  The sets of nodes list each node once under each of its block names, whatever the order of iteration of the
map. -/
theorem nodal_sets {ord : List (Str × List Nat) → List (Str × List Nat)} (hord : ∀ l, (ord l).Perm l) (m : Mesh D)
    {blocks : List (List Str)} (hb : m.vertexBlocks = some blocks) (htok : ∀ b ∈ blocks, ∀ name ∈ b, IsTok name)
    (hn : blocks.length + 1 < NO_ID) :
    ∃ (lines : File) (ps : List (Str × Nat)), writeNodalSets ord m = cs!"NODALSETS" :: lines ∧ readLines lines = some ps ∧
      ps.Perm (blocks.zipIdx.flatMap fun b => b.1.map fun name => (name, b.2 + 1)) := by
  obtain ⟨h1, h2⟩ := vertexRegionMap_ok blocks
  have hmem : ∀ e ∈ vertexRegionMap blocks, ∀ i ∈ e.2, ∃ b ∈ blocks, e.1 ∈ b ∧ i ≤ blocks.length := by
    intro e he i hi
    have : (e.1, i) ∈ pairs (vertexRegionMap blocks) := by
      unfold pairs
      exact List.mem_flatMap.2 ⟨e, he, List.mem_map.2 ⟨i, hi, rfl⟩⟩
    have := h2.mem_iff.1 this
    rw [List.mem_flatMap] at this
    obtain ⟨⟨b, k⟩, hk, hx⟩ := this
    rw [List.mem_map] at hx
    obtain ⟨name, hname, hx⟩ := hx
    simp only [Prod.mk.injEq] at hx
    have hlt := List.snd_lt_of_mem_zipIdx hk
    have hb' := List.fst_mem_of_mem_zipIdx hk
    dsimp only at hlt hb'
    refine ⟨b, hb', hx.1 ▸ hname, by omega⟩
  refine ⟨(ord (vertexRegionMap blocks)).flatMap fun r => writeChunks r.2 r.1 CHUNK_SIZE,
    (ord (vertexRegionMap blocks)).flatMap fun e => e.2.map fun i => (e.1, i), ?_, ?_, ?_⟩
  · unfold writeNodalSets
    rw [hb]
  · refine readLines_flatMap _ _ _ ?_
    intro e he
    have he' := (hord _).mem_iff.1 he
    by_cases hnil : e.2 = []
    · rw [hnil]; rfl
    · obtain ⟨i, hi⟩ := List.exists_mem_of_ne_nil _ hnil
      obtain ⟨b, hb, hm, _⟩ := hmem e he' i hi
      refine readLines_writeChunks (htok b hb _ hm) _ ?_
      intro j hj
      obtain ⟨_, _, _, hle⟩ := hmem e he' j hj
      omega
  · refine ((hord _).flatMap_right _).trans h2

/-- **C55 fails for elements**: the map is read through views of destroyed strings, for every mesh with a polyhedron. -/
theorem element_sets_ub (ord : List (Str × List Nat) → List (Str × List Nat)) (m : Mesh D) {b : Str} {bs : List Str}
    (h : m.polyhedronBlocks = some (b :: bs)) : writeElementSets ord m = .ub := by
  unfold writeElementSets
  rw [h]
  rfl

example : writeNodalSets id { mesh1 with vertexBlocks := some [[cs!"a"], [cs!"b", cs!"a"], []] } =
    [cs!"NODALSETS", cs!"  a  1-2 ", cs!"  b  2 "] := by decide +kernel

end Verif.Props.FemValues
