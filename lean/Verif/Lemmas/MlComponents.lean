import Verif.Lemmas.MlLists
import Verif.Lemmas.MlRegion
import Verif.Lemmas.GocadMesh
import Verif.Lemmas.Sides

/-! Lemmas on the component section of `.ml` files: the records written, and what they are read as. -/

set_option linter.unusedSectionVars false

namespace Verif.Ml

open Verif Verif.Gocad Verif.GocadMesh

variable {D : Type} [Num D]

/-- A TSurf of the file: kind, name, surfaces. -/
structure Coll (D : Type) where
  kind : Str
  name : Str
  items : List (Surface D)

/-- The keywords of the component section. -/
def keywords : List Str := [cs!"TSURF", cs!"TFACE", cs!"REGION", cs!"LAYER", cs!"FAULT_BLOCK"]

/-- Numbers are not written as keywords. -/
def PlainNumbers (D : Type) [Num D] : Prop := ∀ d : D, Num.fmt d ∉ keywords

/-- The names are those of the collections. -/
def tsurfLines (T : List (Coll D)) : File := T.map fun t => cs!"TSURF" ++ spaced [t.name]

/-- Lines of the surfaces of a collection, numbered from `n`. -/
def faceLines (kind name : Str) : Nat → List (Surface D) → Res File
  | _, [] => .ok []
  | n, s :: ss => do
    let key ← keyTriangle s
    let r ← faceLines kind name (n + 1) ss
    pure ((cs!"TFACE" ++ spaced [showNat n, kind, name]) :: key ++ r)

/-- Lines of the surfaces of all the collections. -/
def collLines : Nat → List (Coll D) → Res File
  | _, [] => .ok []
  | n, t :: T => do
    let a ← faceLines t.kind t.name n t.items
    let b ← collLines (n + t.items.length) T
    pure (a ++ b)

/-- What is read from the `TFACE` lines. -/
def readTs : Nat → List (Coll D) → List RTsurf
  | _, [] => []
  | k, t :: T => ⟨t.name, if t.items.isEmpty then [] else t.kind, List.range' k t.items.length⟩ :: readTs (k + t.items.length) T

/-! ### Lines at top level -/

theorem step_top (st : RState) (l : Str) : step (st, .top) l = topLine st l := rfl

theorem topLine_tsurf (st : RState) {name : Str} (h : GoodName name) :
    topLine st (cs!"TSURF" ++ spaced [name]) =
      .ok ({ st with names := Sides.emplace st.names name st.tsurfs.length, tsurfs := st.tsurfs ++ [{ name }] }, .top) := by
  have e : split (cs!"TSURF" ++ spaced [name]) = cs!"TSURF" :: split name := by
    rw [split_kw_spaced' (by decide)]; simp
  unfold topLine
  rw [e]
  have hr := readName_split h.obj
  have hne := h.1
  cases hs : split name with
  | nil => exact absurd hs hne
  | cons a l =>
    simp only [if_true]
    rw [← hs, readTsurfKeyword, hr]

theorem index_append_left {α : Type} (l r : List α) (a : α) : Res.index (l ++ a :: r) l.length = .ok a := by
  rw [Res.index_eq_ok]; simp

theorem topLine_tface (st : RState) {kind name : Str} (hk : IsTok kind) (h : GoodName name) (n : Nat) {i : Nat} {t : RTsurf}
    (hi : Sides.find st.names name = some i) (ht : st.tsurfs[i]? = some t) :
    topLine st (cs!"TFACE" ++ spaced [showNat n, kind, name]) =
      .ok ({ st with
        surfaces := st.surfaces ++ [name]
        tsurfs := st.tsurfs.set i { t with feature := kind, tfaces := t.tfaces ++ [st.surfaces.length] } }, .top) := by
  have e : split (cs!"TFACE" ++ spaced [showNat n, kind, name]) = cs!"TFACE" :: showNat n :: kind :: split name := by
    rw [split_kw_spaced' (by decide)]
    simp [split_tok (isTok_showNat n), split_tok hk]
  unfold topLine
  rw [e]
  have hr := readName_split h.obj
  have hne := h.1
  cases hs : split name with
  | nil => exact absurd hs hne
  | cons a l =>
    have h1 : (cs!"TFACE" = cs!"TSURF") = False := by decide
    simp only [h1, if_false, if_true]
    unfold readTfaceKeyword
    have e2 : (showNat n :: kind :: a :: l).drop 2 = a :: l := rfl
    rw [e2, ← hs, hr]
    simp only [atKey, hi, Res.ofParse_some]
    rw [hs]
    simp only [Res.index_cons_succ, Res.index_cons_zero, Res.ok_bind]
    rw [Res.index_eq_ok.2 ht]
    rfl

theorem topLine_keyLine [LawfulNum D] (hp : PlainNumbers D) (st : RState) {s : Surface D} {v : Nat} {l : Str} (h : keyLine s v = .ok l) :
    topLine st l = .ok (st, .top) ∧ startsWith l cs!"END" = false := by
  unfold keyLine at h
  rw [Res.bind_eq_ok] at h
  obtain ⟨p, _, h⟩ := h
  simp only [Res.pure_eq, Res.ok.injEq] at h
  subst h
  refine ⟨?_, rfl⟩
  have e : split (cs!"  " ++ join p.toks) = p.toks := by
    have e' : cs!"  " ++ join p.toks = ' ' :: ' ' :: join p.toks := rfl
    rw [e', split_space, split_space, split_join (isTok_toks p)]
  unfold topLine
  rw [e]
  have hk := hp p.x
  simp only [keywords, List.mem_cons, List.not_mem_nil, or_false, not_or] at hk
  simp only [Pt.toks, hk, if_false]

theorem keyTriangle_lines [LawfulNum D] (hp : PlainNumbers D) (st : RState) {s : Surface D} {key : File} (h : keyTriangle s = .ok key) :
    run (st, .top) key = .ok (st, .top) ∧ NoEnd key := by
  unfold keyTriangle at h
  simp only [Res.bind_eq_ok] at h
  obtain ⟨t, _, a, ha, b, hb, c, hc, h⟩ := h
  simp only [Res.pure_eq, Res.ok.injEq] at h
  subst h
  have ka := topLine_keyLine hp st ha
  have kb := topLine_keyLine hp st hb
  have kc := topLine_keyLine hp st hc
  constructor
  · simp [run_cons, step_top, ka.1, kb.1, kc.1]
  · intro l hl
    simp only [List.mem_cons, List.not_mem_nil, or_false] at hl
    rcases hl with rfl | rfl | rfl
    · exact ka.2
    · exact kb.2
    · exact kc.2

/-! ### The list of TSurfs -/

/-- The map of names after the `TSURF` lines. -/
def nameMap : Nat → List Str → List (Str × Nat)
  | _, [] => []
  | k, n :: ns => (n, k) :: nameMap (k + 1) ns

theorem find_nameMap {k : Nat} {ns : List Str} (hn : ns.Nodup) {i : Nat} {n : Str} (h : ns[i]? = some n) : Sides.find (nameMap k ns) n = some (k + i) := by
  induction ns generalizing k i with
  | nil => simp at h
  | cons m ns ih =>
    rw [List.nodup_cons] at hn
    rw [nameMap, Sides.find]
    cases i with
    | zero => simp at h; subst h; simp
    | succ i =>
      rw [List.getElem?_cons_succ] at h
      rw [if_neg, ih hn.2 h]
      · congr 1; omega
      · rintro rfl
        exact hn.1 (List.mem_of_getElem? h)

theorem any_nameMap {k : Nat} {ns : List Str} {n : Str} : (nameMap k ns).any (fun e => e.1 = n) = ns.contains n := by
  induction ns generalizing k with
  | nil => rfl
  | cons m ns ih =>
    rw [nameMap, List.any_cons, ih, List.contains_cons]
    simp [beq_eq_decide, eq_comm]

theorem nameMap_append (k : Nat) (a b : List Str) : nameMap k (a ++ b) = nameMap k a ++ nameMap (k + a.length) b := by
  induction a generalizing k with
  | nil => rfl
  | cons n ns ih =>
    rw [List.cons_append, nameMap, ih, nameMap, List.length_cons]
    simp [Nat.add_assoc, Nat.add_comm 1]

theorem run_tsurfLines (st : RState) (done : List Str) (T : List (Coll D)) (hg : ∀ t ∈ T, GoodName t.name)
    (hn : (done ++ T.map Coll.name).Nodup) (hl : st.tsurfs.length = done.length) (hm : st.names = nameMap 0 done) :
    run (st, .top) (tsurfLines T) = .ok ({ st with
      names := nameMap 0 (done ++ T.map Coll.name)
      tsurfs := st.tsurfs ++ T.map fun t => { name := t.name } }, .top) := by
  induction T generalizing st done with
  | nil => simp [tsurfLines, ← hm]
  | cons t T ih =>
    have hg' := hg t List.mem_cons_self
    rw [tsurfLines, List.map_cons, run_cons, step_top, topLine_tsurf st hg', Res.ok_bind]
    have hem : Sides.emplace st.names t.name st.tsurfs.length = nameMap 0 (done ++ [t.name]) := by
      unfold Sides.emplace
      rw [hm, any_nameMap, if_neg]
      · rw [nameMap_append, hl]; simp [nameMap]
      · rw [List.nodup_append] at hn
        intro hc
        exact hn.2.2 _ (List.contains_iff_mem.1 hc) t.name (by simp) rfl
    have := ih { st with names := Sides.emplace st.names t.name st.tsurfs.length, tsurfs := st.tsurfs ++ [{ name := t.name }] } (done ++ [t.name])
      (fun t h => hg t (List.mem_cons_of_mem _ h)) (by simpa using hn) (by simp [hl]) hem
    rw [tsurfLines] at this
    rw [this]
    simp

theorem tsurfLines_noEnd (T : List (Coll D)) : NoEnd (tsurfLines T) := by
  intro l hl
  obtain ⟨t, _, rfl⟩ := List.mem_map.1 hl
  rfl

/-! ### The faces -/

theorem run_faceLines [LawfulNum D] (hp : PlainNumbers D) {kind name : Str} (hk : IsTok kind) (h : GoodName name) {i : Nat} :
    ∀ (ss : List (Surface D)) (n : Nat) (st : RState) (t : RTsurf) (ls : File), faceLines kind name n ss = .ok ls →
      Sides.find st.names name = some i → st.tsurfs[i]? = some t →
      NoEnd ls ∧ run (st, .top) ls = .ok ({ st with
        surfaces := st.surfaces ++ ss.map fun _ => name
        tsurfs := st.tsurfs.set i { t with
          feature := if ss.isEmpty then t.feature else kind
          tfaces := t.tfaces ++ List.range' st.surfaces.length ss.length } }, .top)
  | [], n, st, t, ls, hl, hi, ht => by
    simp only [faceLines, Res.ok.injEq] at hl
    subst hl
    refine ⟨fun _ h => by simp at h, ?_⟩
    have hset : st.tsurfs.set i t = st.tsurfs := by
      apply List.ext_getElem?
      intro j
      rw [List.getElem?_set]
      split
      · rename_i e; subst e
        have hlt := (List.getElem?_eq_some_iff.1 ht).1
        rw [if_pos hlt, ht]
      · rfl
    simp [hset]
  | s :: ss, n, st, t, ls, hl, hi, ht => by
    simp only [faceLines, Res.bind_eq_ok] at hl
    obtain ⟨key, hkey, r, hr, hl⟩ := hl
    simp only [Res.pure_eq, Res.ok.injEq] at hl
    subst hl
    have hlt := (List.getElem?_eq_some_iff.1 ht).1
    have key1 := topLine_tface st hk h n hi ht
    generalize hst : ({ st with
        surfaces := st.surfaces ++ [name]
        tsurfs := st.tsurfs.set i { t with feature := kind, tfaces := t.tfaces ++ [st.surfaces.length] } } : RState) = st' at key1
    have hkl := keyTriangle_lines hp st' hkey
    have ih := run_faceLines hp hk h ss (n + 1) st' { t with feature := kind, tfaces := t.tfaces ++ [st.surfaces.length] } r hr
      (by rw [← hst]; exact hi) (by rw [← hst]; simp [hlt])
    constructor
    · intro l hl
      rw [List.cons_append] at hl
      rcases List.mem_cons.1 hl with rfl | hl
      · rfl
      rcases List.mem_append.1 hl with hl | hl
      · exact hkl.2 l hl
      · exact ih.1 l hl
    · rw [List.cons_append, run_cons, step_top, key1, Res.ok_bind, run_append, hkl.1, Res.ok_bind, ih.2]
      subst hst
      simp [List.range'_succ]

theorem run_collLines [LawfulNum D] (hp : PlainNumbers D) :
    ∀ (T : List (Coll D)) (n : Nat) (st : RState) (done : List RTsurf) (ls : File), collLines n T = .ok ls →
      (∀ t ∈ T, IsTok t.kind ∧ GoodName t.name) → st.tsurfs = done ++ T.map (fun t => { name := t.name }) →
      (∀ (i : Nat) (t : Coll D), T[i]? = some t → Sides.find st.names t.name = some (done.length + i)) →
      NoEnd ls ∧ run (st, .top) ls = .ok ({ st with
        surfaces := st.surfaces ++ T.flatMap fun t => t.items.map fun _ => t.name
        tsurfs := done ++ readTs st.surfaces.length T }, .top)
  | [], n, st, done, ls, hl, _, ht, _ => by
    simp only [collLines, Res.ok.injEq] at hl
    subst hl
    refine ⟨fun _ h => by simp at h, ?_⟩
    simp [readTs]
    simp at ht
    rw [← ht]
  | t :: T, n, st, done, ls, hl, hg, ht, hi => by
    simp only [collLines, Res.bind_eq_ok] at hl
    obtain ⟨a, ha, b, hb, hl⟩ := hl
    simp only [Res.pure_eq, Res.ok.injEq] at hl
    subst hl
    have hgt := hg t List.mem_cons_self
    have h0 := hi 0 t rfl
    rw [Nat.add_zero] at h0
    have ht0 : st.tsurfs[done.length]? = some { name := t.name } := by rw [ht]; simp
    have h1 := run_faceLines hp hgt.1 hgt.2 t.items n st { name := t.name } a ha h0 ht0
    have h2 := run_collLines hp T (n + t.items.length) { st with
        surfaces := st.surfaces ++ t.items.map fun _ => t.name
        tsurfs := st.tsurfs.set done.length { name := t.name
                                              feature := if t.items.isEmpty then [] else t.kind
                                              tfaces := [] ++ List.range' st.surfaces.length t.items.length } }
      (done ++ [⟨t.name, if t.items.isEmpty then [] else t.kind, List.range' st.surfaces.length t.items.length⟩]) b hb
      (fun t h => hg t (List.mem_cons_of_mem _ h)) (by rw [ht]; simp)
      (by
        intro i u hu
        have := hi (i + 1) u hu
        rw [this]
        simp; omega)
    refine ⟨h1.1.append h2.1, ?_⟩
    rw [run_append, h1.2, Res.ok_bind]
    rw [h2.2]
    simp [readTs]

end Verif.Ml
