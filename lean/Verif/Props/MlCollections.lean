import Verif.Props.MlNames
import Verif.Props.MlCases

/-!
# C58, C59 and C62: the collections of surfaces of saved ML models

For every model whose saved file loads: which collections come back, with which types and how many surfaces.
-/

set_option linter.unusedSectionVars false

namespace Verif.Props.MlCollections

open Verif Verif.Gocad Verif.GocadMesh Verif.Ml Res
open Verif.Props.MlOutcomes (ids_append ids_absent Record Records Listed names faces Parts ml_loads_iff names_append faces_append ids feature bounded missing boundariesOf' faultsOf'
  horizonsOf' faultTypes contacts boundaryFeatures)
open Verif.Props.WlOutcomes (First goto_iff)
open Verif.Props.PropHeaders (mapM'_iff)
open Verif.Props.MlGroups
open Verif.Props.MlNames (prefix_unique chars_signed chars_showNat region_lines)

variable {D : Type} [Num D]

/-! ## Lines of records -/

/-- The group announced by a line. -/
def lineName (l : Str) : Option Str :=
  match split l with
  | k :: w :: ws => if k = cs!"TSURF" then some (readName (w :: ws)) else none
  | _ => none

/-- The feature and the group of the surface announced by a line. -/
def lineFace (l : Str) : Option (Str × Str) :=
  match split l with
  | k :: _ :: f :: w :: ws => if k = cs!"TFACE" then some (f, readName (w :: ws)) else none
  | _ => none

/-- The line has the words of its keyword. -/
def Complete (l : Str) : Prop :=
  ((split l).head? = some cs!"TSURF" → 2 ≤ (split l).length) ∧ ((split l).head? = some cs!"TFACE" → 4 ≤ (split l).length)

/-- The keywords of groups and surfaces. -/
def heads : List Str := [cs!"TSURF", cs!"TFACE"]

theorem quiet_of_head {l : Str} (h : ∀ t ts, split l = t :: ts → t ∉ heads) : lineName l = none ∧ lineFace l = none ∧ Complete l := by
  unfold lineName lineFace Complete
  cases hs : split l with
  | nil => exact ⟨rfl, rfl, by simp⟩
  | cons t ts =>
    have ht := h t ts hs
    simp only [heads, List.mem_cons, List.not_mem_nil, or_false, not_or] at ht
    obtain ⟨h1, h2⟩ := ht
    refine ⟨?_, ?_, by simp [h1, h2]⟩
    · split
      · rename_i e; rw [if_neg]; intro e'; exact h1 ((List.cons.inj e).1.trans e')
      · rfl
    · split
      · rename_i e; rw [if_neg]; intro e'; exact h2 ((List.cons.inj e).1.trans e')
      · rfl

theorem listed_quiet {A : Type} {num : Str → Option A} (hE : NoE num) (hn : ∀ t ∈ heads, num t = none) {zero : A} {f : File} {vs : List A} {rest : File}
    (h : Listed num zero f vs rest) :
    ∃ pre, f = pre ++ rest ∧ (∀ l ∈ pre, startsWith l cs!"END" = false) ∧ ∀ l ∈ pre, ∀ t ts, split l = t :: ts → t ∉ heads := by
  obtain ⟨pre, e, hp⟩ := listed_no_end hE h
  refine ⟨pre, e, hp, ?_⟩
  obtain ⟨ls, l, a, z, b, rfl, hs, hz, hv⟩ := h
  have hpre : pre = ls ++ [l] := by
    have : ls ++ l :: rest = (ls ++ [l]) ++ rest := by simp
    rw [this] at e
    exact (List.append_cancel_right e).symm
  have hall : ∀ w ∈ ls.flatMap split ++ a, ∃ v, num w = some v := by
    intro w hw
    obtain ⟨i, hi, rfl⟩ := List.getElem_of_mem hw
    have := hv.get hi (by rw [← hv.length_eq]; exact hi)
    exact ⟨_, this.1⟩
  intro x hx t ts ht hm
  have h0 := hn t hm
  rw [hpre] at hx
  rcases List.mem_append.1 hx with hx | hx
  · obtain ⟨v, hv⟩ := hall t (List.mem_append_left _ (List.mem_flatMap.2 ⟨x, hx, by rw [ht]; exact List.mem_cons_self⟩))
    rw [h0] at hv; cases hv
  · rw [List.mem_singleton.1 hx, hs] at ht
    cases a with
    | nil =>
      cases (List.cons.inj ht).1
      rw [h0] at hz; cases hz
    | cons w a =>
      cases (List.cons.inj ht).1
      obtain ⟨v, hv⟩ := hall t (List.mem_append_right _ List.mem_cons_self)
      rw [h0] at hv; cases hv

theorem int_heads : ∀ t ∈ heads, parseInt t = none := by decide
theorem index_heads : ∀ t ∈ heads, parseIndex t = none := by decide

/-- What the lines before the end announce. -/
structure Announced (pre : File) (rs : List Record) : Prop where
  ends : ∀ l ∈ pre, startsWith l cs!"END" = false
  complete : ∀ l ∈ pre, Complete l
  names : names rs = pre.filterMap lineName
  faces : faces rs = pre.filterMap lineFace

theorem Announced.append {p q : File} {rs qs : List Record} (h : Announced p rs) (h' : Announced q qs) : Announced (p ++ q) (rs ++ qs) where
  ends := List.forall_mem_append.2 ⟨h.ends, h'.ends⟩
  complete := List.forall_mem_append.2 ⟨h.complete, h'.complete⟩
  names := by rw [names_append, List.filterMap_append, h.names, h'.names]
  faces := by rw [faces_append, List.filterMap_append, h.faces, h'.faces]

theorem announced_quiet {ls : File} {rs : List Record} (he : ∀ l ∈ ls, startsWith l cs!"END" = false) (h : ∀ l ∈ ls, ∀ t ts, split l = t :: ts → t ∉ heads)
    (hn : names rs = []) (hf : faces rs = []) : Announced ls rs where
  ends := he
  complete l hl := (quiet_of_head (h l hl)).2.2
  names := by rw [hn, eq_comm, List.filterMap_eq_nil_iff]; exact fun l hl => (quiet_of_head (h l hl)).1
  faces := by rw [hf, eq_comm, List.filterMap_eq_nil_iff]; exact fun l hl => (quiet_of_head (h l hl)).2.1

theorem records_announced {f : File} {rs : List Record} {rest : File} (h : Records f rs rest) :
    ∃ pre e, f = pre ++ e :: rest ∧ startsWith e cs!"END" = true ∧ Announced pre rs := by
  have add : ∀ {p ls f : File} {r rs : List Record} {rest : File}, ls = p ++ f → Announced p r →
      (∃ pre e, f = pre ++ e :: rest ∧ startsWith e cs!"END" = true ∧ Announced pre rs) →
      ∃ pre e, ls = pre ++ e :: rest ∧ startsWith e cs!"END" = true ∧ Announced pre (r ++ rs) := by
    rintro p ls f r rs rest rfl a1 ⟨pre, e, rfl, he, a⟩
    exact ⟨p ++ pre, e, by simp, he, a1.append a⟩
  have one : ∀ {l k : Str} {ws : List Str}, startsWith l cs!"END" = false → split l = k :: ws → k ∉ heads → ∀ {mid : File}, (∀ l ∈ mid, startsWith l cs!"END" = false) →
      (∀ l ∈ mid, ∀ t ts, split l = t :: ts → t ∉ heads) → (∀ x ∈ l :: mid, startsWith x cs!"END" = false) ∧ ∀ x ∈ l :: mid, ∀ t ts, split x = t :: ts → t ∉ heads := by
    intro l k ws hl hs hk mid hm hq
    refine ⟨List.forall_mem_cons.2 ⟨hl, hm⟩, List.forall_mem_cons.2 ⟨?_, hq⟩⟩
    intro t ts e
    rw [hs] at e
    rw [← (List.cons.inj e).1]
    exact hk
  induction h with
  | @done l rest h => exact ⟨[], l, rfl, h, by simp, by simp, rfl, rfl⟩
  | @tsurf l w ws ls rs rest h h1 h2 ih =>
    refine add (p := [l]) (r := [.tsurf (readName (w :: ws))]) rfl ⟨by simpa using h, ?_, ?_, ?_⟩ ih
    · simp only [List.mem_singleton, forall_eq, Complete, h1]; simp
    · simp [names, lineName, h1]
    · rcases ws with _ | ⟨a, _ | ⟨b, ws⟩⟩ <;> simp [faces, lineFace, h1]
  | @tface l a feature w ws ls rs rest h h1 h2 ih =>
    refine add (p := [l]) (r := [.tface feature (readName (w :: ws))]) rfl ⟨by simpa using h, ?_, ?_, ?_⟩ ih
    · simp only [List.mem_singleton, forall_eq, Complete, h1]; simp
    · simp [names, lineName, h1]
    · simp [faces, lineFace, h1]
  | @outside l a w ws ls ns f rs rest h h1 h2 h3 h4 ih =>
    obtain ⟨mid, e, hm, hq⟩ := listed_quiet noE_int int_heads h3
    obtain ⟨o1, o2⟩ := one h h1 (by decide) hm hq
    exact add (p := l :: mid) (r := [.outside ns]) (by rw [e]; rfl) (announced_quiet o1 o2 rfl rfl) ih
  | @block l a w ws ls ns f rs rest h h1 h2 h3 h4 ih =>
    obtain ⟨mid, e, hm, hq⟩ := listed_quiet noE_int int_heads h3
    obtain ⟨o1, o2⟩ := one h h1 (by decide) hm hq
    exact add (p := l :: mid) (r := [.block (readName (w :: ws)) ns]) (by rw [e]; rfl) (announced_quiet o1 o2 rfl rfl) ih
  | @layer l w ws ls ns f rs rest h h1 h3 h4 ih =>
    obtain ⟨mid, e, hm, hq⟩ := listed_quiet noE_index index_heads h3
    obtain ⟨o1, o2⟩ := one h h1 (by decide) hm hq
    exact add (p := l :: mid) (r := [.layer (readName (w :: ws)) ns]) (by rw [e]; rfl) (announced_quiet o1 o2 rfl rfl) ih
  | @faultBlock l w ws ls ns f rs rest h h1 h3 h4 ih =>
    obtain ⟨mid, e, hm, hq⟩ := listed_quiet noE_index index_heads h3
    obtain ⟨o1, o2⟩ := one h h1 (by decide) hm hq
    exact add (p := l :: mid) (r := [.faultBlock (readName (w :: ws)) ns]) (by rw [e]; rfl) (announced_quiet o1 o2 rfl rfl) ih
  | @other l k w ws ls rs rest h h1 h2 h3 ih =>
    obtain ⟨o1, o2⟩ := one h h1 (fun hm => h2 (by
      simp only [heads, List.mem_cons, List.not_mem_nil, or_false] at hm
      rcases hm with rfl | rfl <;> decide)) (mid := []) (by simp) (by simp)
    exact add (p := [l]) (r := []) rfl (announced_quiet o1 o2 rfl rfl) ih

/-! ## Lines written -/

/-- What written lines announce, when they have the words of their keywords. -/
structure Part (ls : File) (ns : List Str) (fs : List (Str × Str)) : Prop where
  ends : ∀ l ∈ ls, startsWith l cs!"END" = false
  names : (∀ l ∈ ls, Complete l) → ls.filterMap lineName = ns
  faces : (∀ l ∈ ls, Complete l) → ls.filterMap lineFace = fs

theorem Part.append {a b : File} {x x' : List Str} {y y' : List (Str × Str)} (h : Part a x y) (h' : Part b x' y') : Part (a ++ b) (x ++ x') (y ++ y') where
  ends := List.forall_mem_append.2 ⟨h.ends, h'.ends⟩
  names hc := by
    rw [List.forall_mem_append] at hc
    rw [List.filterMap_append, h.names hc.1, h'.names hc.2]
  faces hc := by
    rw [List.forall_mem_append] at hc
    rw [List.filterMap_append, h.faces hc.1, h'.faces hc.2]

/-- A line that is neither the end nor one of a group or of a surface. -/
def Silent (l : Str) : Prop := startsWith l cs!"END" = false ∧ ∀ t ts, split l = t :: ts → t ∉ heads

theorem part_silent {ls : File} (h : ∀ l ∈ ls, Silent l) : Part ls [] [] where
  ends l hl := (h l hl).1
  names _ := List.filterMap_eq_nil_iff.2 fun l hl => (quiet_of_head (h l hl).2).1
  faces _ := List.filterMap_eq_nil_iff.2 fun l hl => (quiet_of_head (h l hl).2).2.1

theorem silent_kw {kw : Str} (hk : IsTok kw) (he : ∀ s, startsWith (kw ++ s) cs!"END" = false) (ht : kw ∉ heads) (xs : List Str) : Silent (kw ++ spaced xs) :=
  ⟨he _, fun t ts e => by rw [split_kw_spaced' hk] at e; rw [← (List.cons.inj e).1]; exact ht⟩

theorem silent_chars {l : Str} (hE : 'E' ∉ l) (hT : 'T' ∉ l) : Silent l := by
  refine ⟨?_, fun t ts e hm => ?_⟩
  · rw [← Bool.not_eq_true]
    intro h
    obtain ⟨t, ts, e⟩ := end_starts h
    exact hE (mem_of_split (s := l) (t := 'E' :: t) (by rw [e]; exact List.mem_cons_self) 'E' List.mem_cons_self)
  · have ht : ∀ c ∈ t, c ∈ l := mem_of_split (by rw [e]; exact List.mem_cons_self)
    simp only [heads, List.mem_cons, List.not_mem_nil, or_false] at hm
    rcases hm with rfl | rfl
    · exact hT (ht 'T' (by decide))
    · exact hT (ht 'T' (by decide))

theorem silent_wrapped {xs : List Str} (hE : ∀ x ∈ xs, 'E' ∉ x) (hT : ∀ x ∈ xs, 'T' ∉ x) : ∀ l ∈ wrapped cs!"  " 0 xs, Silent l := fun l hl =>
  silent_chars (wrapped_chars (by decide) (by decide) xs _ _ (by decide) hE l hl) (wrapped_chars (by decide) (by decide) xs _ _ (by decide) hT l hl)

theorem silent_key [LawfulNum D] (hp : PlainNumbers D) {s : Ml.Surface D} {ls : File} (h : keyTriangle s = .ok ls) : ∀ l ∈ ls, Silent l := by
  have line : ∀ {v : Nat} {l : Str}, keyLine s v = .ok l → Silent l := by
    intro v l h
    unfold keyLine at h
    obtain ⟨p, _, h⟩ := bind_eq_ok.1 h
    rw [pure_eq] at h
    rw [← Res.ok.inj h]
    have e : split (cs!"  " ++ join p.toks) = p.toks := by
      have : cs!"  " ++ join p.toks = ' ' :: ' ' :: join p.toks := rfl
      rw [this, split_space, split_space, split_join (isTok_toks p)]
    refine ⟨rfl, fun t ts ht hm => hp p.x ?_⟩
    rw [e] at ht
    rw [show Num.fmt p.x = t from (List.cons.inj ht).1]
    simp only [heads, List.mem_cons, List.not_mem_nil, or_false] at hm
    rcases hm with rfl | rfl <;> decide
  unfold keyTriangle at h
  obtain ⟨t, _, h⟩ := bind_eq_ok.1 h
  obtain ⟨a, ha, h⟩ := bind_eq_ok.1 h
  obtain ⟨b, hb, h⟩ := bind_eq_ok.1 h
  obtain ⟨c, hc, h⟩ := bind_eq_ok.1 h
  rw [pure_eq] at h
  rw [← Res.ok.inj h]
  intro l hl
  simp only [List.mem_cons, List.not_mem_nil, or_false] at hl
  rcases hl with rfl | rfl | rfl
  · exact line ha
  · exact line hb
  · exact line hc

/-- Rows of numbers are silent. -/
theorem silent_digits {xs : List Str} (h : ∀ c : Char, digitVal c = none → c ≠ '+' → c ≠ '-' → ∀ x ∈ xs, c ∉ x) : ∀ l ∈ wrapped cs!"  " 0 xs, Silent l :=
  silent_wrapped (h 'E' (by decide) (by decide) (by decide)) (h 'T' (by decide) (by decide) (by decide))

theorem silent_universe {m : Model D} {sides : Sides.AllSides} {comps : List (Nat × Nat)} {n : Nat} {ls : File} (h : writeUniverse m sides comps n = .ok ls) :
    ∀ l ∈ ls, Silent l := by
  unfold writeUniverse at h
  obtain ⟨items, h1, h⟩ := bind_eq_ok.1 h
  rw [pure_eq] at h
  rw [← Res.ok.inj h]
  refine List.forall_mem_cons.2 ⟨⟨rfl, fun t ts e => ?_⟩, silent_digits ?_⟩
  · rw [MlNames.split_universe] at e
    rw [← (List.cons.inj e).1]; decide
  · intro c c1 c2 c3 x hx
    obtain ⟨i, _, e⟩ := mapM_mem h1 hx
    obtain ⟨side, _, e⟩ := bind_eq_ok.1 e
    obtain ⟨k, _, e⟩ := bind_eq_ok.1 e
    rw [pure_eq] at e
    rw [← Res.ok.inj e]
    exact chars_signed c1 c2 c3 _ _

theorem silent_region {sides : Sides.AllSides} {comps : List (Nat × Nat)} {n : Nat} {b : Block} {ls : File} (h : writeRegion sides comps n b = .ok ls) :
    ∀ l ∈ ls, Silent l := by
  unfold writeRegion at h
  obtain ⟨bounds, h1, h⟩ := bind_eq_ok.1 h
  obtain ⟨inner, h2, h⟩ := bind_eq_ok.1 h
  rw [pure_eq] at h
  rw [← Res.ok.inj h]
  refine List.forall_mem_cons.2 ⟨silent_kw (by decide) (fun _ => rfl) (by decide) _, silent_digits ?_⟩
  intro c c1 c2 c3 x hx
  rcases List.mem_append.1 hx with hx | hx
  · obtain ⟨i, _, e⟩ := mapM_mem h1 hx
    obtain ⟨side, _, e⟩ := bind_eq_ok.1 e
    obtain ⟨k, _, e⟩ := bind_eq_ok.1 e
    rw [pure_eq] at e
    rw [← Res.ok.inj e]
    exact chars_signed c1 c2 c3 _ _
  · obtain ⟨y, hy, hx⟩ := List.mem_flatten.1 hx
    obtain ⟨i, _, e⟩ := mapM_mem h2 hy
    obtain ⟨k, _, e⟩ := bind_eq_ok.1 e
    rw [pure_eq] at e
    rw [← Res.ok.inj e] at hx
    simp only [List.mem_cons, List.not_mem_nil, or_false] at hx
    rcases hx with rfl | rfl <;> exact chars_signed c1 c2 c3 _ _

theorem silent_blocks {sides : Sides.AllSides} {comps : List (Nat × Nat)} : ∀ {bs : List Block} {n : Nat} {ls : File},
    writeBlocks sides comps n bs = .ok ls → ∀ l ∈ ls, Silent l := by
  intro bs
  induction bs with
  | nil => intro n ls h; cases h; simp
  | cons b bs ih =>
    intro n ls h
    rw [writeBlocks] at h
    obtain ⟨x, h1, h⟩ := bind_eq_ok.1 h
    obtain ⟨y, h2, h⟩ := bind_eq_ok.1 h
    rw [pure_eq] at h
    rw [← Res.ok.inj h]
    exact List.forall_mem_append.2 ⟨silent_region h1, ih h2⟩

theorem silent_layer {kw : Str} (hk : IsTok kw) (he : ∀ s, startsWith (kw ++ s) cs!"END" = false) (ht : kw ∉ heads) {numbers : List (Nat × Nat)}
    {u : Option Str × List Nat} {ls : File} (h : writeLayer kw numbers u = .ok ls) : ∀ l ∈ ls, Silent l := by
  unfold writeLayer at h
  obtain ⟨name, h1, h⟩ := bind_eq_ok.1 h
  obtain ⟨items, h2, h⟩ := bind_eq_ok.1 h
  rw [pure_eq] at h
  rw [← Res.ok.inj h]
  refine List.forall_mem_cons.2 ⟨silent_kw hk he ht _, silent_digits ?_⟩
  intro c c1 _ _ x hx
  obtain ⟨i, _, e⟩ := mapM_mem h2 hx
  obtain ⟨k, _, e⟩ := bind_eq_ok.1 e
  rw [pure_eq] at e
  rw [← Res.ok.inj e]
  exact chars_showNat c1 _

theorem silent_layers {m : Model D} {numbers : List (Nat × Nat)} {ls : File} (h : writeLayers m numbers = .ok ls) : ∀ l ∈ ls, Silent l := by
  unfold writeLayers at h
  split at h
  · cases h; simp
  · obtain ⟨x, h1, h⟩ := bind_eq_ok.1 h
    obtain ⟨y, h2, h⟩ := bind_eq_ok.1 h
    rw [pure_eq] at h
    rw [← Res.ok.inj h]
    refine List.forall_mem_append.2 ⟨?_, ?_⟩ <;> intro l hl <;> obtain ⟨ls, hls, hl⟩ := List.mem_flatten.1 hl
    · obtain ⟨u, _, e⟩ := mapM_mem h1 hls
      exact silent_layer (by decide) (fun _ => rfl) (by decide) e l hl
    · obtain ⟨u, _, e⟩ := mapM_mem h2 hls
      exact silent_layer (by decide) (fun _ => rfl) (by decide) e l hl

/-! ## The surfaces written -/

/-- The surfaces of a list that are not among those seen, each once. -/
def fresh (seen : List Nat) : List Nat → List Nat
  | [] => []
  | i :: is => if i ∈ seen then fresh seen is else i :: fresh (i :: seen) is

/-- A text that may fail. -/
def val : Res Str → Str
  | .ok s => s
  | _ => []

/-- A group of surfaces: its feature, its name and how many surfaces it has. -/
abbrev Row : Type := Str × Str × Nat

/-- The groups of collections, where a surface counts in the first collection it is in. -/
def rowsFrom (seen : List Nat) : List Group → List Row
  | [] => []
  | c :: cs => (val c.1, readAs (val c.2.1), (fresh seen c.2.2).length) :: rowsFrom (seen ++ c.2.2) cs

/-- The groups of surfaces in no collection. -/
def looseRows (ss : List (Ml.Surface D)) : List Row := ss.map fun s => (cs!"boundary", readAs (componentName s.name), 1)

/-- The groups of a model. -/
def rows (m : Model D) : List Row := rowsFrom [] (collections m) ++ looseRows (unclassified m)

/-- The surfaces of groups. -/
def expand (rs : List Row) : List (Str × Str) := rs.flatMap fun r => List.replicate r.2.2 (r.1, r.2.1)

theorem part_face [LawfulNum D] (hp : PlainNumbers D) {st st' : Faces} {kind name : Str} {s : Ml.Surface D} (hk : IsTok kind)
    (h : writeFace st kind name s = .ok st') :
    ∃ ls, st'.out = st.out ++ ls ∧ Part ls [] [(kind, readAs name)] ∧ ∀ i, Written st' i ↔ Written st i ∨ i = s.id := by
  unfold writeFace at h
  obtain ⟨key, h1, h⟩ := bind_eq_ok.1 h
  rw [pure_eq] at h
  rw [← Res.ok.inj h]
  refine ⟨_, rfl, ?_, fun i => emplace_any⟩
  have hs : split (cs!"TFACE" ++ spaced [showNat st.next, kind, name]) = cs!"TFACE" :: showNat st.next :: kind :: split name := by
    rw [split_kw_spaced' (by decide)]
    simp [split_tok (isTok_showNat st.next), split_tok hk]
  have p : Part [cs!"TFACE" ++ spaced [showNat st.next, kind, name]] [] [(kind, readAs name)] := by
    refine ⟨by simp only [List.mem_singleton, forall_eq]; rfl, ?_, ?_⟩ <;> intro hc
    · simp only [List.filterMap_cons, List.filterMap_nil, lineName, hs]
      rfl
    · have h3 := (hc _ List.mem_cons_self).2 (by rw [hs]; rfl)
      rw [hs] at h3
      simp only [List.filterMap_cons, List.filterMap_nil, lineFace, hs, readAs]
      cases hn : split name with
      | nil => rw [hn] at h3; simp at h3
      | cons w ws => simp
  exact p.append (part_silent (silent_key hp h1))

theorem part_items [LawfulNum D] (hp : PlainNumbers D) {m : Model D} {kind name : Res Str} (hk : ∀ k, kind = .ok k → IsTok k) :
    ∀ (is : List Nat) {seen : List Nat} {st st' : Faces}, (∀ i, Written st i ↔ i ∈ seen) → Res.foldM' (writeItem m kind name) st is = .ok st' →
      ∃ ls, st'.out = st.out ++ ls ∧ Part ls [] (List.replicate (fresh seen is).length (val kind, readAs (val name))) ∧
        ∀ i, Written st' i ↔ i ∈ seen ++ is := by
  intro is
  induction is with
  | nil => intro seen st st' hs h; cases h; exact ⟨[], by simp, part_silent (by simp), by simpa using hs⟩
  | cons i is ih =>
    intro seen st st' hs h
    rw [Res.foldM'_cons] at h
    obtain ⟨s1, h1, h⟩ := bind_eq_ok.1 h
    unfold writeItem at h1
    split at h1
    · rename_i hw
      cases h1
      have hi := (hs i).1 hw
      obtain ⟨ls, e, p, w⟩ := ih hs h
      refine ⟨ls, e, by rw [fresh, if_pos hi]; exact p, fun j => (w j).trans ?_⟩
      simp only [List.mem_append, List.mem_cons]
      constructor
      · rintro (h | h)
        · exact .inl h
        · exact .inr (.inr h)
      · rintro (h | rfl | h)
        · exact .inl h
        · exact .inl hi
        · exact .inr h
    · rename_i hw
      have hi : i ∉ seen := fun h' => hw ((hs i).2 h')
      obtain ⟨k, e1, h1⟩ := bind_eq_ok.1 h1
      obtain ⟨n, e2, h1⟩ := bind_eq_ok.1 h1
      obtain ⟨s, e3, h1⟩ := bind_eq_ok.1 h1
      obtain ⟨l1, o1, p1, w1⟩ := part_face hp (hk k e1) h1
      rw [surfaceOf_id' e3] at w1
      obtain ⟨l2, o2, p2, w2⟩ := ih (seen := i :: seen) (fun j => by rw [w1, hs j, List.mem_cons, or_comm]) h
      refine ⟨l1 ++ l2, by rw [o2, o1, List.append_assoc], ?_, fun j => (w2 j).trans ?_⟩
      · have := p1.append p2
        rw [fresh, if_neg hi, List.length_cons, List.replicate_succ]
        rw [e1, e2] at this ⊢
        exact this
      · simp only [List.mem_append, List.mem_cons]
        constructor
        · rintro ((h | h) | h)
          · exact .inr (.inl h)
          · exact .inl h
          · exact .inr (.inr h)
        · rintro (h | h | h)
          · exact .inl (.inr h)
          · exact .inl (.inl h)
          · exact .inr h

theorem part_groups [LawfulNum D] (hp : PlainNumbers D) {m : Model D} :
    ∀ (cs : List Group) {seen : List Nat} {st st' : Faces}, (∀ c ∈ cs, ∀ k, c.1 = .ok k → IsTok k) → (∀ i, Written st i ↔ i ∈ seen) →
      Res.foldM' (fun st (c : Group) => Res.foldM' (writeItem m c.1 c.2.1) st c.2.2) st cs = .ok st' →
      ∃ ls, st'.out = st.out ++ ls ∧ Part ls [] (expand (rowsFrom seen cs)) := by
  intro cs
  induction cs with
  | nil => intro seen st st' _ _ h; cases h; exact ⟨[], by simp, part_silent (by simp)⟩
  | cons c cs ih =>
    intro seen st st' hk hs h
    rw [Res.foldM'_cons] at h
    obtain ⟨s1, h1, h⟩ := bind_eq_ok.1 h
    obtain ⟨l1, o1, p1, w1⟩ := part_items hp (hk c List.mem_cons_self) c.2.2 hs h1
    obtain ⟨l2, o2, p2⟩ := ih (fun c hc => hk c (List.mem_cons_of_mem _ hc)) w1 h
    exact ⟨l1 ++ l2, by rw [o2, o1, List.append_assoc], p1.append p2⟩

theorem part_loose [LawfulNum D] (hp : PlainNumbers D) :
    ∀ (ss : List (Ml.Surface D)) {st st' : Faces}, Res.foldM' (fun st (s : Ml.Surface D) => writeFace st cs!"boundary" (componentName s.name) s) st ss = .ok st' →
      ∃ ls, st'.out = st.out ++ ls ∧ Part ls [] (expand (looseRows ss)) := by
  intro ss
  induction ss with
  | nil => intro st st' h; cases h; exact ⟨[], by simp, part_silent (by simp)⟩
  | cons s ss ih =>
    intro st st' h
    rw [Res.foldM'_cons] at h
    obtain ⟨s1, h1, h⟩ := bind_eq_ok.1 h
    obtain ⟨l1, o1, p1, _⟩ := part_face hp (by decide) h1
    obtain ⟨l2, o2, p2⟩ := ih h
    exact ⟨l1 ++ l2, by rw [o2, o1, List.append_assoc], p1.append p2⟩

theorem part_tfaces [LawfulNum D] (hp : PlainNumbers D) {m : Model D} {st : Faces} (h : writeTfaces m = .ok st) : Part st.out [] (expand (rows m)) := by
  unfold writeTfaces at h
  obtain ⟨s1, h1, h⟩ := bind_eq_ok.1 h
  obtain ⟨l1, o1, p1⟩ := part_groups hp (collections m) (seen := []) (kinds_tok m) (fun i => by simp [Written]) h1
  obtain ⟨l2, o2, p2⟩ := part_loose hp (unclassified m) h
  rw [o2, o1]
  have := p1.append p2
  rw [rows, expand, List.flatMap_append]
  exact this

theorem part_tsurfs {ns : List Str} : Part (ns.map fun n => cs!"TSURF" ++ spaced [n]) (ns.map readAs) [] := by
  induction ns with
  | nil => exact part_silent (by simp)
  | cons n ns ih =>
    have hs : split (cs!"TSURF" ++ spaced [n]) = cs!"TSURF" :: split n := by rw [split_kw_spaced' (by decide)]; simp
    have p : Part [cs!"TSURF" ++ spaced [n]] [readAs n] [] := by
      refine ⟨by simp only [List.mem_singleton, forall_eq]; rfl, ?_, ?_⟩ <;> intro hc
      · have h3 := (hc _ List.mem_cons_self).1 (by rw [hs]; rfl)
        rw [hs] at h3
        simp only [List.filterMap_cons, List.filterMap_nil, lineName, hs, readAs]
        cases hn : split n with
        | nil => rw [hn] at h3; simp at h3
        | cons w ws => simp
      · simp only [List.filterMap_cons, List.filterMap_nil, lineFace, hs]
        rcases split n with _ | ⟨a, _ | ⟨b, _ | ⟨c, ws⟩⟩⟩ <;> simp
    exact p.append ih

theorem rowsFrom_names : ∀ {cs : List Group} {ns : List Str} (seen : List Nat), List.Forall₂ (fun (c : Group) n => c.2.1 = .ok n) cs ns →
    (rowsFrom seen cs).map (fun r => r.2.1) = ns.map readAs := by
  intro cs ns seen h
  induction h generalizing seen with
  | nil => rfl
  | cons h1 _ ih => rw [rowsFrom, List.map_cons, List.map_cons, ih, h1]; rfl

/-- The names of groups. -/
def rowNames (rs : List Row) : List Str := rs.map fun r => r.2.1

/-- The records of a saved file are those of its groups. -/
theorem records_of_saved [LawfulNum D] (hp : PlainNumbers D) {m : Model D} {sides : Sides.AllSides} {f : File} (hf : saveMl m sides = .ok f) (P : Parts D f) :
    names P.records = rowNames (rows m) ∧ faces P.records = expand (rows m) := by
  unfold saveMl at hf
  obtain ⟨comps, h1, hf⟩ := bind_eq_ok.1 hf
  obtain ⟨surfs, h2, hf⟩ := bind_eq_ok.1 hf
  rw [pure_eq] at hf
  have hfile : f = cs!"GOCAD Model3d 1" :: (writeHeader m.name ++ (writeCrs {} ++ (comps ++ surfs))) := by
    rw [← Res.ok.inj hf]; simp
  have e1 : (P.title, P.body) = (cs!"GOCAD Model3d 1", writeHeader m.name ++ (writeCrs {} ++ (comps ++ surfs))) := by
    have := goto_iff.2 P.titled
    have h0 : gotoKeyword cs!"GOCAD Model3d" f = .ok (cs!"GOCAD Model3d 1", writeHeader m.name ++ (writeCrs {} ++ (comps ++ surfs))) := by
      rw [hfile, gotoKeyword_here (by rfl)]
    exact Res.ok.inj (this.symm.trans h0)
  have e2 := P.header
  rw [(Prod.mk.inj e1).2, readHeader_writeHeader] at e2
  have e3 := P.system
  rw [← (Prod.mk.inj (Res.ok.inj e2)).2, readCrs_default] at e3
  have hrec := P.recordsRead
  rw [← (Prod.mk.inj (Res.ok.inj e3)).2] at hrec
  unfold writeComponents at h1
  obtain ⟨tsurfs, g1, h1⟩ := bind_eq_ok.1 h1
  obtain ⟨st, g2, h1⟩ := bind_eq_ok.1 h1
  obtain ⟨uni, g3, h1⟩ := bind_eq_ok.1 h1
  obtain ⟨regions, g4, h1⟩ := bind_eq_ok.1 h1
  obtain ⟨lay, g5, h1⟩ := bind_eq_ok.1 h1
  rw [pure_eq] at h1
  obtain ⟨ns, n1, n2⟩ := tsurfs_names g1
  have part := ((((part_tsurfs (ns := ns ++ (unclassified m).map fun s => componentName s.name)).append (part_tfaces hp g2)).append
    (part_silent (silent_universe g3))).append (part_silent (silent_blocks g4))).append (part_silent (silent_layers g5))
  simp only [List.append_nil, List.nil_append] at part
  rw [← n2] at part
  have ec : comps ++ surfs = (tsurfs ++ st.out ++ uni ++ regions ++ lay) ++ cs!"END" :: surfs := by
    rw [← Res.ok.inj h1]; simp
  rw [ec] at hrec
  obtain ⟨pre, e, he, hend, a⟩ := records_announced hrec
  have hpre := prefix_unique he.symm a.ends part.ends hend rfl
  have hc := a.complete
  have an := a.names
  have af := a.faces
  rw [hpre] at hc an af
  rw [part.names hc] at an
  rw [part.faces hc] at af
  refine ⟨?_, af⟩
  rw [an, rowNames, rows, List.map_append, List.map_append, rowsFrom_names [] n1]
  simp [looseRows, Function.comp_def]

/-! ## The groups of the model loaded -/

/-- Groups with the ranks of their surfaces, one group after the other. -/
def placed (start : Nat) : List Row → List (Str × Str × List Nat)
  | [] => []
  | r :: rs => (r.1, r.2.1, List.range' start r.2.2) :: placed (start + r.2.2) rs

theorem expand_append (a b : List Row) : expand (a ++ b) = expand a ++ expand b := List.flatMap_append

theorem expand_names {rs : List Row} {n : Str} (h : n ∉ rowNames rs) : ∀ x ∈ expand rs, x.2 ≠ n := by
  intro x hx e
  obtain ⟨r, hr, hx⟩ := List.mem_flatMap.1 hx
  rw [List.eq_of_mem_replicate hx] at e
  exact h (List.mem_map.2 ⟨r, hr, e⟩)

theorem row_placed {a b : List Row} {r : Row} (hd : (rowNames (a ++ r :: b)).Nodup) :
    ids (expand (a ++ r :: b)) r.2.1 = List.range' (expand a).length r.2.2 ∧
      feature (expand (a ++ r :: b)) r.2.1 = if r.2.2 = 0 then [] else r.1 := by
  have hn : r.2.1 ∉ rowNames a ∧ r.2.1 ∉ rowNames b := by
    simp only [rowNames, List.map_append, List.map_cons] at hd
    have := List.nodup_append.1 hd
    refine ⟨fun h => ?_, (List.nodup_cons.1 this.2.1).1⟩
    exact this.2.2 _ h _ List.mem_cons_self rfl
  have ha := expand_names hn.1
  have hb := expand_names hn.2
  obtain ⟨k, n, c⟩ := r
  dsimp only at ha hb ⊢
  have e : expand (a ++ (k, n, c) :: b) = expand a ++ (List.replicate c (k, n) ++ expand b) := by
    rw [expand_append]; rfl
  rw [e]
  constructor
  · rw [ids_append, ids_absent ha, List.nil_append, List.zipIdx_append, List.filter_append, List.map_append]
    have h1 : ((expand b).zipIdx ((expand a).length + (List.replicate c (k, n)).length)).filter (fun x => x.1.2 == n) = [] := by
      rw [List.filter_eq_nil_iff]
      intro x hx
      have := hb x.1 (List.fst_mem_of_mem_zipIdx hx)
      simp [this]
    have h2 : ((List.replicate c (k, n)).zipIdx (expand a).length).filter (fun x => x.1.2 == n) = (List.replicate c (k, n)).zipIdx (expand a).length := by
      rw [List.filter_eq_self]
      intro x hx
      have := List.eq_of_mem_replicate (List.fst_mem_of_mem_zipIdx hx)
      simp [this]
    rw [h1, h2, List.map_nil, List.append_nil, List.zipIdx_map_snd, List.length_replicate]
  · unfold feature
    have h0 : ∀ l : List (Str × Str), (∀ x ∈ l, x.2 ≠ n) → l.filter (fun x => x.2 == n) = [] := by
      intro l hl
      rw [List.filter_eq_nil_iff]
      intro x hx
      simp [hl x hx]
    have h2 : (List.replicate c (k, n)).filter (fun x => x.2 == n) = List.replicate c (k, n) := by
      rw [List.filter_eq_self]
      intro x hx
      rw [List.eq_of_mem_replicate hx]; simp
    rw [List.filter_append, List.filter_append, h0 _ ha, h0 _ hb, h2, List.nil_append, List.append_nil, List.getLast?_replicate]
    by_cases hc : c = 0 <;> simp [hc]

theorem groups_placed {B : Type} (F : Str → Str → List Nat → List B) {rs : List Row} (hd : (rowNames rs).Nodup) (h0 : ∀ r ∈ rs, r.2.2 ≠ 0) :
    (rowNames rs).flatMap (fun n => F (feature (expand rs) n) n (ids (expand rs) n)) = (placed 0 rs).flatMap fun r => F r.1 r.2.1 r.2.2 := by
  suffices ∀ b a, rs = a ++ b → (rowNames b).flatMap (fun n => F (feature (expand rs) n) n (ids (expand rs) n)) =
      (placed (expand a).length b).flatMap fun r => F r.1 r.2.1 r.2.2 from this rs [] rfl
  intro b
  induction b with
  | nil => intros; rfl
  | cons r b ih =>
    intro a e
    have h := ih (a ++ [r]) (by rw [e]; simp)
    have hr := row_placed (a := a) (b := b) (r := r) (e ▸ hd)
    rw [← e, if_neg (h0 r (by rw [e]; simp))] at hr
    rw [rowNames, List.map_cons, List.flatMap_cons, placed, List.flatMap_cons, hr.1, hr.2]
    have hl : (expand (a ++ [r])).length = (expand a).length + r.2.2 := by
      rw [expand_append, List.length_append]; simp [expand]
    rw [hl] at h
    rw [← h]; rfl

theorem known_nil : ¬MlOutcomes.Known [] := by unfold MlOutcomes.Known; decide

/-- **The collections that come back**, for every model whose file loads: one for each group, by its feature, with surfaces numbered one group after
the other; and perhaps another model boundary. -/
theorem collections_back [LawfulNum D] (hp : PlainNumbers D) {m : Model D} {sides : Sides.AllSides} {f : File} (hf : saveMl m sides = .ok f) {L : Loaded D}
    (hL : loadMl f = .ok L) :
    (∀ r ∈ rows m, MlOutcomes.Known r.1 ∧ r.2.2 ≠ 0) ∧
    L.surfaces = (rows m).flatMap (fun r => List.replicate r.2.2 r.2.1) ∧
    L.faults = (placed 0 (rows m)).flatMap (fun r => faultsOf' r.1 r.2.1 r.2.2) ∧
    L.horizons = (placed 0 (rows m)).flatMap (fun r => horizonsOf' r.1 r.2.1 r.2.2) ∧
    ∃ more, L.boundaries = (placed 0 (rows m)).flatMap (fun r => boundariesOf' r.1 r.2.1 r.2.2) ++ more ∧
      (more = [] ∨ ∃ is, is ≠ [] ∧ more = [(cs!"undefined boundary", is)]) := by
  obtain ⟨P, hP⟩ := (ml_loads_iff f L).1 hL
  obtain ⟨en, ef⟩ := records_of_saved hp hf P
  have hd := P.distinct
  rw [en] at hd
  have hk := P.known
  have known : ∀ r ∈ rows m, MlOutcomes.Known r.1 ∧ r.2.2 ≠ 0 := by
    intro r hr
    obtain ⟨a, b, e⟩ := List.append_of_mem hr
    have hr' := (row_placed (a := a) (b := b) (r := r) (e ▸ hd)).2
    have := hk r.2.1 (by rw [en]; exact List.mem_map.2 ⟨r, hr, rfl⟩)
    rw [ef, e, hr'] at this
    by_cases h0 : r.2.2 = 0
    · rw [if_pos h0] at this
      exact absurd this known_nil
    · rw [if_neg h0] at this
      exact ⟨this, h0⟩
  have h0 := fun r hr => (known r hr).2
  refine ⟨known, ?_, ?_, ?_, if missing P.records = [] then [] else [(cs!"undefined boundary", missing P.records)], ?_, ?_⟩
  · rw [hP.surfaces, ef, expand, List.map_flatMap]
    simp
  · rw [hP.faults, en, ef]; exact groups_placed _ hd h0
  · rw [hP.horizons, en, ef]; exact groups_placed _ hd h0
  · rw [hP.boundaries, bounded, en, ef, groups_placed _ hd h0]
  · split
    · exact .inl rfl
    · rename_i h; exact .inr ⟨_, h, rfl⟩

/-! ## Collection by collection -/

/-- How many surfaces come back in lists, where a surface counts in the first list it is in. -/
def sizes (seen : List Nat) : List (List Nat) → List Nat
  | [] => []
  | is :: ls => (fresh seen is).length :: sizes (seen ++ is) ls

theorem rowsFrom_append (a b : List Group) (seen : List Nat) : rowsFrom seen (a ++ b) = rowsFrom seen a ++ rowsFrom (seen ++ a.flatMap fun c => c.2.2) b := by
  induction a generalizing seen with
  | nil => simp [rowsFrom]
  | cons c a ih => rw [List.cons_append, rowsFrom, rowsFrom, ih]; simp

theorem placed_append (a b : List Row) (s : Nat) : placed s (a ++ b) = placed s a ++ placed (s + (expand a).length) b := by
  induction a generalizing s with
  | nil => rfl
  | cons r a ih => rw [List.cons_append, placed, placed, ih]; simp [expand, Nat.add_assoc]

theorem rows_kinds (cs : List Group) (seen : List Nat) : (rowsFrom seen cs).map (fun r => r.1) = cs.map fun c => val c.1 := by
  induction cs generalizing seen with
  | nil => rfl
  | cons c cs ih => rw [rowsFrom, List.map_cons, ih]; rfl

theorem rows_names (cs : List Group) (seen : List Nat) : (rowsFrom seen cs).map (fun r => r.2.1) = cs.map fun c => readAs (val c.2.1) := by
  induction cs generalizing seen with
  | nil => rfl
  | cons c cs ih => rw [rowsFrom, List.map_cons, ih]; rfl

theorem rows_sizes (cs : List Group) (seen : List Nat) : (rowsFrom seen cs).map (fun r => r.2.2) = sizes seen (cs.map fun c => c.2.2) := by
  induction cs generalizing seen with
  | nil => rfl
  | cons c cs ih => rw [rowsFrom, List.map_cons, ih]; rfl

/-- What groups with unknown features give. -/
theorem placed_none {K : Type} {look : Str → Option K} {rs : List Row} (h : ∀ r ∈ rs, look r.1 = none) (s : Nat) :
    ((placed s rs).flatMap fun r => (look r.1).toList.map fun k => (k, r.2.1, r.2.2)) = [] := by
  induction rs generalizing s with
  | nil => rfl
  | cons r rs ih =>
    rw [placed, List.flatMap_cons, ih (fun r hr => h r (List.mem_cons_of_mem _ hr)), h r List.mem_cons_self]
    rfl

/-- What groups with known features give. -/
theorem placed_some {K : Type} {look : Str → Option K} {rs : List Row} (h : ∀ r ∈ rs, (look r.1).isSome) (s : Nat) :
    ((placed s rs).flatMap fun r => (look r.1).toList.map fun k => (k, r.2.1, r.2.2)).map (fun x => some x.1) = rs.map (fun r => look r.1) ∧
    ((placed s rs).flatMap fun r => (look r.1).toList.map fun k => (k, r.2.1, r.2.2)).map (fun x => x.2.1) = rs.map (fun r => r.2.1) ∧
    ((placed s rs).flatMap fun r => (look r.1).toList.map fun k => (k, r.2.1, r.2.2)).map (fun x => x.2.2.length) = rs.map (fun r => r.2.2) := by
  induction rs generalizing s with
  | nil => exact ⟨rfl, rfl, rfl⟩
  | cons r rs ih =>
    obtain ⟨i1, i2, i3⟩ := ih (fun r hr => h r (List.mem_cons_of_mem _ hr)) (s + r.2.2)
    obtain ⟨k, hk⟩ := Option.isSome_iff_exists.1 (h r List.mem_cons_self)
    simp only [placed, List.flatMap_cons, List.map_append, List.map_cons, i1, i2, i3, hk]
    exact ⟨rfl, rfl, by simp⟩

/-- The groups of the model boundaries, of the faults and of the horizons. -/
def boundaryGroups (m : Model D) : List Group := m.boundaries.map fun b => (.ok cs!"boundary", .ok (componentName b.1), b.2)
/-- See `boundaryGroups`. -/
def faultGroups (m : Model D) : List Group := (faultsOf m).map fun f => (.ok (faultText f.1), nameValue f.2.1, f.2.2)
/-- See `boundaryGroups`. -/
def horizonGroups (m : Model D) : List Group := (horizonsOf m).map fun h => (contactText h.1, nameValue h.2.1, h.2.2)

/-- The surfaces of the model boundaries and of the faults. -/
def boundarySurfaces (m : Model D) : List Nat := m.boundaries.flatMap fun b => b.2
/-- See `boundarySurfaces`. -/
def faultSurfaces (m : Model D) : List Nat := (faultsOf m).flatMap fun f => f.2.2

theorem rows_eq (m : Model D) : rows m = rowsFrom [] (boundaryGroups m) ++ rowsFrom (boundarySurfaces m) (faultGroups m) ++
    rowsFrom (boundarySurfaces m ++ faultSurfaces m) (horizonGroups m) ++ looseRows (unclassified m) := by
  unfold rows collections
  rw [rowsFrom_append, rowsFrom_append, List.nil_append, List.nil_append, List.flatMap_append]
  congr 2
  · congr 1
    · congr 1
      simp [boundarySurfaces, List.flatMap_map]
  · congr 1
    simp [boundarySurfaces, faultSurfaces, List.flatMap_map]

theorem mem_rowsFrom {cs : List Group} {seen : List Nat} {r : Row} (h : r ∈ rowsFrom seen cs) : ∃ c ∈ cs, r.1 = val c.1 := by
  have : r.1 ∈ (rowsFrom seen cs).map (fun r => r.1) := List.mem_map.2 ⟨r, h, rfl⟩
  rw [rows_kinds] at this
  obtain ⟨c, hc, e⟩ := List.mem_map.1 this
  exact ⟨c, hc, e.symm⟩

theorem boundary_kind {m : Model D} {seen : List Nat} {r : Row} (h : r ∈ rowsFrom seen (boundaryGroups m)) : r.1 = cs!"boundary" := by
  obtain ⟨c, hc, e⟩ := mem_rowsFrom h
  obtain ⟨b, _, rfl⟩ := List.mem_map.1 hc
  exact e

theorem loose_kind {ss : List (Ml.Surface D)} {r : Row} (h : r ∈ looseRows ss) : r.1 = cs!"boundary" := by
  obtain ⟨s, _, rfl⟩ := List.mem_map.1 h
  rfl

theorem fault_kind {m : Model D} {seen : List Nat} {r : Row} (h : r ∈ rowsFrom seen (faultGroups m)) : ∃ k, r.1 = faultText k := by
  obtain ⟨c, hc, e⟩ := mem_rowsFrom h
  obtain ⟨f, _, rfl⟩ := List.mem_map.1 hc
  exact ⟨f.1, e⟩

theorem horizon_kind {m : Model D} {seen : List Nat} {r : Row} (h : r ∈ rowsFrom seen (horizonGroups m)) : ∃ k, r.1 = val (contactText k) := by
  obtain ⟨c, hc, e⟩ := mem_rowsFrom h
  obtain ⟨f, _, rfl⟩ := List.mem_map.1 hc
  exact ⟨f.1, e⟩

theorem look_fault (k : FaultType) : faultTypes.lookup (faultText k) = some (MlRoundTrip.keptFault k) := by cases k <;> decide
theorem look_fault_contact (k : Contact) : faultTypes.lookup (val (contactText k)) = none := by cases k <;> decide
theorem look_contact_fault (k : FaultType) : contacts.lookup (faultText k) = none := by cases k <;> decide

theorem look_contact {k : Contact} (h : MlOutcomes.Known (val (contactText k))) : contacts.lookup (val (contactText k)) = some k := by
  cases k
  case erosion => exact absurd h known_nil
  case baselap => exact absurd h known_nil
  all_goals decide

/-- **The faults that come back**, for every model whose file loads: those of the model in their order, normal and reverse ones with their type and
others without, with their names as they are read and with the surfaces in no collection before. -/
theorem faults_back [LawfulNum D] (hp : PlainNumbers D) {m : Model D} {sides : Sides.AllSides} {f : File} (hf : saveMl m sides = .ok f) {L : Loaded D}
    (hL : loadMl f = .ok L) :
    L.faults.map (fun f => f.1) = (faultsOf m).map (fun f => MlRoundTrip.keptFault f.1) ∧
    L.faults.map (fun f => f.2.1) = (faultsOf m).map (fun f => readAs (val (nameValue f.2.1))) ∧
    L.faults.map (fun f => f.2.2.length) = sizes (boundarySurfaces m) ((faultsOf m).map fun f => f.2.2) := by
  obtain ⟨_, _, e, _⟩ := collections_back hp hf hL
  have look : ∀ r ∈ rowsFrom (boundarySurfaces m) (faultGroups m), (faultTypes.lookup r.1).isSome := by
    intro r hr
    obtain ⟨k, e⟩ := fault_kind hr
    rw [e, look_fault]; rfl
  rw [rows_eq, placed_append, placed_append, placed_append, List.flatMap_append, List.flatMap_append, List.flatMap_append] at e
  unfold faultsOf' at e
  rw [placed_none (look := fun x => faultTypes.lookup x) (fun r hr => by rw [boundary_kind hr]; decide),
    placed_none (rs := looseRows _) (look := fun x => faultTypes.lookup x) (fun r hr => by rw [loose_kind hr]; decide),
    placed_none (rs := rowsFrom _ (horizonGroups m)) (look := fun x => faultTypes.lookup x) (fun r hr => by
      obtain ⟨k, e⟩ := horizon_kind hr
      rw [e, look_fault_contact]),
    List.nil_append, List.append_nil, List.append_nil] at e
  rw [e]
  obtain ⟨h1, h2, h3⟩ := placed_some (look := fun x => faultTypes.lookup x) look (0 + (expand (rowsFrom [] (boundaryGroups m))).length)
  refine ⟨?_, ?_, ?_⟩
  · have hk := rows_kinds (faultGroups m) (boundarySurfaces m)
    have : (rowsFrom (boundarySurfaces m) (faultGroups m)).map (fun r => faultTypes.lookup r.1) = ((faultsOf m).map (fun f => MlRoundTrip.keptFault f.1)).map some := by
      have e : (rowsFrom (boundarySurfaces m) (faultGroups m)).map (fun r => faultTypes.lookup r.1) =
          ((rowsFrom (boundarySurfaces m) (faultGroups m)).map (fun r => r.1)).map (faultTypes.lookup ·) := by rw [List.map_map]; rfl
      rw [e, hk, faultGroups, List.map_map, List.map_map, List.map_map]
      exact List.map_congr_left fun f _ => look_fault f.1
    rw [this] at h1
    refine List.map_injective_iff.2 (fun _ _ h => Option.some.inj h) ?_
    rw [← h1, List.map_map]; rfl
  · rw [h2, rows_names, faultGroups, List.map_map]; rfl
  · rw [h3, rows_sizes, faultGroups, List.map_map]; rfl

/-- **The horizons that come back**, for every model whose file loads: those of the model in their order, with their contacts, with their names as they
are read and with the surfaces in no collection before. -/
theorem horizons_back [LawfulNum D] (hp : PlainNumbers D) {m : Model D} {sides : Sides.AllSides} {f : File} (hf : saveMl m sides = .ok f) {L : Loaded D}
    (hL : loadMl f = .ok L) :
    L.horizons.map (fun h => h.1) = (horizonsOf m).map (fun h => h.1) ∧
    L.horizons.map (fun h => h.2.1) = (horizonsOf m).map (fun h => readAs (val (nameValue h.2.1))) ∧
    L.horizons.map (fun h => h.2.2.length) = sizes (boundarySurfaces m ++ faultSurfaces m) ((horizonsOf m).map fun h => h.2.2) := by
  obtain ⟨known, _, _, e, _⟩ := collections_back hp hf hL
  have known' : ∀ r ∈ rowsFrom (boundarySurfaces m ++ faultSurfaces m) (horizonGroups m), MlOutcomes.Known r.1 := fun r hr =>
    (known r (by rw [rows_eq]; exact List.mem_append_left _ (List.mem_append_right _ hr))).1
  have look : ∀ r ∈ rowsFrom (boundarySurfaces m ++ faultSurfaces m) (horizonGroups m), (contacts.lookup r.1).isSome := by
    intro r hr
    obtain ⟨k, e⟩ := horizon_kind hr
    have := known' r hr
    rw [e] at this ⊢
    rw [look_contact this]; rfl
  rw [rows_eq, placed_append, placed_append, placed_append, List.flatMap_append, List.flatMap_append, List.flatMap_append] at e
  unfold horizonsOf' at e
  rw [placed_none (look := fun x => contacts.lookup x) (fun r hr => by rw [boundary_kind hr]; decide),
    placed_none (rs := looseRows _) (look := fun x => contacts.lookup x) (fun r hr => by rw [loose_kind hr]; decide),
    placed_none (rs := rowsFrom _ (faultGroups m)) (look := fun x => contacts.lookup x) (fun r hr => by
      obtain ⟨k, e⟩ := fault_kind hr
      rw [e, look_contact_fault]),
    List.nil_append, List.nil_append, List.append_nil] at e
  rw [e]
  obtain ⟨h1, h2, h3⟩ := placed_some (look := fun x => contacts.lookup x) look
    (0 + (expand (rowsFrom [] (boundaryGroups m) ++ rowsFrom (boundarySurfaces m) (faultGroups m))).length)
  refine ⟨?_, ?_, ?_⟩
  · have hk := rows_kinds (horizonGroups m) (boundarySurfaces m ++ faultSurfaces m)
    have : (rowsFrom (boundarySurfaces m ++ faultSurfaces m) (horizonGroups m)).map (fun r => contacts.lookup r.1) = ((horizonsOf m).map (fun h => h.1)).map some := by
      have e : (rowsFrom (boundarySurfaces m ++ faultSurfaces m) (horizonGroups m)).map (fun r => contacts.lookup r.1) =
          ((rowsFrom (boundarySurfaces m ++ faultSurfaces m) (horizonGroups m)).map (fun r => r.1)).map (contacts.lookup ·) := by rw [List.map_map]; rfl
      rw [e, hk, horizonGroups, List.map_map, List.map_map, List.map_map]
      refine List.map_congr_left fun h hh => look_contact ?_
      have : val (contactText h.1) ∈ (rowsFrom (boundarySurfaces m ++ faultSurfaces m) (horizonGroups m)).map (fun r => r.1) := by
        rw [hk, horizonGroups, List.map_map]
        exact List.mem_map.2 ⟨h, hh, rfl⟩
      obtain ⟨r, hr, e⟩ := List.mem_map.1 this
      rw [← e]
      exact known' r hr
    rw [this] at h1
    refine List.map_injective_iff.2 (fun _ _ h => Option.some.inj h) ?_
    rw [← h1, List.map_map]; rfl
  · rw [h2, rows_names, horizonGroups, List.map_map]; rfl
  · rw [h3, rows_sizes, horizonGroups, List.map_map]; rfl

theorem placed_bounded {rs : List Row} (h : ∀ r ∈ rs, r.1 = cs!"boundary") (s : Nat) :
    ((placed s rs).flatMap fun r => boundariesOf' r.1 r.2.1 r.2.2).map (fun b => b.1) = rs.map (fun r => r.2.1) ∧
    ((placed s rs).flatMap fun r => boundariesOf' r.1 r.2.1 r.2.2).map (fun b => b.2.length) = rs.map (fun r => r.2.2) := by
  induction rs generalizing s with
  | nil => exact ⟨rfl, rfl⟩
  | cons r rs ih =>
    obtain ⟨i1, i2⟩ := ih (fun r hr => h r (List.mem_cons_of_mem _ hr)) (s + r.2.2)
    have e : boundariesOf' r.1 r.2.1 (List.range' s r.2.2) = [(r.2.1, List.range' s r.2.2)] := by
      rw [boundariesOf', if_pos (by rw [h r List.mem_cons_self]; decide)]
    simp only [placed, List.flatMap_cons, List.map_append, List.map_cons, i1, i2, e]
    exact ⟨rfl, by simp⟩

theorem placed_unbounded {rs : List Row} (h : ∀ r ∈ rs, r.1 ∉ boundaryFeatures) (s : Nat) : ((placed s rs).flatMap fun r => boundariesOf' r.1 r.2.1 r.2.2) = [] := by
  induction rs generalizing s with
  | nil => rfl
  | cons r rs ih =>
    rw [placed, List.flatMap_cons, ih (fun r hr => h r (List.mem_cons_of_mem _ hr)), boundariesOf', if_neg (h r List.mem_cons_self)]
    rfl

/-- **The model boundaries that come back**, for every model whose file loads: those of the model in their order with the surfaces in no collection
before, one for each surface in no collection, and at most another one. -/
theorem boundaries_back [LawfulNum D] (hp : PlainNumbers D) {m : Model D} {sides : Sides.AllSides} {f : File} (hf : saveMl m sides = .ok f) {L : Loaded D}
    (hL : loadMl f = .ok L) :
    ∃ bs more, L.boundaries = bs ++ more ∧
      bs.map (fun b => b.1) = m.boundaries.map (fun b => readAs (componentName b.1)) ++ (unclassified m).map (fun s => readAs (componentName s.name)) ∧
      bs.map (fun b => b.2.length) = sizes [] (m.boundaries.map fun b => b.2) ++ (unclassified m).map (fun _ => 1) ∧
      (more = [] ∨ ∃ is, is ≠ [] ∧ more = [(cs!"undefined boundary", is)]) := by
  obtain ⟨_, _, _, _, more, e, hm⟩ := collections_back hp hf hL
  refine ⟨_, more, e, ?_, ?_, hm⟩ <;>
    rw [rows_eq, placed_append, placed_append, placed_append, List.flatMap_append, List.flatMap_append, List.flatMap_append,
      placed_unbounded (rs := rowsFrom _ (faultGroups m)) (fun r hr => by
        obtain ⟨k, e⟩ := fault_kind hr
        rw [e]; cases k <;> decide),
      placed_unbounded (rs := rowsFrom _ (horizonGroups m)) (fun r hr => by
        obtain ⟨k, e⟩ := horizon_kind hr
        rw [e]; cases k <;> decide), List.append_nil, List.append_nil, List.map_append]
  · rw [(placed_bounded (fun r hr => boundary_kind hr) _).1, (placed_bounded (fun r hr => loose_kind hr) _).1, rows_names, boundaryGroups, List.map_map, looseRows,
      List.map_map]
    rfl
  · rw [(placed_bounded (fun r hr => boundary_kind hr) _).2, (placed_bounded (fun r hr => loose_kind hr) _).2, rows_sizes, boundaryGroups, List.map_map, looseRows,
      List.map_map]
    rfl

/-! ## When collections are kept -/

/-- **Types and contacts**: for every model whose file loads, the contacts of the horizons are kept, and the types of the faults exactly when no fault
has a type other than normal and reverse. -/
theorem types_kept_iff [LawfulNum D] (hp : PlainNumbers D) {m : Model D} {sides : Sides.AllSides} {f : File} (hf : saveMl m sides = .ok f) {L : Loaded D}
    (hL : loadMl f = .ok L) :
    L.horizons.map (fun h => h.1) = (horizonsOf m).map (fun h => h.1) ∧
      (L.faults.map (fun f => f.1) = (faultsOf m).map (fun f => f.1) ↔ ∀ f ∈ faultsOf m, f.1 = .noType ∨ f.1 = .normal ∨ f.1 = .reverse) := by
  refine ⟨(horizons_back hp hf hL).1, ?_⟩
  rw [(faults_back hp hf hL).1]
  generalize faultsOf m = fs
  induction fs with
  | nil => simp
  | cons f fs ih =>
    rw [List.map_cons, List.map_cons, List.cons.injEq, ih, List.forall_mem_cons]
    refine and_congr ?_ Iff.rfl
    cases f.1 <;> decide

theorem fresh_le (is : List Nat) : ∀ seen, (fresh seen is).length ≤ is.length := by
  induction is with
  | nil => intro; exact Nat.le_refl _
  | cons i is ih =>
    intro seen
    rw [fresh]
    split
    · exact Nat.le_succ_of_le (ih seen)
    · exact Nat.succ_le_succ (ih _)

theorem fresh_all {is : List Nat} : ∀ {seen : List Nat}, (fresh seen is).length = is.length ↔ is.Nodup ∧ ∀ i ∈ is, i ∉ seen := by
  induction is with
  | nil => intro seen; simp [fresh]
  | cons i is ih =>
    intro seen
    rw [fresh]
    by_cases h : i ∈ seen
    · rw [if_pos h]
      have := fresh_le is seen
      constructor
      · intro e; rw [List.length_cons] at e; omega
      · intro e; exact absurd h (e.2 i List.mem_cons_self)
    · rw [if_neg h, List.length_cons, List.length_cons, Nat.add_right_cancel_iff, ih, List.nodup_cons, List.forall_mem_cons]
      constructor
      · rintro ⟨h1, h2⟩
        exact ⟨⟨fun hm => h2 i hm List.mem_cons_self, h1⟩, h, fun j hj hm => h2 j hj (List.mem_cons_of_mem _ hm)⟩
      · rintro ⟨⟨h1, h2⟩, _, h3⟩
        refine ⟨h2, fun j hj hm => ?_⟩
        rcases List.mem_cons.1 hm with rfl | hm
        · exact h1 hj
        · exact h3 j hj hm

theorem sizes_all {ls : List (List Nat)} : ∀ {seen : List Nat}, sizes seen ls = ls.map List.length ↔ ls.flatten.Nodup ∧ ∀ i ∈ ls.flatten, i ∉ seen := by
  induction ls with
  | nil => intro seen; simp [sizes]
  | cons is ls ih =>
    intro seen
    rw [sizes, List.map_cons, List.cons.injEq, ih, fresh_all, List.flatten_cons, List.nodup_append, List.forall_mem_append]
    constructor
    · rintro ⟨⟨h1, h2⟩, h3, h4⟩
      refine ⟨⟨h1, h3, ?_⟩, h2, fun i hi hm => h4 i hi (List.mem_append_left _ hm)⟩
      rintro a ha b hb rfl
      exact h4 a hb (List.mem_append_right _ ha)
    · rintro ⟨⟨h1, h3, h5⟩, h2, h4⟩
      refine ⟨⟨h1, h2⟩, h3, fun i hi hm => ?_⟩
      rcases List.mem_append.1 hm with hm | hm
      · exact h4 i hi hm
      · exact h5 i hm i hi rfl

/-- **Sizes**: for every model whose file loads, the collections keep as many surfaces as they had, exactly when no surface is twice in them. -/
theorem sizes_kept_iff [LawfulNum D] (hp : PlainNumbers D) {m : Model D} {sides : Sides.AllSides} {f : File} (hf : saveMl m sides = .ok f) {L : Loaded D}
    (hL : loadMl f = .ok L) :
    ((L.boundaries.map (fun b => b.2.length)).take m.boundaries.length = m.boundaries.map (fun b => b.2.length) ∧
      L.faults.map (fun f => f.2.2.length) = (faultsOf m).map (fun f => f.2.2.length) ∧
      L.horizons.map (fun h => h.2.2.length) = (horizonsOf m).map (fun h => h.2.2.length)) ↔
    (boundarySurfaces m ++ faultSurfaces m ++ (horizonsOf m).flatMap fun h => h.2.2).Nodup := by
  obtain ⟨bs, more, e, _, hb, _⟩ := boundaries_back hp hf hL
  have slen : ∀ (ls : List (List Nat)) seen, (sizes seen ls).length = ls.length := by
    intro ls
    induction ls with
    | nil => intro; rfl
    | cons a ls ih => intro seen; rw [sizes, List.length_cons, ih, List.length_cons]
  have hl : m.boundaries.length = (sizes [] (m.boundaries.map fun b => b.2)).length := by rw [slen, List.length_map]
  rw [e, List.map_append, hb, List.append_assoc, hl, List.take_left, (faults_back hp hf hL).2.2, (horizons_back hp hf hL).2.2]
  have m1 : m.boundaries.map (fun b => b.2.length) = (m.boundaries.map fun b => b.2).map List.length := by rw [List.map_map]; rfl
  have m2 : (faultsOf m).map (fun b => b.2.2.length) = ((faultsOf m).map fun b => b.2.2).map List.length := by rw [List.map_map]; rfl
  have m3 : (horizonsOf m).map (fun b => b.2.2.length) = ((horizonsOf m).map fun b => b.2.2).map List.length := by rw [List.map_map]; rfl
  have f1 : boundarySurfaces m = (m.boundaries.map fun b => b.2).flatten := by rw [boundarySurfaces, List.flatMap_def]
  have f2 : faultSurfaces m = ((faultsOf m).map fun b => b.2.2).flatten := by rw [faultSurfaces, List.flatMap_def]
  rw [m1, m2, m3, sizes_all, sizes_all, sizes_all, f1, f2, List.flatMap_def, List.nodup_append, List.nodup_append]
  generalize (m.boundaries.map fun b => b.2).flatten = A
  generalize ((faultsOf m).map fun b => b.2.2).flatten = B
  generalize ((horizonsOf m).map fun b => b.2.2).flatten = C
  constructor
  · rintro ⟨⟨h1, _⟩, ⟨h2, h3⟩, h4, h5⟩
    exact ⟨⟨h1, h2, by rintro a ha b hb rfl; exact h3 a hb ha⟩, h4, by rintro a ha b hb rfl; exact h5 a hb ha⟩
  · rintro ⟨⟨h1, h2, h3⟩, h4, h5⟩
    exact ⟨⟨h1, by simp⟩, ⟨h2, fun i hi hm => h3 i hm i hi rfl⟩, h4, fun i hi hm => h5 i hm i hi rfl⟩

/-- **Collections added**: for every model whose file loads, there are as many model boundaries as before, one for each surface in no collection, and
perhaps another one; so that collections are added as soon as a surface is in none. -/
theorem boundaries_added [LawfulNum D] (hp : PlainNumbers D) {m : Model D} {sides : Sides.AllSides} {f : File} (hf : saveMl m sides = .ok f) {L : Loaded D}
    (hL : loadMl f = .ok L) :
    L.faults.length = (faultsOf m).length ∧ L.horizons.length = (horizonsOf m).length ∧
      (L.boundaries.length = m.boundaries.length + (unclassified m).length ∨ L.boundaries.length = m.boundaries.length + (unclassified m).length + 1) := by
  obtain ⟨bs, more, e, hb, _, hm⟩ := boundaries_back hp hf hL
  have h1 := congrArg List.length (faults_back hp hf hL).1
  have h2 := congrArg List.length (horizons_back hp hf hL).1
  have h3 := congrArg List.length hb
  simp only [List.length_map, List.length_append] at h1 h2 h3
  refine ⟨h1, h2, ?_⟩
  rw [e, List.length_append, h3]
  rcases hm with rfl | ⟨is, _, rfl⟩
  · exact .inl rfl
  · exact .inr rfl

/-- Tests: the surfaces that count in lists. -/
example : fresh [] [1, 2, 1] = [1, 2] ∧ fresh [2] [1, 2, 3] = [1, 3] ∧ sizes [] [[1, 2], [2, 3], [4]] = [2, 1, 1] := by decide

/-- A test: the model with a shared surface is saved and loaded, and its second boundary has one surface less. -/
example : (match saveMl MlCases.shared MlCases.someSides >>= fun f => (loadMl f : Res (Loaded Int)) with
    | .ok L => decide (L.boundaries.map (fun b => b.2.length) = [2, 1] ∧ ¬(boundarySurfaces MlCases.shared).Nodup)
    | _ => false) = true := by decide +kernel

/-- A test: a model with a strike-slip fault and a horizon is saved and loaded. -/
example : (match saveMl (MlCases.oneFault .strikeSlip) MlCases.someSides >>= fun f => (loadMl f : Res (Loaded Int)) with
    | .ok L => decide (L.faults.map (fun f => f.1) = [.noType])
    | _ => false) = true := by decide +kernel

end Verif.Props.MlCollections
