import Verif.Props.MlGroups
import Verif.Props.MlCases

/-!
# C61: the names of the blocks and of their collections in saved ML models

For every model whose saved file loads: which blocks, units and fault blocks come back.
-/

set_option linter.unusedSectionVars false

namespace Verif.Props.MlNames

open Verif Verif.Gocad Verif.GocadMesh Verif.Ml Res
open Verif.Props.MlOutcomes (Record Records Listed names faces Parts ml_loads_iff blocksOf unitOf faultBlockOf layers BlockOf keywords)
open Verif.Props.WlOutcomes (First goto_iff)
open Verif.Props.PropHeaders (mapM'_iff)
open Verif.Props.MlGroups

variable {D : Type} [Num D]

/-! ## Lines of records -/

/-- The block announced by a line. -/
def regionName (l : Str) : Option Str :=
  match split l with
  | k :: _ :: w :: ws => if k = cs!"REGION" ∧ readName (w :: ws) ≠ cs!"Universe" then some (readName (w :: ws)) else none
  | _ => none

/-- The collection of blocks announced by a line with a keyword. -/
def layerName (kw : Str) (l : Str) : Option Str :=
  match split l with
  | k :: w :: ws => if k = kw then some (readName (w :: ws)) else none
  | _ => none

/-- The line has the words of its keyword. -/
def Complete (l : Str) : Prop :=
  ((split l).head? = some cs!"REGION" → 3 ≤ (split l).length) ∧ ((split l).head? = some cs!"LAYER" → 2 ≤ (split l).length) ∧
    ((split l).head? = some cs!"FAULT_BLOCK" → 2 ≤ (split l).length)

/-- The keywords of blocks and of their collections. -/
def starts : List Str := [cs!"REGION", cs!"LAYER", cs!"FAULT_BLOCK"]

/-- Nothing is announced. -/
def Quiet (l : Str) : Prop := regionName l = none ∧ layerName cs!"LAYER" l = none ∧ layerName cs!"FAULT_BLOCK" l = none

theorem quiet_of_head {l : Str} (h : ∀ t ts, split l = t :: ts → t ∉ starts) : Quiet l := by
  unfold Quiet regionName layerName
  cases hs : split l with
  | nil => exact ⟨rfl, rfl, rfl⟩
  | cons t ts =>
    have ht := h t ts hs
    simp only [starts, List.mem_cons, List.not_mem_nil, or_false, not_or] at ht
    obtain ⟨h1, h2, h3⟩ := ht
    refine ⟨?_, ?_, ?_⟩
    · split
      · rename_i e; rw [if_neg]; rintro ⟨e', -⟩; exact h1 ((List.cons.inj e).1.trans e')
      · rfl
    · split
      · rename_i e; rw [if_neg]; intro e'; exact h2 ((List.cons.inj e).1.trans e')
      · rfl
    · split
      · rename_i e; rw [if_neg]; intro e'; exact h3 ((List.cons.inj e).1.trans e')
      · rfl

theorem complete_of_head {l : Str} (h : ∀ t ts, split l = t :: ts → t ∉ starts) : Complete l := by
  unfold Complete
  cases hs : split l with
  | nil => simp
  | cons t ts =>
    have ht := h t ts hs
    simp only [starts, List.mem_cons, List.not_mem_nil, or_false, not_or] at ht
    obtain ⟨h1, h2, h3⟩ := ht
    simp [h1, h2, h3]

theorem listed_quiet {A : Type} {num : Str → Option A} (hE : NoE num) (hn : ∀ t ∈ starts, num t = none) {zero : A} {f : File} {vs : List A} {rest : File}
    (h : Listed num zero f vs rest) :
    ∃ pre, f = pre ++ rest ∧ (∀ l ∈ pre, startsWith l cs!"END" = false) ∧ ∀ l ∈ pre, ∀ t ts, split l = t :: ts → t ∉ starts := by
  obtain ⟨pre, e, hp⟩ := listed_no_end hE h
  refine ⟨pre, e, hp, ?_⟩
  obtain ⟨ls, l, a, z, b, rfl, hs, hz, hv⟩ := h
  have hpre : pre = ls ++ [l] := by
    have : ls ++ l :: rest = (ls ++ [l]) ++ rest := by simp
    rw [this] at e
    exact (List.append_cancel_right e).symm
  have hall : ∀ w ∈ ls.flatMap split ++ a, ∃ v, num w = some v := by
    intro w hw
    obtain ⟨i, hi, rfl⟩ := List.getElem_of_mem hw
    have := hv.get hi (by rw [← hv.length_eq]; exact hi)
    exact ⟨_, this.1⟩
  intro x hx t ts ht hm
  have h0 := hn t hm
  rw [hpre] at hx
  rcases List.mem_append.1 hx with hx | hx
  · obtain ⟨v, hv⟩ := hall t (List.mem_append_left _ (List.mem_flatMap.2 ⟨x, hx, by rw [ht]; exact List.mem_cons_self⟩))
    rw [h0] at hv; cases hv
  · rw [List.mem_singleton.1 hx, hs] at ht
    cases a with
    | nil =>
      cases (List.cons.inj ht).1
      rw [h0] at hz; cases hz
    | cons w a =>
      cases (List.cons.inj ht).1
      obtain ⟨v, hv⟩ := hall t (List.mem_append_right _ List.mem_cons_self)
      rw [h0] at hv; cases hv

theorem int_starts : ∀ t ∈ starts, parseInt t = none := by decide
theorem index_starts : ∀ t ∈ starts, parseIndex t = none := by decide

theorem filterMap_quiet {g : Str → Option Str} {ls : File} (h : ∀ l ∈ ls, g l = none) : ls.filterMap g = [] := by
  rw [List.filterMap_eq_nil_iff]; exact h

/-- What the lines before the end announce. -/
structure Announced (pre : File) (rs : List Record) : Prop where
  ends : ∀ l ∈ pre, startsWith l cs!"END" = false
  complete : ∀ l ∈ pre, Complete l
  blocks : (blocksOf rs).map Prod.fst = pre.filterMap regionName
  units : (rs.filterMap unitOf).map Prod.fst = pre.filterMap (layerName cs!"LAYER")
  faultBlocks : (rs.filterMap faultBlockOf).map Prod.fst = pre.filterMap (layerName cs!"FAULT_BLOCK")

theorem records_names {f : File} {rs : List Record} {rest : File} (h : Records f rs rest) :
    ∃ pre e, f = pre ++ e :: rest ∧ startsWith e cs!"END" = true ∧ Announced pre rs := by
  have quiet : ∀ {l : Str} {ls : File} {r : List Record} {rs : List Record} {rest : File}, startsWith l cs!"END" = false → (∀ t ts, split l = t :: ts → t ∉ starts) →
      blocksOf r = [] → r.filterMap unitOf = [] → r.filterMap faultBlockOf = [] →
      (∃ pre e, ls = pre ++ e :: rest ∧ startsWith e cs!"END" = true ∧ Announced pre rs) →
      ∃ pre e, l :: ls = pre ++ e :: rest ∧ startsWith e cs!"END" = true ∧ Announced pre (r ++ rs) := by
    rintro l ls r rs rest hl hq hb hu hf ⟨pre, e, rfl, he, a⟩
    have q := quiet_of_head hq
    refine ⟨l :: pre, e, rfl, he, ?_, ?_, ?_, ?_, ?_⟩
    · exact List.forall_mem_cons.2 ⟨hl, a.ends⟩
    · exact List.forall_mem_cons.2 ⟨complete_of_head hq, a.complete⟩
    · rw [MlOutcomes.blocksOf_append, hb, List.filterMap_cons_none q.1]; exact a.blocks
    · rw [List.filterMap_append, hu, List.filterMap_cons_none q.2.1]; exact a.units
    · rw [List.filterMap_append, hf, List.filterMap_cons_none q.2.2]; exact a.faultBlocks
  have listed : ∀ {l : Str} {ls mid f : File} {r : Record} {rs : List Record} {rest : File}, startsWith l cs!"END" = false → ls = mid ++ f →
      (∀ l ∈ mid, startsWith l cs!"END" = false) → (∀ l ∈ mid, ∀ t ts, split l = t :: ts → t ∉ starts) → Announced [l] [r] →
      (∃ pre e, f = pre ++ e :: rest ∧ startsWith e cs!"END" = true ∧ Announced pre rs) →
      ∃ pre e, l :: ls = pre ++ e :: rest ∧ startsWith e cs!"END" = true ∧ Announced pre (r :: rs) := by
    rintro l ls mid f r rs rest hl rfl hm hq a1 ⟨pre, e, rfl, he, a⟩
    have q : ∀ l ∈ mid, Quiet l := fun l hl => quiet_of_head (hq l hl)
    have ef : ∀ {A : Type} (g : Record → Option A), (r :: rs).filterMap g = [r].filterMap g ++ rs.filterMap g := fun g => by
      rw [← List.filterMap_append]; rfl
    have el : ∀ (g : Str → Option Str), (∀ l ∈ mid, g l = none) → (l :: (mid ++ pre)).filterMap g = [l].filterMap g ++ pre.filterMap g := fun g hg => by
      rw [show l :: (mid ++ pre) = [l] ++ (mid ++ pre) from rfl, List.filterMap_append, List.filterMap_append, filterMap_quiet hg]; rfl
    refine ⟨l :: (mid ++ pre), e, by simp, he, ?_, ?_, ?_, ?_, ?_⟩
    · exact List.forall_mem_cons.2 ⟨hl, List.forall_mem_append.2 ⟨hm, a.ends⟩⟩
    · exact List.forall_mem_cons.2 ⟨a1.complete l List.mem_cons_self, List.forall_mem_append.2 ⟨fun l hl => complete_of_head (hq l hl), a.complete⟩⟩
    · rw [el _ fun l hl => (q l hl).1, ← a.blocks, ← a1.blocks, ← List.map_append, ← MlOutcomes.blocksOf_append]; rfl
    · rw [el _ fun l hl => (q l hl).2.1, ← a.units, ← a1.units, ef, List.map_append]
    · rw [el _ fun l hl => (q l hl).2.2, ← a.faultBlocks, ← a1.faultBlocks, ef, List.map_append]
  induction h with
  | @done l rest h => exact ⟨[], l, rfl, h, by simp, by simp, rfl, rfl, rfl⟩
  | @tsurf l w ws ls rs rest h h1 h2 ih =>
    exact quiet (r := [.tsurf (readName (w :: ws))]) h (fun t ts e => by rw [h1] at e; rw [← (List.cons.inj e).1]; decide) rfl rfl rfl ih
  | @tface l a feature w ws ls rs rest h h1 h2 ih =>
    exact quiet (r := [.tface feature (readName (w :: ws))]) h (fun t ts e => by rw [h1] at e; rw [← (List.cons.inj e).1]; decide) rfl rfl rfl ih
  | @outside l a w ws ls ns f rs rest h h1 h2 h3 h4 ih =>
    obtain ⟨mid, e, hm, hq⟩ := listed_quiet noE_int int_starts h3
    refine listed h e hm hq ⟨by simpa using h, ?_, ?_, ?_, ?_⟩ ih
    · simp only [List.mem_singleton, forall_eq, Complete, h1]; simp
    · simp [blocksOf, regionName, h1, h2]
    · simp [unitOf, layerName, h1]
    · simp [faultBlockOf, layerName, h1]
  | @block l a w ws ls ns f rs rest h h1 h2 h3 h4 ih =>
    obtain ⟨mid, e, hm, hq⟩ := listed_quiet noE_int int_starts h3
    refine listed h e hm hq ⟨by simpa using h, ?_, ?_, ?_, ?_⟩ ih
    · simp only [List.mem_singleton, forall_eq, Complete, h1]; simp
    · simp [blocksOf, regionName, h1, h2]
    · simp [unitOf, layerName, h1]
    · simp [faultBlockOf, layerName, h1]
  | @layer l w ws ls ns f rs rest h h1 h3 h4 ih =>
    obtain ⟨mid, e, hm, hq⟩ := listed_quiet noE_index index_starts h3
    refine listed h e hm hq ⟨by simpa using h, ?_, ?_, ?_, ?_⟩ ih
    · simp only [List.mem_singleton, forall_eq, Complete, h1]; simp
    · cases ws <;> simp [blocksOf, regionName, h1]
    · simp [unitOf, layerName, h1]
    · simp [faultBlockOf, layerName, h1]
  | @faultBlock l w ws ls ns f rs rest h h1 h3 h4 ih =>
    obtain ⟨mid, e, hm, hq⟩ := listed_quiet noE_index index_starts h3
    refine listed h e hm hq ⟨by simpa using h, ?_, ?_, ?_, ?_⟩ ih
    · simp only [List.mem_singleton, forall_eq, Complete, h1]; simp
    · cases ws <;> simp [blocksOf, regionName, h1]
    · simp [unitOf, layerName, h1]
    · simp [faultBlockOf, layerName, h1]
  | @other l k w ws ls rs rest h h1 h2 h3 ih =>
    refine quiet (r := []) h (fun t ts e => ?_) rfl rfl rfl ih
    rw [h1] at e
    rw [← (List.cons.inj e).1]
    intro hm
    apply h2
    simp only [starts, List.mem_cons, List.not_mem_nil, or_false] at hm
    rcases hm with rfl | rfl | rfl <;> decide

/-! ## Lines written -/

/-- A line that is neither the end nor one of a block or of a collection of blocks. -/
def Silent (l : Str) : Prop := startsWith l cs!"END" = false ∧ ∀ t ts, split l = t :: ts → t ∉ starts

theorem silent_kw {kw : Str} (hk : IsTok kw) (he : ∀ s, startsWith (kw ++ s) cs!"END" = false) (ht : kw ∉ starts) (xs : List Str) : Silent (kw ++ spaced xs) :=
  ⟨he _, fun t ts e => by rw [split_kw_spaced' hk] at e; rw [← (List.cons.inj e).1]; exact ht⟩

theorem chars_showNat {c : Char} (hc : digitVal c = none) (n : Nat) : c ∉ showNat n := by
  intro h
  have hp := parseNat_showNat n
  have : ∀ (s : Str) (k : Nat), c ∈ s → digitsVal k s = none := by
    intro s
    induction s with
    | nil => intro k h; cases h
    | cons d s ih =>
      intro k hd
      rw [digitsVal]
      by_cases e : d = c
      · subst e; rw [hc]
      · rcases List.mem_cons.1 hd with hd | hd
        · exact absurd hd.symm e
        · cases digitVal d with
          | none => rfl
          | some d => exact ih _ hd
  unfold parseNat at hp
  cases hs : showNat n with
  | nil => rw [hs] at h; cases h
  | cons d s =>
    rw [hs] at hp h
    simp only at hp
    rw [this _ 0 h] at hp
    cases hp

theorem chars_signed {c : Char} (hc : digitVal c = none) (hp : c ≠ '+') (hm : c ≠ '-') (side : Bool) (n : Nat) : c ∉ signed side n := by
  unfold signed
  intro h
  rcases List.mem_cons.1 h with h | h
  · cases side
    · exact hm h
    · exact hp h
  · exact chars_showNat hc n h

theorem silent_chars {l : Str} (hE : 'E' ∉ l) (hL : 'L' ∉ l) : Silent l := by
  refine ⟨?_, fun t ts e hm => ?_⟩
  · rw [← Bool.not_eq_true]
    intro h
    obtain ⟨t, ts, e⟩ := end_starts h
    exact hE (mem_of_split (s := l) (t := 'E' :: t) (by rw [e]; exact List.mem_cons_self) 'E' List.mem_cons_self)
  · have ht : ∀ c ∈ t, c ∈ l := mem_of_split (by rw [e]; exact List.mem_cons_self)
    simp only [starts, List.mem_cons, List.not_mem_nil, or_false] at hm
    rcases hm with rfl | rfl | rfl
    · exact hE (ht 'E' (by decide))
    · exact hL (ht 'L' (by decide))
    · exact hL (ht 'L' (by decide))

theorem silent_wrapped {xs : List Str} (hE : ∀ x ∈ xs, 'E' ∉ x) (hL : ∀ x ∈ xs, 'L' ∉ x) : ∀ l ∈ wrapped cs!"  " 0 xs, Silent l := fun l hl =>
  silent_chars (wrapped_chars (by decide) (by decide) xs _ _ (by decide) hE l hl) (wrapped_chars (by decide) (by decide) xs _ _ (by decide) hL l hl)

theorem silent_key [LawfulNum D] (hp : PlainNumbers D) {s : Ml.Surface D} {ls : File} (h : keyTriangle s = .ok ls) : ∀ l ∈ ls, Silent l := by
  have line : ∀ {v : Nat} {l : Str}, keyLine s v = .ok l → Silent l := by
    intro v l h
    unfold keyLine at h
    obtain ⟨p, _, h⟩ := bind_eq_ok.1 h
    rw [pure_eq] at h
    rw [← Res.ok.inj h]
    have e : split (cs!"  " ++ join p.toks) = p.toks := by
      have : cs!"  " ++ join p.toks = ' ' :: ' ' :: join p.toks := rfl
      rw [this, split_space, split_space, split_join (isTok_toks p)]
    refine ⟨rfl, fun t ts ht hm => hp p.x ?_⟩
    rw [e] at ht
    rw [show Num.fmt p.x = t from (List.cons.inj ht).1]
    simp only [starts, List.mem_cons, List.not_mem_nil, or_false] at hm
    rcases hm with rfl | rfl | rfl <;> decide
  unfold keyTriangle at h
  obtain ⟨t, _, h⟩ := bind_eq_ok.1 h
  obtain ⟨a, ha, h⟩ := bind_eq_ok.1 h
  obtain ⟨b, hb, h⟩ := bind_eq_ok.1 h
  obtain ⟨c, hc, h⟩ := bind_eq_ok.1 h
  rw [pure_eq] at h
  rw [← Res.ok.inj h]
  intro l hl
  simp only [List.mem_cons, List.not_mem_nil, or_false] at hl
  rcases hl with rfl | rfl | rfl
  · exact line ha
  · exact line hb
  · exact line hc

theorem silent_face [LawfulNum D] (hp : PlainNumbers D) {st st' : Faces} {kind name : Str} {s : Ml.Surface D} (h : writeFace st kind name s = .ok st')
    (ho : ∀ l ∈ st.out, Silent l) : ∀ l ∈ st'.out, Silent l := by
  unfold writeFace at h
  obtain ⟨key, h1, h⟩ := bind_eq_ok.1 h
  rw [pure_eq] at h
  rw [← Res.ok.inj h]
  exact List.forall_mem_append.2 ⟨ho, List.forall_mem_cons.2 ⟨silent_kw (by decide) (fun _ => rfl) (by decide) _, silent_key hp h1⟩⟩

theorem foldM_keeps {A S : Type} {g : S → A → Res S} {R : S → Prop} (hg : ∀ {s s' : S} {a : A}, g s a = .ok s' → R s → R s') :
    ∀ (as : List A) {s s' : S}, Res.foldM' g s as = .ok s' → R s → R s' := by
  intro as
  induction as with
  | nil => intro s s' h hs; cases h; exact hs
  | cons a as ih =>
    intro s s' h hs
    rw [Res.foldM'_cons] at h
    obtain ⟨s1, h1, h⟩ := bind_eq_ok.1 h
    exact ih h (hg h1 hs)

theorem silent_tfaces [LawfulNum D] (hp : PlainNumbers D) {m : Model D} {st : Faces} (h : writeTfaces m = .ok st) : ∀ l ∈ st.out, Silent l := by
  unfold writeTfaces at h
  obtain ⟨s1, h1, h⟩ := bind_eq_ok.1 h
  refine foldM_keeps (R := fun st : Faces => ∀ l ∈ st.out, Silent l) (fun hg hs => silent_face hp hg hs) _ h ?_
  refine foldM_keeps (R := fun st : Faces => ∀ l ∈ st.out, Silent l) (fun hg hs => ?_) _ h1 (by simp)
  refine foldM_keeps (R := fun st : Faces => ∀ l ∈ st.out, Silent l) (fun hg hs => ?_) _ hg hs
  unfold writeItem at hg
  split at hg
  · cases hg; exact hs
  · obtain ⟨k, _, hg⟩ := bind_eq_ok.1 hg
    obtain ⟨n, _, hg⟩ := bind_eq_ok.1 hg
    obtain ⟨s, _, hg⟩ := bind_eq_ok.1 hg
    exact silent_face hp hg hs

/-- The lines of a block: its own, then the list. -/
theorem region_lines {sides : Sides.AllSides} {comps : List (Nat × Nat)} {n : Nat} {b : Block} {ls : File} (h : writeRegion sides comps n b = .ok ls) :
    ∃ list, ls = (cs!"REGION" ++ spaced [showNat n, componentName b.name]) :: list ∧ ∀ l ∈ list, Silent l := by
  unfold writeRegion at h
  obtain ⟨bounds, h1, h⟩ := bind_eq_ok.1 h
  obtain ⟨inner, h2, h⟩ := bind_eq_ok.1 h
  rw [pure_eq] at h
  refine ⟨_, (Res.ok.inj h).symm, ?_⟩
  have hx : ∀ c : Char, digitVal c = none → c ≠ '+' → c ≠ '-' → ∀ x ∈ bounds ++ inner.flatten, c ∉ x := by
    intro c c1 c2 c3 x hx
    rcases List.mem_append.1 hx with hx | hx
    · obtain ⟨i, _, e⟩ := mapM_mem h1 hx
      obtain ⟨side, _, e⟩ := bind_eq_ok.1 e
      obtain ⟨k, _, e⟩ := bind_eq_ok.1 e
      rw [pure_eq] at e
      rw [← Res.ok.inj e]
      exact chars_signed c1 c2 c3 _ _
    · obtain ⟨y, hy, hx⟩ := List.mem_flatten.1 hx
      obtain ⟨i, _, e⟩ := mapM_mem h2 hy
      obtain ⟨k, _, e⟩ := bind_eq_ok.1 e
      rw [pure_eq] at e
      rw [← Res.ok.inj e] at hx
      simp only [List.mem_cons, List.not_mem_nil, or_false] at hx
      rcases hx with rfl | rfl <;> exact chars_signed c1 c2 c3 _ _
  exact silent_wrapped (hx 'E' (by decide) (by decide) (by decide)) (hx 'L' (by decide) (by decide) (by decide))

theorem layer_lines {kw : Str} {numbers : List (Nat × Nat)} {u : Option Str × List Nat} {ls : File} (h : writeLayer kw numbers u = .ok ls) :
    ∃ name list, nameValue u.1 = .ok name ∧ ls = (kw ++ spaced [name]) :: list ∧ ∀ l ∈ list, Silent l := by
  unfold writeLayer at h
  obtain ⟨name, h1, h⟩ := bind_eq_ok.1 h
  obtain ⟨items, h2, h⟩ := bind_eq_ok.1 h
  rw [pure_eq] at h
  refine ⟨name, _, h1, (Res.ok.inj h).symm, ?_⟩
  have hx : ∀ c : Char, digitVal c = none → ∀ x ∈ items, c ∉ x := by
    intro c c1 x hx
    obtain ⟨i, _, e⟩ := mapM_mem h2 hx
    obtain ⟨k, _, e⟩ := bind_eq_ok.1 e
    rw [pure_eq] at e
    rw [← Res.ok.inj e]
    exact chars_showNat c1 _
  exact silent_wrapped (hx 'E' (by decide)) (hx 'L' (by decide))

theorem universe_lines {m : Model D} {sides : Sides.AllSides} {comps : List (Nat × Nat)} {n : Nat} {ls : File} (h : writeUniverse m sides comps n = .ok ls) :
    ∃ list, ls = (cs!"REGION " ++ showNat n ++ cs!"  Universe ") :: list ∧ ∀ l ∈ list, Silent l := by
  unfold writeUniverse at h
  obtain ⟨items, h1, h⟩ := bind_eq_ok.1 h
  rw [pure_eq] at h
  refine ⟨_, (Res.ok.inj h).symm, ?_⟩
  have hx : ∀ c : Char, digitVal c = none → c ≠ '+' → c ≠ '-' → ∀ x ∈ items, c ∉ x := by
    intro c c1 c2 c3 x hx
    obtain ⟨i, _, e⟩ := mapM_mem h1 hx
    obtain ⟨side, _, e⟩ := bind_eq_ok.1 e
    obtain ⟨k, _, e⟩ := bind_eq_ok.1 e
    rw [pure_eq] at e
    rw [← Res.ok.inj e]
    exact chars_signed c1 c2 c3 _ _
  exact silent_wrapped (hx 'E' (by decide) (by decide) (by decide)) (hx 'L' (by decide) (by decide) (by decide))

theorem prefix_unique {p q : File} {e e' : Str} {r r' : File} (h : p ++ e :: r = q ++ e' :: r') (hp : ∀ l ∈ p, startsWith l cs!"END" = false)
    (hq : ∀ l ∈ q, startsWith l cs!"END" = false) (he : startsWith e cs!"END" = true) (he' : startsWith e' cs!"END" = true) : p = q := by
  induction p generalizing q with
  | nil =>
    cases q with
    | nil => rfl
    | cons y q =>
      have := hq y List.mem_cons_self
      rw [← (List.cons.inj h).1, he] at this
      cases this
  | cons x p ih =>
    cases q with
    | nil =>
      have := hp x List.mem_cons_self
      rw [show x = e' from (List.cons.inj h).1, he'] at this
      cases this
    | cons y q =>
      obtain ⟨rfl, h'⟩ := List.cons.inj h
      rw [ih h' (fun l hl => hp l (List.mem_cons_of_mem _ hl)) fun l hl => hq l (List.mem_cons_of_mem _ hl)]

theorem split_region (n : Nat) (name : Str) : split (cs!"REGION" ++ spaced [showNat n, name]) = cs!"REGION" :: showNat n :: split name := by
  rw [split_kw_spaced' (by decide)]
  simp [split_tok (isTok_showNat n)]

theorem split_universe (n : Nat) : split (cs!"REGION " ++ showNat n ++ cs!"  Universe ") = [cs!"REGION", showNat n, cs!"Universe"] := by
  have e : cs!"REGION " ++ showNat n ++ cs!"  Universe " = cs!"REGION" ++ spaced [showNat n, cs!" Universe "] := by simp [spaced]
  rw [e, split_region]
  rfl

/-- The name of a block as it comes back, when the block does. -/
def blockAs (b : Block) : Option Str := if readAs (componentName b.name) = cs!"Universe" then none else some (readAs (componentName b.name))

/-- What a part of the file announces. -/
structure Part (ls : File) (bs us fs : List Str) : Prop where
  ends : ∀ l ∈ ls, startsWith l cs!"END" = false
  blocks : (∀ l ∈ ls, Complete l) → ls.filterMap regionName = bs
  units : (∀ l ∈ ls, Complete l) → ls.filterMap (layerName cs!"LAYER") = us
  faultBlocks : (∀ l ∈ ls, Complete l) → ls.filterMap (layerName cs!"FAULT_BLOCK") = fs

theorem Part.append {a b : File} {x y z x' y' z' : List Str} (h : Part a x y z) (h' : Part b x' y' z') : Part (a ++ b) (x ++ x') (y ++ y') (z ++ z') where
  ends := List.forall_mem_append.2 ⟨h.ends, h'.ends⟩
  blocks hc := by
    rw [List.forall_mem_append] at hc
    rw [List.filterMap_append, h.blocks hc.1, h'.blocks hc.2]
  units hc := by
    rw [List.forall_mem_append] at hc
    rw [List.filterMap_append, h.units hc.1, h'.units hc.2]
  faultBlocks hc := by
    rw [List.forall_mem_append] at hc
    rw [List.filterMap_append, h.faultBlocks hc.1, h'.faultBlocks hc.2]

theorem part_silent {ls : File} (h : ∀ l ∈ ls, Silent l) : Part ls [] [] [] where
  ends l hl := (h l hl).1
  blocks _ := filterMap_quiet fun l hl => (quiet_of_head (h l hl).2).1
  units _ := filterMap_quiet fun l hl => (quiet_of_head (h l hl).2).2.1
  faultBlocks _ := filterMap_quiet fun l hl => (quiet_of_head (h l hl).2).2.2

theorem part_universe {m : Model D} {sides : Sides.AllSides} {comps : List (Nat × Nat)} {n : Nat} {ls : File} (h : writeUniverse m sides comps n = .ok ls) :
    Part ls [] [] [] := by
  obtain ⟨list, rfl, hl⟩ := universe_lines h
  have p : Part [cs!"REGION " ++ showNat n ++ cs!"  Universe "] [] [] [] := by
    refine ⟨by simp only [List.mem_singleton, forall_eq]; rfl, ?_, ?_, ?_⟩ <;> intro _
    · simp only [List.filterMap_cons, List.filterMap_nil, regionName, split_universe]
      rfl
    · simp only [List.filterMap_cons, List.filterMap_nil, layerName, split_universe]
      rfl
    · simp only [List.filterMap_cons, List.filterMap_nil, layerName, split_universe]
      rfl
  exact p.append (part_silent hl)

theorem part_region {sides : Sides.AllSides} {comps : List (Nat × Nat)} {n : Nat} {b : Block} {ls : File} (h : writeRegion sides comps n b = .ok ls) :
    Part ls (blockAs b).toList [] [] := by
  obtain ⟨list, rfl, hl⟩ := region_lines h
  have p : Part [cs!"REGION" ++ spaced [showNat n, componentName b.name]] (blockAs b).toList [] [] := by
    refine ⟨by simp only [List.mem_singleton, forall_eq]; rfl, ?_, ?_, ?_⟩ <;> intro hc
    · have h3 := (hc _ List.mem_cons_self).1 (by rw [split_region]; rfl)
      rw [split_region] at h3
      obtain ⟨w, ws, hs⟩ : ∃ w ws, split (componentName b.name) = w :: ws := by
        cases hs : split (componentName b.name) with
        | nil => rw [hs] at h3; simp at h3
        | cons w ws => exact ⟨w, ws, rfl⟩
      have e : regionName (cs!"REGION" ++ spaced [showNat n, componentName b.name]) = blockAs b := by
        unfold regionName blockAs readAs
        rw [split_region, hs]
        by_cases hu : readName (w :: ws) = cs!"Universe"
        · simp [hu]
        · simp [hu]
      rw [List.filterMap_cons, List.filterMap_nil, e]
      cases blockAs b <;> rfl
    · simp only [List.filterMap_cons, List.filterMap_nil, layerName, split_region]
      rfl
    · simp only [List.filterMap_cons, List.filterMap_nil, layerName, split_region]
      rfl
  have := p.append (part_silent hl)
  rwa [List.append_nil] at this

theorem part_blocks {sides : Sides.AllSides} {comps : List (Nat × Nat)} : ∀ {bs : List Block} {n : Nat} {ls : File},
    writeBlocks sides comps n bs = .ok ls → Part ls (bs.filterMap blockAs) [] [] := by
  intro bs
  induction bs with
  | nil => intro n ls h; cases h; exact part_silent (by simp)
  | cons b bs ih =>
    intro n ls h
    rw [writeBlocks] at h
    obtain ⟨x, h1, h⟩ := bind_eq_ok.1 h
    obtain ⟨y, h2, h⟩ := bind_eq_ok.1 h
    rw [pure_eq] at h
    rw [← Res.ok.inj h]
    have := (part_region h1).append (ih h2)
    have e : (b :: bs).filterMap blockAs = (blockAs b).toList ++ bs.filterMap blockAs := by
      cases hb : blockAs b <;> simp [hb]
    rw [e]
    exact this

/-- The name of a collection of blocks as it comes back. -/
def layerAs (u : Option Str × List Nat) : Str :=
  match nameValue u.1 with
  | .ok n => readAs n
  | _ => []

theorem part_unit {numbers : List (Nat × Nat)} {u : Option Str × List Nat} {ls : File} (h : writeLayer cs!"LAYER" numbers u = .ok ls) :
    Part ls [] [layerAs u] [] := by
  obtain ⟨name, list, hn, rfl, hl⟩ := layer_lines h
  have sp : split (cs!"LAYER" ++ spaced [name]) = cs!"LAYER" :: split name := by rw [split_kw_spaced' (by decide)]; simp
  have p : Part [cs!"LAYER" ++ spaced [name]] [] [layerAs u] [] := by
    refine ⟨by simp only [List.mem_singleton, forall_eq]; rfl, ?_, ?_, ?_⟩ <;> intro hc
    · simp only [List.filterMap_cons, List.filterMap_nil, regionName, sp]
      cases split name with
      | nil => rfl
      | cons w ws => cases ws <;> simp
    · have h3 := (hc _ List.mem_cons_self).2.1 (by rw [sp]; rfl)
      rw [sp] at h3
      simp only [List.filterMap_cons, List.filterMap_nil, layerName, sp, layerAs, hn, readAs]
      cases hs : split name with
      | nil => rw [hs] at h3; simp at h3
      | cons w ws => simp
    · simp only [List.filterMap_cons, List.filterMap_nil, layerName, sp]
      cases split name with
      | nil => rfl
      | cons w ws => simp
  exact p.append (part_silent hl)

theorem part_faultBlock {numbers : List (Nat × Nat)} {u : Option Str × List Nat} {ls : File} (h : writeLayer cs!"FAULT_BLOCK" numbers u = .ok ls) :
    Part ls [] [] [layerAs u] := by
  obtain ⟨name, list, hn, rfl, hl⟩ := layer_lines h
  have sp : split (cs!"FAULT_BLOCK" ++ spaced [name]) = cs!"FAULT_BLOCK" :: split name := by rw [split_kw_spaced' (by decide)]; simp
  have p : Part [cs!"FAULT_BLOCK" ++ spaced [name]] [] [] [layerAs u] := by
    refine ⟨by simp only [List.mem_singleton, forall_eq]; rfl, ?_, ?_, ?_⟩ <;> intro hc
    · simp only [List.filterMap_cons, List.filterMap_nil, regionName, sp]
      cases split name with
      | nil => rfl
      | cons w ws => cases ws <;> simp
    · simp only [List.filterMap_cons, List.filterMap_nil, layerName, sp]
      cases split name with
      | nil => rfl
      | cons w ws => simp
    · have h3 := (hc _ List.mem_cons_self).2.2 (by rw [sp]; rfl)
      rw [sp] at h3
      simp only [List.filterMap_cons, List.filterMap_nil, layerName, sp, layerAs, hn, readAs]
      cases hs : split name with
      | nil => rw [hs] at h3; simp at h3
      | cons w ws => simp
  exact p.append (part_silent hl)

theorem part_flatten {us : List (Option Str × List Nat)} {lss : List File} {P : Option Str × List Nat → File → Prop} (h : List.Forall₂ P us lss) {b u g : (Option Str × List Nat) → List Str}
    (hP : ∀ x ls, P x ls → Part ls (b x) (u x) (g x)) : Part lss.flatten (us.flatMap b) (us.flatMap u) (us.flatMap g) := by
  induction h with
  | nil => exact part_silent (by simp)
  | cons h1 _ ih => exact (hP _ _ h1).append ih

theorem flatMap_nil {A B : Type} (l : List A) : l.flatMap (fun _ => ([] : List B)) = [] := by simp
theorem flatMap_one {A B : Type} (f : A → B) (l : List A) : l.flatMap (fun x => [f x]) = l.map f := by induction l with
  | nil => rfl
  | cons a l ih => rw [List.flatMap_cons, ih]; rfl

/-- The units and fault blocks that are written: a `BRep` has none. -/
def unitsOf (m : Model D) : List (Option Str × List Nat) := if m.isBRep then [] else m.units
/-- See `unitsOf`. -/
def faultBlocksOf (m : Model D) : List (Option Str × List Nat) := if m.isBRep then [] else m.faultBlocks

theorem part_layers {m : Model D} {numbers : List (Nat × Nat)} {ls : File} (h : writeLayers m numbers = .ok ls) :
    Part ls [] ((unitsOf m).map layerAs) ((faultBlocksOf m).map layerAs) := by
  unfold writeLayers at h
  split at h
  · rename_i hb
    cases h
    simp only [unitsOf, faultBlocksOf, hb, if_true, List.map_nil]
    exact part_silent (by simp)
  · rename_i hb
    obtain ⟨x, h1, h⟩ := bind_eq_ok.1 h
    obtain ⟨y, h2, h⟩ := bind_eq_ok.1 h
    rw [pure_eq] at h
    rw [← Res.ok.inj h]
    rw [mapM'_iff] at h1 h2
    have p1 := part_flatten h1 (b := fun _ => []) (u := fun u => [layerAs u]) (g := fun _ => []) fun u ls h => part_unit h
    have p2 := part_flatten h2 (b := fun _ => []) (u := fun _ => []) (g := fun u => [layerAs u]) fun u ls h => part_faultBlock h
    have := p1.append p2
    simp only [flatMap_nil, flatMap_one, List.append_nil, List.nil_append] at this
    simp only [unitsOf, faultBlocksOf, hb]
    exact this

theorem layers_names (sel : Record → Option (Str × List Nat)) (rs : List Record) : ∀ s b, (layers sel s b rs).map Prod.fst = (rs.filterMap sel).map Prod.fst := by
  induction rs with
  | nil => intros; rfl
  | cons r rs ih =>
    intro s b
    rw [layers, List.map_append, ih]
    cases h : sel r <;> simp [h]

theorem block_names {as : List (Str × List Int)} {bs : List RBlock} (h : List.Forall₂ BlockOf as bs) : bs.map RBlock.name = as.map Prod.fst := by
  induction h with
  | nil => rfl
  | cons h _ ih => rw [List.map_cons, List.map_cons, ih, h.1]

/-- **The names that come back**, for every model whose file loads. -/
theorem names_back [LawfulNum D] (hp : PlainNumbers D) {m : Model D} {sides : Sides.AllSides} {f : File} (hf : saveMl m sides = .ok f) {L : Loaded D}
    (hL : loadMl f = .ok L) :
    L.blocks.map RBlock.name = m.blocks.filterMap blockAs ∧ L.units.map Prod.fst = (unitsOf m).map layerAs ∧
      L.faultBlocks.map Prod.fst = (faultBlocksOf m).map layerAs := by
  obtain ⟨P, hP⟩ := (ml_loads_iff f L).1 hL
  unfold saveMl at hf
  obtain ⟨comps, h1, hf⟩ := bind_eq_ok.1 hf
  obtain ⟨surfs, h2, hf⟩ := bind_eq_ok.1 hf
  rw [pure_eq] at hf
  have hfile : f = cs!"GOCAD Model3d 1" :: (writeHeader m.name ++ (writeCrs {} ++ (comps ++ surfs))) := by
    rw [← Res.ok.inj hf]; simp
  have e1 : (P.title, P.body) = (cs!"GOCAD Model3d 1", writeHeader m.name ++ (writeCrs {} ++ (comps ++ surfs))) := by
    have := goto_iff.2 P.titled
    have h0 : gotoKeyword cs!"GOCAD Model3d" f = .ok (cs!"GOCAD Model3d 1", writeHeader m.name ++ (writeCrs {} ++ (comps ++ surfs))) := by
      rw [hfile, gotoKeyword_here (by rfl)]
    exact Res.ok.inj (this.symm.trans h0)
  have e2 := P.header
  rw [(Prod.mk.inj e1).2, readHeader_writeHeader] at e2
  have e3 := P.system
  rw [← (Prod.mk.inj (Res.ok.inj e2)).2, readCrs_default] at e3
  have hrec := P.recordsRead
  rw [← (Prod.mk.inj (Res.ok.inj e3)).2] at hrec
  unfold writeComponents at h1
  obtain ⟨tsurfs, g1, h1⟩ := bind_eq_ok.1 h1
  obtain ⟨st, g2, h1⟩ := bind_eq_ok.1 h1
  obtain ⟨uni, g3, h1⟩ := bind_eq_ok.1 h1
  obtain ⟨regions, g4, h1⟩ := bind_eq_ok.1 h1
  obtain ⟨lay, g5, h1⟩ := bind_eq_ok.1 h1
  rw [pure_eq] at h1
  have ht : ∀ l ∈ tsurfs, Silent l := by
    obtain ⟨ns, _, n2⟩ := tsurfs_names g1
    rw [n2]
    intro l hl
    obtain ⟨n, _, rfl⟩ := List.mem_map.1 hl
    exact silent_kw (by decide) (fun _ => rfl) (by decide) _
  have part := ((((part_silent ht).append (part_silent (silent_tfaces hp g2))).append (part_universe g3)).append (part_blocks g4)).append (part_layers g5)
  simp only [List.append_nil, List.nil_append] at part
  have ec : comps ++ surfs = (tsurfs ++ st.out ++ uni ++ regions ++ lay) ++ cs!"END" :: surfs := by
    rw [← Res.ok.inj h1]; simp
  rw [ec] at hrec
  obtain ⟨pre, e, he, hend, a⟩ := records_names hrec
  have hpre := prefix_unique he.symm a.ends part.ends hend rfl
  have hc := a.complete
  have ab := a.blocks
  have au := a.units
  have af := a.faultBlocks
  rw [hpre] at hc ab au af
  rw [part.blocks hc] at ab
  rw [part.units hc] at au
  rw [part.faultBlocks hc] at af
  refine ⟨?_, ?_, ?_⟩
  · rw [← ab]
    exact block_names hP.blocks
  · rw [hP.units, layers_names, au]
  · rw [hP.faultBlocks, layers_names, af]

/-- **As many blocks come back, exactly when none is named `Universe`**, up to blanks, for every model whose file loads. -/
theorem blocks_kept_iff [LawfulNum D] (hp : PlainNumbers D) {m : Model D} {sides : Sides.AllSides} {f : File} (hf : saveMl m sides = .ok f) {L : Loaded D}
    (hL : loadMl f = .ok L) : L.blocks.length = m.blocks.length ↔ ∀ b ∈ m.blocks, readAs (componentName b.name) ≠ cs!"Universe" := by
  have h := congrArg List.length (names_back hp hf hL).1
  rw [List.length_map] at h
  rw [h]
  generalize m.blocks = bs
  have le : ∀ bs : List Block, (bs.filterMap blockAs).length ≤ bs.length := fun bs => List.length_filterMap_le _ _
  induction bs with
  | nil => simp
  | cons b bs ih =>
    have := le bs
    by_cases hu : readAs (componentName b.name) = cs!"Universe"
    · have e : blockAs b = none := by simp [blockAs, hu]
      rw [List.filterMap_cons_none e, List.length_cons]
      constructor
      · intro h; omega
      · intro h; exact absurd hu (h b List.mem_cons_self)
    · have e : blockAs b = some (readAs (componentName b.name)) := by simp [blockAs, hu]
      rw [List.filterMap_cons_some e, List.length_cons, List.length_cons, List.forall_mem_cons]
      constructor
      · intro h; exact ⟨hu, ih.1 (by omega)⟩
      · intro h; have := ih.2 h.2; omega

/-- The blocks lost are those named `Universe`, whatever the model: it comes back with less blocks as soon as it has one. -/
theorem universe_lost [LawfulNum D] (hp : PlainNumbers D) {m : Model D} {sides : Sides.AllSides} {f : File} (hf : saveMl m sides = .ok f) {L : Loaded D}
    (hL : loadMl f = .ok L) {b : Block} (hb : b ∈ m.blocks) (hu : readAs (componentName b.name) = cs!"Universe") : L.blocks.length < m.blocks.length := by
  have h := congrArg List.length (names_back hp hf hL).1
  rw [List.length_map] at h
  have le : L.blocks.length ≤ m.blocks.length := by rw [h]; exact List.length_filterMap_le _ _
  rcases Nat.lt_or_eq_of_le le with h | h
  · exact h
  · exact absurd hu ((blocks_kept_iff hp hf hL).1 h b hb)

/-- Tests: names of blocks and how they are read. -/
example : readAs cs!"Universe" = cs!"Universe" ∧ readAs cs!" Universe  " = cs!"Universe" ∧ readAs cs!"\"Universe\"" = cs!"Universe" ∧
    readAs cs!"Universe 2" = cs!"Universe 2" := by
  refine ⟨?_, ?_, ?_, ?_⟩ <;> decide +kernel

/-- A test: a model with two blocks and a unit, one block being named `Universe`, is saved and loaded with one block and the unit. -/
example : (match saveMl { MlCases.universeBlock with
      blocks := [⟨11, cs!"Universe", [1, 2], []⟩, ⟨12, cs!"b", [1, 2], []⟩], units := [(some cs!"u", [12])] }
      { MlCases.someSides with regions := MlCases.someSides.regions ++ [((12, 1), true), ((12, 2), true)] } >>= fun f => (loadMl f : Res (Loaded Int)) with
    | .ok L => decide (L.blocks.map RBlock.name = [cs!"b"] ∧ L.units.map Prod.fst = [cs!"u"])
    | _ => false) = true := by decide +kernel

end Verif.Props.MlNames
