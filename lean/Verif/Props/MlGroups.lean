import Verif.Props.MlOutcomes
import Verif.Lemmas.MlModel

/-!
# The collections of saved ML models

The `TSURF` and `TFACE` lines of a file saved from any model, and what they must be for the file to load.
-/

set_option linter.unusedSectionVars false

namespace Verif.Props.MlGroups

open Verif Verif.Gocad Verif.GocadMesh Verif.Ml Res
open Verif.Props.MlOutcomes (Record Records Listed names faces Parts ml_loads_iff groups_of_loaded)
open Verif.Props.WlOutcomes (First goto_iff)
open Verif.Props.PropHeaders (mapM'_iff)

variable {D : Type} [Num D]

/-! ## Lines -/

theorem mem_of_split {s : Str} : ∀ {t : Str}, t ∈ split s → ∀ c ∈ t, c ∈ s := by
  induction s with
  | nil => intro t ht; cases ht
  | cons x s ih =>
    intro t ht c hc
    by_cases hx : isWs x = true
    · rw [split_cons_ws hx] at ht
      exact List.mem_cons_of_mem _ (ih ht c hc)
    · have hx : isWs x = false := by simpa using hx
      cases s with
      | nil =>
        rw [split_single hx] at ht
        rw [List.mem_singleton.1 ht] at hc
        exact hc
      | cons y s =>
        by_cases hy : isWs y = true
        · rw [split_cons_then_ws hx hy] at ht
          rcases List.mem_cons.1 ht with rfl | ht
          · rw [List.mem_singleton.1 hc]; exact List.mem_cons_self
          · exact List.mem_cons_of_mem _ (ih (by rw [split_cons_ws hy]; exact ht) c hc)
        · have hy : isWs y = false := by simpa using hy
          obtain ⟨u, us, h1, h2⟩ := split_cons_cons hx hy s
          rw [h2] at ht
          rcases List.mem_cons.1 ht with rfl | ht
          · rcases List.mem_cons.1 hc with rfl | hc
            · exact List.mem_cons_self
            · exact List.mem_cons_of_mem _ (ih (by rw [h1]; exact List.mem_cons_self) c hc)
          · exact List.mem_cons_of_mem _ (ih (by rw [h1]; exact List.mem_cons_of_mem _ ht) c hc)

theorem split_head {c : Char} (h : isWs c = false) (s : Str) : ∃ t ts, split (c :: s) = (c :: t) :: ts := by
  cases s with
  | nil => exact ⟨[], [], split_single h⟩
  | cons d s =>
    by_cases hd : isWs d = true
    · exact ⟨[], _, split_cons_then_ws h hd s⟩
    · obtain ⟨t, ts, _, h2⟩ := split_cons_cons h (by simpa using hd) s
      exact ⟨t, ts, h2⟩

/-- The numbers of the lists do not start with `E`. -/
def NoE {A : Type} (num : Str → Option A) : Prop := ∀ t, num ('E' :: t) = none

theorem noE_int : NoE parseInt := fun _ => rfl
theorem noE_index : NoE parseIndex := fun _ => rfl

theorem end_starts {l : Str} (h : startsWith l cs!"END" = true) : ∃ t ts, split l = ('E' :: t) :: ts := by
  unfold startsWith at h
  cases l with
  | nil => cases h
  | cons c l =>
    have : c = 'E' := by
      simp [List.isPrefixOf] at h
      exact h.1.symm
    subst this
    exact split_head rfl l

theorem listed_no_end {A : Type} {num : Str → Option A} (hE : NoE num) {zero : A} {f : File} {vs : List A} {rest : File} (h : Listed num zero f vs rest) :
    ∃ pre, f = pre ++ rest ∧ ∀ l ∈ pre, startsWith l cs!"END" = false := by
  obtain ⟨ls, l, a, z, b, rfl, hs, hz, hv⟩ := h
  have hall : ∀ w ∈ ls.flatMap split ++ a, ∃ v, num w = some v := by
    intro w hw
    obtain ⟨i, hi, rfl⟩ := List.getElem_of_mem hw
    have := hv.get hi (by rw [← hv.length_eq]; exact hi)
    exact ⟨_, this.1⟩
  refine ⟨ls ++ [l], by simp, fun x hx => ?_⟩
  rw [← Bool.not_eq_true]
  intro he
  obtain ⟨t, ts, e⟩ := end_starts he
  rcases List.mem_append.1 hx with hx | hx
  · obtain ⟨v, hv⟩ := hall ('E' :: t) (List.mem_append_left _ (List.mem_flatMap.2 ⟨x, hx, by rw [e]; exact List.mem_cons_self⟩))
    rw [hE] at hv; cases hv
  · rw [List.mem_singleton.1 hx] at e
    rw [hs] at e
    cases a with
    | nil =>
      cases (List.cons.inj e).1
      rw [hE] at hz; cases hz
    | cons w a =>
      cases (List.cons.inj e).1
      obtain ⟨v, hv⟩ := hall ('E' :: t) (List.mem_append_right _ List.mem_cons_self)
      rw [hE] at hv; cases hv

/-- A line that announces a surface of a group. -/
def Announces (l : Str) (feature name : Str) : Prop := ∃ a w ws, split l = cs!"TFACE" :: a :: feature :: w :: ws ∧ readName (w :: ws) = name

/-- The surfaces are announced by lines before the first one that starts with `END`. -/
theorem records_prefix {f : File} {rs : List Record} {rest : File} (h : Records f rs rest) :
    ∃ pre e, f = pre ++ e :: rest ∧ startsWith e cs!"END" = true ∧ (∀ l ∈ pre, startsWith l cs!"END" = false) ∧
      ∀ x ∈ faces rs, ∃ l ∈ pre, Announces l x.1 x.2 := by
  have step : ∀ {l : Str} {ls mid f : File} {qs : List Record} {rest : File}, startsWith l cs!"END" = false → ls = mid ++ f → (∀ l ∈ mid, startsWith l cs!"END" = false) →
      (∃ pre e, f = pre ++ e :: rest ∧ startsWith e cs!"END" = true ∧ (∀ l ∈ pre, startsWith l cs!"END" = false) ∧ ∀ x ∈ faces qs, ∃ l ∈ pre, Announces l x.1 x.2) →
      ∃ pre e, l :: ls = pre ++ e :: rest ∧ startsWith e cs!"END" = true ∧ (∀ l ∈ pre, startsWith l cs!"END" = false) ∧ ∀ x ∈ faces qs, ∃ l ∈ pre, Announces l x.1 x.2 := by
    rintro l ls mid f qs rest hl rfl hm ⟨pre, e, rfl, he, hp, hf⟩
    refine ⟨l :: (mid ++ pre), e, by simp, he, ?_, fun x hx => ?_⟩
    · intro y hy
      rcases List.mem_cons.1 hy with rfl | hy
      · exact hl
      · rcases List.mem_append.1 hy with hy | hy
        · exact hm y hy
        · exact hp y hy
    · obtain ⟨y, hy, ha⟩ := hf x hx
      exact ⟨y, List.mem_cons_of_mem _ (List.mem_append_right _ hy), ha⟩
  induction h with
  | @done l rest h => exact ⟨[], l, rfl, h, by simp, by intro x hx; cases hx⟩
  | @tsurf l w ws ls rs rest h h1 h2 ih =>
    have := step (mid := []) h rfl (by simp) ih
    exact this
  | @tface l a feature w ws ls rs rest h h1 h2 ih =>
    obtain ⟨pre, e, rfl, he, hp, hf⟩ := ih
    refine ⟨l :: pre, e, rfl, he, ?_, ?_⟩
    · intro y hy
      rcases List.mem_cons.1 hy with rfl | hy
      · exact h
      · exact hp y hy
    · intro x hx
      rcases List.mem_cons.1 (show x ∈ (feature, readName (w :: ws)) :: faces rs from hx) with rfl | hx
      · exact ⟨l, List.mem_cons_self, a, w, ws, h1, rfl⟩
      · obtain ⟨y, hy, ha⟩ := hf x hx
        exact ⟨y, List.mem_cons_of_mem _ hy, ha⟩
  | @outside l a w ws ls ns f rs rest h h1 h2 h3 h4 ih =>
    obtain ⟨mid, e, hm⟩ := listed_no_end noE_int h3
    exact step h e hm ih
  | @block l a w ws ls ns f rs rest h h1 h2 h3 h4 ih =>
    obtain ⟨mid, e, hm⟩ := listed_no_end noE_int h3
    exact step h e hm ih
  | @layer l w ws ls ns f rs rest h h1 h3 h4 ih =>
    obtain ⟨mid, e, hm⟩ := listed_no_end noE_index h3
    exact step h e hm ih
  | @faultBlock l w ws ls ns f rs rest h h1 h3 h4 ih =>
    obtain ⟨mid, e, hm⟩ := listed_no_end noE_index h3
    exact step h e hm ih
  | @other l k w ws ls rs rest h h1 h2 h3 ih => exact step (mid := []) h rfl (by simp) ih

/-- The name of a group as it is read. -/
def readAs (n : Str) : Str := readName (split n)

theorem records_tsurfs {g : File} {rest : File} : ∀ (ns : List Str) {rs : List Record}, Records (ns.map (fun n => cs!"TSURF" ++ spaced [n]) ++ g) rs rest →
    ∃ qs, rs = ns.map (fun n => Record.tsurf (readAs n)) ++ qs ∧ Records g qs rest := by
  intro ns
  induction ns with
  | nil => intro rs h; exact ⟨rs, rfl, h⟩
  | cons n ns ih =>
    intro rs h
    have hs : split (cs!"TSURF" ++ spaced [n]) = cs!"TSURF" :: split n := by
      rw [split_kw_spaced' (by decide)]; simp
    have he : startsWith (cs!"TSURF" ++ spaced [n]) cs!"END" = false := rfl
    rw [List.map_cons, List.cons_append] at h
    generalize hl : cs!"TSURF" ++ spaced [n] = l at h hs he
    cases h with
    | done h => rw [he] at h; cases h
    | @tsurf _ w ws ls rs rest h h1 h2 =>
      obtain ⟨qs, e, hq⟩ := ih h2
      rw [hs] at h1
      refine ⟨qs, ?_, hq⟩
      rw [e, ← (List.cons.inj h1).2]
      rfl
    | tface h h1 h2 => rw [hs] at h1; exact absurd (List.cons.inj h1).1 (by decide)
    | outside h h1 h2 => rw [hs] at h1; exact absurd (List.cons.inj h1).1 (by decide)
    | block h h1 h2 => rw [hs] at h1; exact absurd (List.cons.inj h1).1 (by decide)
    | layer h h1 h2 => rw [hs] at h1; exact absurd (List.cons.inj h1).1 (by decide)
    | faultBlock h h1 h2 => rw [hs] at h1; exact absurd (List.cons.inj h1).1 (by decide)
    | other h h1 h2 =>
      rw [hs] at h1
      rw [← (List.cons.inj h1).1] at h2
      exact absurd (by decide) h2

/-! ## Writing -/

/-- A line that announces only surfaces of groups with one of these names. -/
def Among (S : List Str) (l : Str) : Prop := ∀ feature name, Announces l feature name → name ∈ S

theorem among_of_head {S : List Str} {l t : Str} {ts : List Str} (h : split l = t :: ts) (ht : t ≠ cs!"TFACE") : Among S l := by
  rintro feature name ⟨a, w, ws, e, _⟩
  rw [h] at e
  exact absurd (List.cons.inj e).1 ht

theorem among_of_chars {S : List Str} {l : Str} (h : 'T' ∉ l) : Among S l := by
  rintro feature name ⟨a, w, ws, e, _⟩
  exact absurd (mem_of_split (s := l) (t := cs!"TFACE") (by rw [e]; exact List.mem_cons_self) 'T' (by decide)) h

theorem among_kw {S : List Str} {kw : Str} (hk : IsTok kw) (ht : kw ≠ cs!"TFACE") (xs : List Str) : Among S (kw ++ spaced xs) :=
  among_of_head (split_kw_spaced' hk xs) ht

theorem noT_showNat (n : Nat) : 'T' ∉ showNat n := by
  intro h
  have hp := parseNat_showNat n
  have : ∀ (s : Str) (k : Nat), 'T' ∈ s → digitsVal k s = none := by
    intro s
    induction s with
    | nil => intro k h; cases h
    | cons c s ih =>
      intro k hc
      rw [digitsVal]
      by_cases e : c = 'T'
      · subst e; rfl
      · rcases List.mem_cons.1 hc with hc | hc
        · exact absurd hc.symm e
        · cases digitVal c with
          | none => rfl
          | some d => exact ih _ hc
  unfold parseNat at hp
  cases hs : showNat n with
  | nil => rw [hs] at h; cases h
  | cons c s =>
    rw [hs] at hp h
    simp only at hp
    rw [this _ 0 h] at hp
    cases hp

theorem wrapped_chars {c : Char} (h0 : c ≠ '0') (h1 : c ≠ ' ') : ∀ (xs : List Str) (cur : Str) (k : Nat), c ∉ cur → (∀ x ∈ xs, c ∉ x) →
    ∀ l ∈ wrapped cur k xs, c ∉ l := by
  intro xs
  induction xs with
  | nil =>
    intro cur k hc _ l hl
    rw [wrapped, List.mem_singleton] at hl
    subst hl
    simp [hc, h0]
  | cons x xs ih =>
    intro cur k hc hx l hl
    have hcur : c ∉ cur ++ x ++ cs!"  " := by simp [hc, h1, hx x List.mem_cons_self]
    have hx' : ∀ y ∈ xs, c ∉ y := fun y hy => hx y (List.mem_cons_of_mem _ hy)
    rw [wrapped] at hl
    split at hl
    · rcases List.mem_cons.1 hl with rfl | hl
      · exact hcur
      · exact ih _ _ (by simp [h1]) hx' l hl
    · exact ih _ _ hcur hx' l hl

theorem among_wrapped {S : List Str} {xs : List Str} (h : ∀ x ∈ xs, 'T' ∉ x) : ∀ l ∈ wrapped cs!"  " 0 xs, Among S l := fun l hl =>
  among_of_chars (wrapped_chars (by decide) (by decide) xs _ _ (by decide) h l hl)

theorem noT_signed (side : Bool) (n : Nat) : 'T' ∉ signed side n := by
  unfold signed
  intro h
  rcases List.mem_cons.1 h with h | h
  · cases side <;> revert h <;> decide
  · exact noT_showNat n h

theorem mapM_mem {A B : Type} {f : A → Res B} {l : List A} {bs : List B} (h : Res.mapM' f l = .ok bs) {b : B} (hb : b ∈ bs) : ∃ a ∈ l, f a = .ok b := by
  rw [mapM'_iff] at h
  induction h with
  | nil => cases hb
  | cons h1 _ ih =>
    rcases List.mem_cons.1 hb with rfl | hb
    · exact ⟨_, List.mem_cons_self, h1⟩
    · obtain ⟨a, ha, e⟩ := ih hb
      exact ⟨a, List.mem_cons_of_mem _ ha, e⟩

theorem among_universe {S : List Str} {m : Model D} {sides : Sides.AllSides} {comps : List (Nat × Nat)} {n : Nat} {ls : File}
    (h : writeUniverse m sides comps n = .ok ls) : ∀ l ∈ ls, Among S l := by
  unfold writeUniverse at h
  obtain ⟨items, h1, h⟩ := bind_eq_ok.1 h
  rw [pure_eq] at h
  rw [← Res.ok.inj h]
  intro l hl
  rcases List.mem_cons.1 hl with rfl | hl
  · obtain ⟨t, ts, e⟩ := split_head (c := 'R') rfl (cs!"EGION " ++ showNat n ++ cs!"  Universe ")
    exact among_of_head (t := 'R' :: t) (ts := ts) e (by intro h; cases h)
  · refine among_wrapped (fun x hx => ?_) l hl
    obtain ⟨i, _, e⟩ := mapM_mem h1 hx
    obtain ⟨side, _, e⟩ := bind_eq_ok.1 e
    obtain ⟨k, _, e⟩ := bind_eq_ok.1 e
    rw [pure_eq] at e
    rw [← Res.ok.inj e]
    exact noT_signed _ _

theorem among_region {S : List Str} {sides : Sides.AllSides} {comps : List (Nat × Nat)} {n : Nat} {b : Block} {ls : File}
    (h : writeRegion sides comps n b = .ok ls) : ∀ l ∈ ls, Among S l := by
  unfold writeRegion at h
  obtain ⟨bounds, h1, h⟩ := bind_eq_ok.1 h
  obtain ⟨inner, h2, h⟩ := bind_eq_ok.1 h
  rw [pure_eq] at h
  rw [← Res.ok.inj h]
  intro l hl
  rcases List.mem_cons.1 hl with rfl | hl
  · exact among_kw (by decide) (by decide) _
  · refine among_wrapped (fun x hx => ?_) l hl
    rcases List.mem_append.1 hx with hx | hx
    · obtain ⟨i, _, e⟩ := mapM_mem h1 hx
      obtain ⟨side, _, e⟩ := bind_eq_ok.1 e
      obtain ⟨k, _, e⟩ := bind_eq_ok.1 e
      rw [pure_eq] at e
      rw [← Res.ok.inj e]
      exact noT_signed _ _
    · obtain ⟨y, hy, hx⟩ := List.mem_flatten.1 hx
      obtain ⟨i, _, e⟩ := mapM_mem h2 hy
      obtain ⟨k, _, e⟩ := bind_eq_ok.1 e
      rw [pure_eq] at e
      rw [← Res.ok.inj e] at hx
      simp only [List.mem_cons, List.not_mem_nil, or_false] at hx
      rcases hx with rfl | rfl <;> exact noT_signed _ _

theorem among_blocks {S : List Str} {sides : Sides.AllSides} {comps : List (Nat × Nat)} : ∀ {bs : List Block} {n : Nat} {ls : File},
    writeBlocks sides comps n bs = .ok ls → ∀ l ∈ ls, Among S l := by
  intro bs
  induction bs with
  | nil => intro n ls h; cases h; intro l hl; cases hl
  | cons b bs ih =>
    intro n ls h
    rw [writeBlocks] at h
    obtain ⟨x, h1, h⟩ := bind_eq_ok.1 h
    obtain ⟨y, h2, h⟩ := bind_eq_ok.1 h
    rw [pure_eq] at h
    rw [← Res.ok.inj h]
    intro l hl
    rcases List.mem_append.1 hl with hl | hl
    · exact among_region h1 l hl
    · exact ih h2 l hl

theorem among_layer {S : List Str} {kw : Str} (hk : IsTok kw) (ht : kw ≠ cs!"TFACE") {numbers : List (Nat × Nat)} {u : Option Str × List Nat} {ls : File}
    (h : writeLayer kw numbers u = .ok ls) : ∀ l ∈ ls, Among S l := by
  unfold writeLayer at h
  obtain ⟨name, h1, h⟩ := bind_eq_ok.1 h
  obtain ⟨items, h2, h⟩ := bind_eq_ok.1 h
  rw [pure_eq] at h
  rw [← Res.ok.inj h]
  intro l hl
  rcases List.mem_cons.1 hl with rfl | hl
  · exact among_kw hk ht _
  · refine among_wrapped (fun x hx => ?_) l hl
    obtain ⟨i, _, e⟩ := mapM_mem h2 hx
    obtain ⟨k, _, e⟩ := bind_eq_ok.1 e
    rw [pure_eq] at e
    rw [← Res.ok.inj e]
    exact noT_showNat _

theorem among_layers {S : List Str} {m : Model D} {numbers : List (Nat × Nat)} {ls : File} (h : writeLayers m numbers = .ok ls) : ∀ l ∈ ls, Among S l := by
  unfold writeLayers at h
  split at h
  · cases h; intro l hl; cases hl
  · obtain ⟨x, h1, h⟩ := bind_eq_ok.1 h
    obtain ⟨y, h2, h⟩ := bind_eq_ok.1 h
    rw [pure_eq] at h
    rw [← Res.ok.inj h]
    intro l hl
    rcases List.mem_append.1 hl with hl | hl
    · obtain ⟨z, hz, hl⟩ := List.mem_flatten.1 hl
      obtain ⟨u, _, e⟩ := mapM_mem h1 hz
      exact among_layer (by decide) (by decide) e l hl
    · obtain ⟨z, hz, hl⟩ := List.mem_flatten.1 hl
      obtain ⟨u, _, e⟩ := mapM_mem h2 hz
      exact among_layer (by decide) (by decide) e l hl

/-! ### The surfaces -/

theorem among_key [LawfulNum D] (hp : PlainNumbers D) {S : List Str} {s : Ml.Surface D} {ls : File} (h : keyTriangle s = .ok ls) : ∀ l ∈ ls, Among S l := by
  have line : ∀ {v : Nat} {l : Str}, keyLine s v = .ok l → Among S l := by
    intro v l h
    unfold keyLine at h
    obtain ⟨p, _, h⟩ := bind_eq_ok.1 h
    rw [pure_eq] at h
    rw [← Res.ok.inj h]
    have e : split (cs!"  " ++ join p.toks) = p.toks := by
      have : cs!"  " ++ join p.toks = ' ' :: ' ' :: join p.toks := rfl
      rw [this, split_space, split_space, split_join (isTok_toks p)]
    exact among_of_head e fun hf => hp p.x (by rw [hf]; decide)
  unfold keyTriangle at h
  obtain ⟨t, _, h⟩ := bind_eq_ok.1 h
  obtain ⟨a, ha, h⟩ := bind_eq_ok.1 h
  obtain ⟨b, hb, h⟩ := bind_eq_ok.1 h
  obtain ⟨c, hc, h⟩ := bind_eq_ok.1 h
  rw [pure_eq] at h
  rw [← Res.ok.inj h]
  intro l hl
  simp only [List.mem_cons, List.not_mem_nil, or_false] at hl
  rcases hl with rfl | rfl | rfl
  · exact line ha
  · exact line hb
  · exact line hc

/-- The surface has a number. -/
def Written (st : Faces) (i : Nat) : Prop := st.comps.any (fun e => e.1 = i) = true

theorem emplace_any {comps : List (Nat × Nat)} {i j n : Nat} : (Sides.emplace comps j n).any (fun e => e.1 = i) = true ↔ comps.any (fun e => e.1 = i) = true ∨ i = j := by
  unfold Sides.emplace
  split
  · rename_i h
    constructor
    · exact .inl
    · rintro (h' | rfl)
      · exact h'
      · exact h
  · rw [List.any_append, Bool.or_eq_true]
    refine or_congr Iff.rfl ⟨fun h => ?_, fun h => ?_⟩
    · rw [List.any_cons, List.any_nil, Bool.or_false] at h
      exact (of_decide_eq_true h).symm
    · rw [List.any_cons, List.any_nil, Bool.or_false]
      exact decide_eq_true h.symm

theorem face_step [LawfulNum D] (hp : PlainNumbers D) {S : List Str} {st st' : Faces} {kind name : Str} {s : Ml.Surface D} (hk : IsTok kind) (hn : readAs name ∈ S)
    (h : writeFace st kind name s = .ok st') (ho : ∀ l ∈ st.out, Among S l) : (∀ l ∈ st'.out, Among S l) ∧ (∀ i, Written st i → Written st' i) ∧ Written st' s.id := by
  unfold writeFace at h
  obtain ⟨key, h1, h⟩ := bind_eq_ok.1 h
  rw [pure_eq] at h
  rw [← Res.ok.inj h]
  refine ⟨?_, fun i hi => emplace_any.2 (.inl hi), emplace_any.2 (.inr rfl)⟩
  intro l hl
  rcases List.mem_append.1 hl with hl | hl
  · exact ho l hl
  rcases List.mem_cons.1 hl with rfl | hl
  · rintro feature n ⟨a, w, ws, e, rfl⟩
    have hs : split (cs!"TFACE" ++ spaced [showNat st.next, kind, name]) = cs!"TFACE" :: showNat st.next :: kind :: split name := by
      rw [split_kw_spaced' (by decide)]
      simp [split_tok (isTok_showNat st.next), split_tok hk]
    rw [hs] at e
    have := (List.cons.inj (List.cons.inj (List.cons.inj e).2).2).2
    rw [← this]
    exact hn
  · exact among_key hp h1 l hl

theorem surfaceOf_id' {m : Model D} {i : Nat} {s : Ml.Surface D} (h : surfaceOf m i = .ok s) : s.id = i := by
  unfold surfaceOf at h
  cases hf : m.surfaces.find? (fun s => s.id = i) with
  | none => rw [hf] at h; cases h
  | some x =>
    rw [hf] at h
    rw [← Res.ok.inj h]
    simpa using List.find?_some hf

theorem item_step [LawfulNum D] (hp : PlainNumbers D) {S : List Str} {m : Model D} {kind name : Res Str} {st st' : Faces} {i : Nat} (hk : ∀ k, kind = .ok k → IsTok k)
    (hn : Written st i ∨ ∀ n, name = .ok n → readAs n ∈ S) (h : writeItem m kind name st i = .ok st') (ho : ∀ l ∈ st.out, Among S l) :
    (∀ l ∈ st'.out, Among S l) ∧ (∀ i, Written st i → Written st' i) ∧ Written st' i := by
  unfold writeItem at h
  split at h
  · rename_i hw
    cases h
    exact ⟨ho, fun _ h => h, hw⟩
  · rename_i hw
    obtain ⟨k, h1, h⟩ := bind_eq_ok.1 h
    obtain ⟨n, h2, h⟩ := bind_eq_ok.1 h
    obtain ⟨s, h3, h⟩ := bind_eq_ok.1 h
    obtain ⟨r1, r2, r3⟩ := face_step hp (hk k h1) (hn.resolve_left hw n h2) h ho
    exact ⟨r1, r2, surfaceOf_id' h3 ▸ r3⟩

theorem items_step [LawfulNum D] (hp : PlainNumbers D) {S : List Str} {m : Model D} {kind name : Res Str} (hk : ∀ k, kind = .ok k → IsTok k) :
    ∀ (is : List Nat) {st st' : Faces}, ((∀ n, name = .ok n → readAs n ∈ S) ∨ ∀ i ∈ is, Written st i) → Res.foldM' (writeItem m kind name) st is = .ok st' →
      (∀ l ∈ st.out, Among S l) → (∀ l ∈ st'.out, Among S l) ∧ (∀ i, Written st i → Written st' i) ∧ ∀ i ∈ is, Written st' i := by
  intro is
  induction is with
  | nil => intro st st' _ h ho; cases h; exact ⟨ho, fun _ h => h, by simp⟩
  | cons i is ih =>
    intro st st' hn h ho
    rw [Res.foldM'_cons] at h
    obtain ⟨s1, h1, h⟩ := bind_eq_ok.1 h
    obtain ⟨a1, a2, a3⟩ := item_step hp hk (hn.elim .inr fun h => .inl (h i List.mem_cons_self)) h1 ho
    obtain ⟨b1, b2, b3⟩ := ih (hn.imp id fun h j hj => a2 j (h j (List.mem_cons_of_mem _ hj))) h a1
    refine ⟨b1, fun j hj => b2 j (a2 j hj), fun j hj => ?_⟩
    rcases List.mem_cons.1 hj with rfl | hj
    · exact b2 _ a3
    · exact b3 j hj

/-- A collection, as it is written. -/
abbrev Group : Type := Res Str × Res Str × List Nat

theorem groups_step [LawfulNum D] (hp : PlainNumbers D) {S : List Str} {m : Model D} :
    ∀ (cs : List Group) {st st' : Faces}, (∀ c ∈ cs, ∀ k, c.1 = .ok k → IsTok k) → (∀ c ∈ cs, ∀ n, c.2.1 = .ok n → readAs n ∈ S) →
      Res.foldM' (fun st (c : Group) => Res.foldM' (writeItem m c.1 c.2.1) st c.2.2) st cs = .ok st' →
      (∀ l ∈ st.out, Among S l) → (∀ l ∈ st'.out, Among S l) ∧ (∀ i, Written st i → Written st' i) ∧ ∀ c ∈ cs, ∀ i ∈ c.2.2, Written st' i := by
  intro cs
  induction cs with
  | nil => intro st st' _ _ h ho; cases h; exact ⟨ho, fun _ h => h, by simp⟩
  | cons c cs ih =>
    intro st st' hk hn h ho
    rw [Res.foldM'_cons] at h
    obtain ⟨s1, h1, h⟩ := bind_eq_ok.1 h
    obtain ⟨a1, a2, a3⟩ := items_step hp (hk c List.mem_cons_self) _ (.inl (hn c List.mem_cons_self)) h1 ho
    obtain ⟨b1, b2, b3⟩ := ih (fun c hc => hk c (List.mem_cons_of_mem _ hc)) (fun c hc => hn c (List.mem_cons_of_mem _ hc)) h a1
    refine ⟨b1, fun j hj => b2 j (a2 j hj), fun d hd j hj => ?_⟩
    rcases List.mem_cons.1 hd with rfl | hd
    · exact b2 _ (a3 j hj)
    · exact b3 d hd j hj

theorem loose_step [LawfulNum D] (hp : PlainNumbers D) {S : List Str} :
    ∀ (ss : List (Ml.Surface D)) {st st' : Faces}, (∀ s ∈ ss, readAs (componentName s.name) ∈ S) →
      Res.foldM' (fun st (s : Ml.Surface D) => writeFace st cs!"boundary" (componentName s.name) s) st ss = .ok st' →
      (∀ l ∈ st.out, Among S l) → ∀ l ∈ st'.out, Among S l := by
  intro ss
  induction ss with
  | nil => intro st st' _ h ho; cases h; exact ho
  | cons s ss ih =>
    intro st st' hn h ho
    rw [Res.foldM'_cons] at h
    obtain ⟨s1, h1, h⟩ := bind_eq_ok.1 h
    exact ih (fun c hc => hn c (List.mem_cons_of_mem _ hc)) h (face_step hp (by decide) (hn s List.mem_cons_self) h1 ho).1

/-! ## The groups -/

theorem kinds_tok (m : Model D) : ∀ c ∈ collections m, ∀ k, c.1 = .ok k → IsTok k := by
  intro c hc k hk
  unfold collections at hc
  rcases List.mem_append.1 hc with hc | hc
  · rcases List.mem_append.1 hc with hc | hc
    · obtain ⟨b, _, rfl⟩ := List.mem_map.1 hc
      cases hk; decide
    · obtain ⟨f, _, rfl⟩ := List.mem_map.1 hc
      cases hk
      cases f.1 <;> decide
  · obtain ⟨h, _, rfl⟩ := List.mem_map.1 hc
    simp only at hk
    cases e : h.1 <;> rw [e] at hk <;> cases hk <;> decide

/-- The names of the `TSURF` lines: those of the collections, then those of the surfaces in no collection. -/
theorem tsurfs_names {m : Model D} {ls : File} (h : writeTsurfs m = .ok ls) :
    ∃ ns, List.Forall₂ (fun (c : Group) n => c.2.1 = .ok n) (collections m) ns ∧
      ls = (ns ++ (unclassified m).map fun s => componentName s.name).map fun n => cs!"TSURF" ++ spaced [n] := by
  unfold writeTsurfs at h
  obtain ⟨fs, h1, h⟩ := bind_eq_ok.1 h
  obtain ⟨hs, h2, h⟩ := bind_eq_ok.1 h
  rw [pure_eq] at h
  rw [mapM'_iff] at h1 h2
  refine ⟨m.boundaries.map (fun b => componentName b.1) ++ fs ++ hs, ?_, (Res.ok.inj h).symm⟩
  unfold collections
  refine forall₂_append (forall₂_append ?_ ?_) ?_
  · exact forall₂_map fun _ _ => rfl
  · exact List.forall₂_map_left_iff.2 h1
  · exact List.forall₂_map_left_iff.2 h2

/-- **Every collection has a surface of its own**: when a saved model loads, each collection has a surface that is in no collection before it. -/
theorem own_surface [LawfulNum D] (hp : PlainNumbers D) {m : Model D} {sides : Sides.AllSides} {f : File} (hf : saveMl m sides = .ok f) {L : Loaded D}
    (hL : loadMl f = .ok L) {pre post : List Group} {c : Group} (hc : collections m = pre ++ c :: post) : ∃ i ∈ c.2.2, ∀ d ∈ pre, i ∉ d.2.2 := by
  by_contra hno
  have hno : ∀ i ∈ c.2.2, ∃ d ∈ pre, i ∈ d.2.2 := by
    intro i hi
    by_contra h
    exact hno ⟨i, hi, fun d hd hm => h ⟨d, hd, hm⟩⟩
  obtain ⟨P, hP, hdist, hin⟩ := groups_of_loaded hL
  unfold saveMl at hf
  obtain ⟨comps, h1, hf⟩ := bind_eq_ok.1 hf
  obtain ⟨surfs, h2, hf⟩ := bind_eq_ok.1 hf
  rw [pure_eq] at hf
  have hfile : f = cs!"GOCAD Model3d 1" :: (writeHeader m.name ++ (writeCrs {} ++ (comps ++ surfs))) := by
    rw [← Res.ok.inj hf]; simp
  have e1 : (P.title, P.body) = (cs!"GOCAD Model3d 1", writeHeader m.name ++ (writeCrs {} ++ (comps ++ surfs))) := by
    have := goto_iff.2 P.titled
    have h0 : gotoKeyword cs!"GOCAD Model3d" f = .ok (cs!"GOCAD Model3d 1", writeHeader m.name ++ (writeCrs {} ++ (comps ++ surfs))) := by
      rw [hfile, gotoKeyword_here (by rfl)]
    exact Res.ok.inj (this.symm.trans h0)
  have e2 := P.header
  rw [(Prod.mk.inj e1).2, readHeader_writeHeader] at e2
  have e3 := P.system
  rw [← (Prod.mk.inj (Res.ok.inj e2)).2, readCrs_default] at e3
  have hrec := P.recordsRead
  rw [← (Prod.mk.inj (Res.ok.inj e3)).2] at hrec
  unfold writeComponents at h1
  obtain ⟨tsurfs, g1, h1⟩ := bind_eq_ok.1 h1
  obtain ⟨st, g2, h1⟩ := bind_eq_ok.1 h1
  obtain ⟨uni, g3, h1⟩ := bind_eq_ok.1 h1
  obtain ⟨regions, g4, h1⟩ := bind_eq_ok.1 h1
  obtain ⟨layers, g5, h1⟩ := bind_eq_ok.1 h1
  rw [pure_eq] at h1
  obtain ⟨ns, n1, n2⟩ := tsurfs_names g1
  have ec : comps ++ surfs = (ns ++ (unclassified m).map fun s => componentName s.name).map (fun n => cs!"TSURF" ++ spaced [n])
      ++ ((st.out ++ uni ++ regions ++ layers) ++ cs!"END" :: surfs) := by
    rw [← Res.ok.inj h1, n2]; simp
  rw [ec] at hrec
  obtain ⟨qs, eq, hq⟩ := records_tsurfs _ hrec
  -- the names
  rw [hc] at n1
  obtain ⟨n0, nb, hn0, hnb, rfl⟩ : ∃ a b, List.Forall₂ (fun (c : Group) n => c.2.1 = .ok n) pre a ∧ List.Forall₂ (fun (c : Group) n => c.2.1 = .ok n) (c :: post) b ∧ ns = a ++ b := by
    refine ⟨ns.take pre.length, ns.drop pre.length, ?_, ?_, by simp⟩
    · have := List.forall₂_take pre.length n1
      rwa [List.take_left] at this
    · have := List.forall₂_drop pre.length n1
      rwa [List.drop_left] at this
  cases hnb with
  | @cons _ n _ n1' hcn hpost =>
  have hnames : ∃ rest, names P.records = (n0.map readAs ++ readAs n :: (n1'.map readAs ++ (unclassified m).map fun s => readAs (componentName s.name))) ++ rest := by
    refine ⟨names qs, ?_⟩
    rw [eq]
    have : ∀ l : List Str, names (l.map (fun n => Record.tsurf (readAs n)) ++ qs) = l.map readAs ++ names qs := by
      intro l
      induction l with
      | nil => rfl
      | cons a l ih =>
        have : names ((a :: l).map (fun n => Record.tsurf (readAs n)) ++ qs) = readAs a :: names (l.map (fun n => Record.tsurf (readAs n)) ++ qs) := rfl
        rw [this, ih]; rfl
    rw [this]
    simp [Function.comp_def]
  obtain ⟨restN, hnames⟩ := hnames
  have hfaces : faces P.records = faces qs := by
    rw [eq]
    have : ∀ l : List Str, faces (l.map (fun n => Record.tsurf (readAs n)) ++ qs) = faces qs := by
      intro l
      induction l with
      | nil => rfl
      | cons a l ih => exact ih
    exact this _
  -- the surfaces
  let S : List Str := n0.map readAs ++ (n1'.map readAs ++ (unclassified m).map fun s => readAs (componentName s.name))
  have hmem : ∀ {cs : List Group} {ns : List Str}, List.Forall₂ (fun (c : Group) n => c.2.1 = .ok n) cs ns → ∀ c ∈ cs, ∀ n, c.2.1 = .ok n → n ∈ ns := by
    intro cs ns h
    induction h with
    | nil => intro c hc; cases hc
    | cons h1 _ ih =>
      intro c hc n hn
      rcases List.mem_cons.1 hc with rfl | hc
      · rw [h1] at hn; cases hn; exact List.mem_cons_self
      · exact List.mem_cons_of_mem _ (ih c hc n hn)
  have hout : ∀ l ∈ st.out, Among S l := by
    unfold writeTfaces at g2
    obtain ⟨s3, k1, k4⟩ := bind_eq_ok.1 g2
    have hk := kinds_tok m
    rw [hc] at k1 hk
    rw [Res.foldM'_append] at k1
    obtain ⟨s1, k1, k2⟩ := bind_eq_ok.1 k1
    rw [Res.foldM'_cons] at k2
    obtain ⟨s2, k2, k3⟩ := bind_eq_ok.1 k2
    obtain ⟨a1, -, a3⟩ := groups_step (S := S) hp pre (fun c hc => hk c (List.mem_append_left _ hc))
      (fun d hd n hn => List.mem_append_left _ (List.mem_map.2 ⟨n, hmem hn0 d hd n hn, rfl⟩)) k1 (by simp)
    obtain ⟨b1, -, -⟩ := items_step (S := S) hp (hk c (List.mem_append_right _ List.mem_cons_self)) c.2.2 (.inr fun i hi => by
      obtain ⟨d, hd, hi⟩ := hno i hi
      exact a3 d hd i hi) k2 a1
    obtain ⟨c1, -, -⟩ := groups_step (S := S) hp post (fun c hc => hk c (List.mem_append_right _ (List.mem_cons_of_mem _ hc)))
      (fun d hd n hn => List.mem_append_right _ (List.mem_append_left _ (List.mem_map.2 ⟨n, hmem hpost d hd n hn, rfl⟩))) k3 b1
    exact loose_step hp _ (fun s hs => List.mem_append_right _ (List.mem_append_right _ (List.mem_map.2 ⟨s, hs, rfl⟩))) k4 c1
  have hbody : ∀ l ∈ st.out ++ uni ++ regions ++ layers, Among S l := by
    intro l hl
    simp only [List.mem_append] at hl
    rcases hl with ((hl | hl) | hl) | hl
    · exact hout l hl
    · exact among_universe g3 l hl
    · exact among_blocks g4 l hl
    · exact among_layers g5 l hl
  -- the group of the collection has a surface
  have hn : readAs n ∈ L.surfaces := hin _ (by rw [hnames]; simp)
  rw [hP.surfaces, hfaces] at hn
  obtain ⟨x, hx, hxn⟩ := List.mem_map.1 hn
  obtain ⟨p, e, he, hend, hno', hann⟩ := records_prefix hq
  obtain ⟨l, hl, ha⟩ := hann x hx
  have hlb : l ∈ st.out ++ uni ++ regions ++ layers := by
    rcases List.append_eq_append_iff.1 he with ⟨a, ea, eb⟩ | ⟨a, ea, eb⟩
    · cases a with
      | nil => rw [List.append_nil] at ea; rw [← ea]; exact hl
      | cons y a =>
        have := (List.cons.inj eb).1
        have h3 := hno' y (by rw [ea]; simp)
        rw [← this] at h3
        cases h3
    · rw [ea]; exact List.mem_append_left _ hl
  have hS : readAs n ∈ S := by rw [← hxn]; exact hbody l hlb _ _ ha
  rw [hnames, List.nodup_append] at hdist
  have hd := hdist.1
  rw [List.nodup_middle, List.nodup_cons] at hd
  exact hd.1 hS

end Verif.Props.MlGroups
