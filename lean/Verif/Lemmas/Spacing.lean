import Verif.Model.MlWhole
import Verif.Model.LsoWhole
import Verif.Model.StratiLso
import Verif.Model.Recognise
import Verif.Model.Wells
import Verif.Lemmas.LineEnds

/-!
# Blanks between words
-/

namespace Verif.Spacing

open Verif Verif.Gocad Verif.GocadMesh
open Verif.LineEnds (map_bind bind_map bind_same map_throw map_ub map_diverge)

variable {D : Type} [Num D]

/-- The families of formats, after the lines that are not taken as lists of words. -/
inductive Kind
  | gocad
  | voxet
  | petrel
  | plain
  deriving DecidableEq

/-- The first words of the lines that are not taken as lists of words. -/
def Kind.titles : Kind → List Str
  | .gocad => [cs!"GOCAD"]
  | .voxet => [cs!"GOCAD", cs!"ASCII_DATA_FILE"]
  | .petrel => [cs!"#"]
  | .plain => []

theorem Kind.titles_tok (t : Kind) : ∀ u ∈ t.titles, IsTok u := by cases t <;> decide

/-- The line begins with one of these words. -/
def isTitle (t : Kind) (l : Str) : Bool := t.titles.any (startsWith l)

/-- The line has words, and blanks before them. -/
def indented (l : Str) : Bool := l.head?.any isWs && !(split l).isEmpty

/-- The line with one blank between its words, and one before them if it is indented. -/
def tidy (t : Kind) (l : Str) : Str := if isTitle t l then l else if indented l then ' ' :: join (split l) else join (split l)

/-- The same for all the lines of a file. -/
def tidies (t : Kind) (f : File) : File := f.map (tidy t)

theorem split_tidy (t : Kind) (l : Str) : split (tidy t l) = split l := by
  unfold tidy
  have h := split_join (ts := split l) fun _ h => isTok_of_mem_split h
  split
  · rfl
  · split
    · rw [split_space, h]
    · exact h

/-- The first word of a line and what is after it. -/
theorem split_first {c : Char} (hc : isWs c = false) : ∀ l : Str, ∃ w r, c :: l = w ++ r ∧ IsTok w ∧ (∀ d, r.head? = some d → isWs d = true) ∧ split (c :: l) = w :: split r
  | [] => ⟨[c], [], rfl, by simp [IsTok, hc], by simp, split_single hc⟩
  | d :: l => by
    cases hd : isWs d with
    | true => exact ⟨[c], d :: l, rfl, by simp [IsTok, hc], by simpa using hd, by rw [split_cons_then_ws hc hd l, split_cons_ws hd]⟩
    | false =>
      obtain ⟨w, r, e, hw, hr, hs⟩ := split_first hd l
      obtain ⟨a, as, e1, e2⟩ := split_cons_cons hc hd l
      refine ⟨c :: w, r, by rw [e]; rfl, ⟨by simp, ?_⟩, hr, ?_⟩
      · intro x hx
        rcases List.mem_cons.1 hx with rfl | hx
        · exact hc
        · exact hw.2 x hx
      · rw [e2]
        rw [hs] at e1
        injection e1 with e1 e3
        rw [e1, e3]

/-- A word is the beginning of a line when it is the beginning of its first word. -/
theorem prefix_first {k w r : Str} (hk : ∀ c ∈ k, isWs c = false) (hr : ∀ d, r.head? = some d → isWs d = true) : k.isPrefixOf (w ++ r) = k.isPrefixOf w := by
  rw [Bool.eq_iff_iff, List.isPrefixOf_iff_prefix, List.isPrefixOf_iff_prefix]
  constructor
  · intro h
    by_cases hl : k.length ≤ w.length
    · exact List.prefix_of_prefix_length_le h (List.prefix_append ..) hl
    · exfalso
      have h2 : w <+: k := List.prefix_of_prefix_length_le (List.prefix_append ..) h (by omega)
      obtain ⟨x, rfl⟩ := h2
      rw [List.prefix_append_right_inj] at h
      obtain ⟨y, rfl⟩ := h
      cases x with
      | nil => simp at hl
      | cons a x =>
        have h1 := hr a rfl
        have h2 := hk a (by simp)
        rw [h1] at h2
        cases h2
  · intro h
    exact h.trans (List.prefix_append ..)

theorem join_cons_first (w : Str) (ws : List Str) : ∃ r, join (w :: ws) = w ++ r ∧ ∀ d, r.head? = some d → isWs d = true := by
  cases ws with
  | nil => exact ⟨[], by simp [join], by simp⟩
  | cons v ws => exact ⟨' ' :: join (v :: ws), rfl, by simp⟩

/-- Two lines with the same words, both indented or not, begin with the same words. -/
theorem starts_words {k l m : Str} (hk : IsTok k) (hs : split l = split m) (hi : indented l = indented m) : startsWith l k = startsWith m k := by
  have blank : ∀ (c : Char) (l : Str), isWs c = true → startsWith (c :: l) k = false := by
    intro c l hc
    unfold startsWith
    cases k with
    | nil => exact absurd rfl hk.1
    | cons d k =>
      have : d ≠ c := by rintro rfl; rw [hk.2 d (by simp)] at hc; cases hc
      simp [List.isPrefixOf, this]
  have none : ∀ l : Str, split l = [] → startsWith l k = false := by
    intro l hl
    cases l with
    | nil => cases k with
      | nil => exact absurd rfl hk.1
      | cons d k => rfl
    | cons c l => cases hc : isWs c with
      | true => exact blank c l hc
      | false => exact absurd hl (split_ne_nil hc l)
  by_cases h0 : split l = []
  · rw [none l h0, none m (hs ▸ h0)]
  cases l with
  | nil => exact absurd rfl h0
  | cons c l => cases m with
    | nil => exact absurd hs h0
    | cons d m =>
      have h1 : split (d :: m) ≠ [] := hs ▸ h0
      have e : isWs c = isWs d := by
        have a0 : (split (c :: l)).isEmpty = false := by simpa using h0
        have a1 : (split (d :: m)).isEmpty = false := by simpa using h1
        simpa [indented, a0, a1] using hi
      cases hc : isWs c with
      | true => rw [blank c l hc, blank d m (e ▸ hc)]
      | false =>
        obtain ⟨w, r, e1, -, hr, s1⟩ := split_first hc l
        obtain ⟨w', r', e2, -, hr', s2⟩ := split_first (e ▸ hc) m
        rw [s1, s2] at hs
        injection hs with hw _
        unfold startsWith
        rw [e1, e2, prefix_first hk.2 hr, prefix_first hk.2 hr', hw]

theorem indented_tidy (t : Kind) (l : Str) : indented (tidy t l) = indented l := by
  have hs := split_tidy t l
  unfold tidy at hs ⊢
  split
  · rfl
  · rename_i ht
    rw [if_neg ht] at hs
    split
    · rename_i hi
      rw [if_pos hi] at hs
      unfold indented at hi ⊢
      rw [hs]
      simp only [Bool.and_eq_true] at hi
      simp only [List.head?_cons, Option.any_some, hi.2, Bool.and_true]
      simp [isWs, hi]
    · rename_i hi
      rw [if_neg hi] at hs
      rw [Bool.not_eq_true] at hi
      rw [hi]
      unfold indented
      rw [hs]
      cases hw : split l with
      | nil => simp
      | cons w ws =>
        obtain ⟨r, e, -⟩ := join_cons_first w ws
        have htok : IsTok w := isTok_of_mem_split (s := l) (by rw [hw]; simp)
        rw [e]
        cases w with
        | nil => exact absurd rfl htok.1
        | cons c w => simp [htok.2 c (by simp)]

/-- A keyword that is looked for: it has no blank, or begins as a title. -/
def Key (t : Kind) (k : Str) : Prop := IsTok k ∨ ∃ u ∈ t.titles, u <+: k

instance (t : Kind) (k : Str) : Decidable (Key t k) := by unfold Key; infer_instance

theorem key {t : Kind} {k : Str} (h : IsTok k) : Key t k := Or.inl h

theorem isTitle_words {t : Kind} {l m : Str} (hs : split l = split m) (hi : indented l = indented m) : isTitle t l = isTitle t m := by
  unfold isTitle
  have := t.titles_tok
  generalize t.titles = us at this
  induction us with
  | nil => rfl
  | cons u us ih =>
    simp only [List.any_cons, starts_words (this u (by simp)) hs hi]
    rw [ih fun v hv => this v (by simp [hv])]

theorem starts_tidy {t : Kind} {k : Str} (hk : Key t k) (l : Str) : startsWith (tidy t l) k = startsWith l k := by
  rcases hk with hk | ⟨u, hu, hk⟩
  · exact starts_words hk (split_tidy t l) (indented_tidy t l)
  · cases ht : isTitle t l with
    | true => unfold tidy; rw [if_pos ht]
    | false =>
      have no : ∀ m, isTitle t m = false → startsWith m k = false := by
        intro m hm
        unfold isTitle at hm
        rw [List.any_eq_false] at hm
        rw [Bool.eq_false_iff]
        intro h
        refine hm u hu ?_
        exact List.isPrefixOf_iff_prefix.2 (hk.trans (List.isPrefixOf_iff_prefix.1 h))
      rw [no l ht, no _ ((isTitle_words (split_tidy t l) (indented_tidy t l)).trans ht)]

/-- What is after the first occurrence of a word. -/
def afterWords (k : Str) : List Str → Option (List Str)
  | [] => none
  | w :: ws => match afterFirst k w with
    | some r => some (split r ++ ws)
    | none => afterWords k ws

theorem contains_iff_after {k : Str} (h0 : k ≠ []) : ∀ l : Str, contains k l = (afterFirst k l).isSome
  | [] => by
    simp only [contains, afterFirst]
    cases k <;> simp_all
  | c :: l => by
    simp only [contains, afterFirst]
    split
    · rename_i h; rw [h]; rfl
    · rename_i h; rw [Bool.not_eq_true] at h; rw [h, Bool.false_or, contains_iff_after h0 l]

/-- A word is found in the first word of the line, or else after it. -/
theorem after_first {k : Str} (hk : IsTok k) {r : Str} (hr : ∀ d, r.head? = some d → isWs d = true) :
    ∀ w : Str, afterFirst k (w ++ r) = match afterFirst k w with | some x => some (x ++ r) | none => afterFirst k r
  | [] => by
    have : afterFirst k [] = none := by
      simp only [afterFirst]
      cases k with
      | nil => exact absurd rfl hk.1
      | cons c k => rfl
    rw [this, List.nil_append]
  | c :: w => by
    have hp : k.isPrefixOf (c :: (w ++ r)) = k.isPrefixOf (c :: w) := by
      rw [← List.cons_append]; exact prefix_first hk.2 hr
    simp only [List.cons_append, afterFirst, hp]
    split
    · rename_i h
      rw [← List.cons_append, List.drop_append_of_le_length]
      exact (List.isPrefixOf_iff_prefix.1 h).length_le
    · exact after_first hk hr w

theorem after_ws {k : Str} (hk : IsTok k) {c : Char} (hc : isWs c = true) (l : Str) : afterFirst k (c :: l) = afterFirst k l := by
  have hp : k.isPrefixOf (c :: l) = false := by
    have := prefix_first (w := []) (r := c :: l) hk.2 (by simpa using hc)
    rw [List.nil_append] at this
    rw [this]
    cases k with
    | nil => exact absurd rfl hk.1
    | cons d k => rfl
  simp only [afterFirst, hp]
  rfl

/-- What is found after a word depends on the words of the line only. -/
theorem after_words {k : Str} (hk : IsTok k) : ∀ (n : Nat) (l : Str), l.length ≤ n → (afterFirst k l).map split = afterWords k (split l)
  | _, [], _ => by
    simp only [afterFirst, split_nil, afterWords]
    cases k with
    | nil => exact absurd rfl hk.1
    | cons c k => rfl
  | n + 1, c :: l, hn => by
    have hn : l.length ≤ n := by simpa using hn
    cases hc : isWs c with
    | true => rw [after_ws hk hc, split_cons_ws hc, after_words hk n l hn]
    | false =>
      obtain ⟨w, r, e, hw, hr, hs⟩ := split_first hc l
      have hl : r.length ≤ n := by
        have h1 := congrArg List.length e
        have h2 := List.length_pos_iff.2 hw.1
        simp only [List.length_cons, List.length_append] at h1
        omega
      rw [hs, e, after_first hk hr, afterWords]
      cases hx : afterFirst k w with
      | none => exact after_words hk n r hl
      | some x =>
        simp only [Option.map_some, Option.some.injEq]
        cases r with
        | nil => simp
        | cons d r =>
          have hd := hr d rfl
          rw [split_append_ws _ _ hd, split_cons_ws hd]

theorem after_tidy {k : Str} (hk : IsTok k) (t : Kind) (l : Str) : (afterFirst k (tidy t l)).map split = (afterFirst k l).map split := by
  rw [after_words hk _ _ (Nat.le_refl _), after_words hk _ _ (Nat.le_refl _), split_tidy]

theorem contains_tidy {k : Str} (hk : IsTok k) (t : Kind) (l : Str) : contains k (tidy t l) = contains k l := by
  rw [contains_iff_after hk.1, contains_iff_after hk.1]
  have := congrArg Option.isSome (after_tidy hk t l)
  simpa using this

theorem keyAppend {t : Kind} {p k : Str} (hp : ∀ c ∈ p, isWs c = false) (hk : IsTok k) : Key t (p ++ k) :=
  Or.inl ⟨by simp [hk.1], fun c hc => (List.mem_append.1 hc).elim (hp c) (hk.2 c)⟩

variable {t : Kind}

/-! ## Results that have lines -/

/-- A result, with its lines trimmed. -/
def onRest (t : Kind) {A : Type} (x : A × File) : A × File := (x.1, tidies t x.2)

@[simp] theorem tidies_cons (l : Str) (f : File) : tidies t (l :: f) = tidy t l :: tidies t f := rfl
@[simp] theorem tidies_nil : tidies t [] = [] := rfl
@[simp] theorem tidies_length (f : File) : (tidies t f).length = f.length := List.length_map _

/-- A result with a line and the lines after it. -/
def onLine (t : Kind) (x : Str × File) : Str × File := (tidy t x.1, tidies t x.2)

theorem goto?_tidy {t : Kind} {k : Str} (hk : Key t k) : ∀ f : File, gotoKeyword? k (tidies t f) = (gotoKeyword? k f).map (onLine t)
  | [] => rfl
  | l :: f => by
    simp only [tidies_cons, gotoKeyword?, starts_tidy hk]
    split
    · rfl
    · exact goto?_tidy hk f

theorem goto_tidy {t : Kind} {k : Str} (hk : Key t k) (f : File) : gotoKeyword k (tidies t f) = onLine t <$> gotoKeyword k f := by
  unfold gotoKeyword
  rw [goto?_tidy hk]
  cases gotoKeyword? k f <;> rfl

theorem gotos_tidy {ks : List Str} (hk : ∀ k ∈ ks, Key t k) : ∀ f : File, gotoKeywords ks (tidies t f) = onLine t <$> gotoKeywords ks f
  | [] => rfl
  | l :: f => by
    have e : ks.any (startsWith (tidy t l)) = ks.any (startsWith l) := by
      rw [Bool.eq_iff_iff, List.any_eq_true, List.any_eq_true]
      constructor
      · rintro ⟨k, h, h'⟩; exact ⟨k, h, by rwa [starts_tidy (hk k h)] at h'⟩
      · rintro ⟨k, h, h'⟩; exact ⟨k, h, by rwa [starts_tidy (hk k h)]⟩
    simp only [tidies_cons, gotoKeywords, e]
    split
    · rfl
    · exact gotos_tidy hk f

theorem check_tidy {t : Kind} {k : Str} (hk : Key t k) (f : File) : checkKeyword k (tidies t f) = tidies t <$> checkKeyword k f := by
  cases f with
  | nil => rfl
  | cons l f =>
    simp only [tidies_cons, checkKeyword, starts_tidy hk]
    split <;> rfl

theorem next_tidy {t : Kind} {k : Str} (hk : Key t k) (f : File) : nextKeyword? k (tidies t f) = ((nextKeyword? k f).1.map (tidy t), tidies t (nextKeyword? k f).2) := by
  cases f with
  | nil => rfl
  | cons l f =>
    simp only [tidies_cons, nextKeyword?, starts_tidy hk]
    split <;> rfl

/-! ## GOCAD objects -/

theorem headerLoop_tidy : ∀ (f : File) (name : Option Str), readHeaderLoop name (tidies t f) = onRest t <$> readHeaderLoop name f
  | [], _ => rfl
  | l :: f, name => by
    simp only [tidies_cons, readHeaderLoop, starts_tidy (key (show IsTok cs!"}" by decide))]
    split
    · rfl
    · have := after_tidy ((show IsTok cs!"name:" by decide)) t l
      revert this
      cases afterFirst cs!"name:" (tidy t l) <;> cases afterFirst cs!"name:" l <;> intro this
      · exact headerLoop_tidy f _
      · cases this
      · cases this
      · simp only [Option.map_some, Option.some.injEq] at this
        simp only [this]
        exact headerLoop_tidy f _

theorem header_tidy (f : File) : readHeader (tidies t f) = onRest t <$> readHeader f := by
  unfold readHeader
  rw [check_tidy (key (by decide)), bind_map, map_bind]
  exact bind_same fun f => headerLoop_tidy f none

theorem crsLine_tidy (c : Crs) (l : Str) : crsLine c (tidy t l) = crsLine c l := by
  unfold crsLine splitQuoted
  rw [split_tidy]

theorem crsLoop_tidy : ∀ (f : File) (c : Crs), readCrsLoop c (tidies t f) = onRest t <$> readCrsLoop c f
  | [], _ => rfl
  | l :: f, c => by
    simp only [tidies_cons, readCrsLoop, starts_tidy (key (show IsTok cs!"END_ORIGINAL_COORDINATE_SYSTEM" by decide)), crsLine_tidy]
    split
    · rfl
    · rw [map_bind]
      exact bind_same fun c => crsLoop_tidy f c

theorem crs_tidy (f : File) : readCrs (tidies t f) = onRest t <$> readCrs f := by
  unfold readCrs
  rw [next_tidy (key (by decide))]
  cases h : nextKeyword? cs!"GOCAD_ORIGINAL_COORDINATE_SYSTEM" f with
  | mk o f => cases o with
    | none => rfl
    | some l => exact crsLoop_tidy f {}

theorem splitQuoted_tidy (l : Str) : splitQuoted (tidy t l) = splitQuoted l := by unfold splitQuoted; rw [split_tidy]

theorem oneString_tidy {t : Kind} {k : Str} (hk : Key t k) (n : Nat) (f : File) : readOneString k n (tidies t f) = onRest t <$> readOneString k n f := by
  unfold readOneString
  rw [goto_tidy hk, bind_map, map_bind]
  refine bind_same fun ⟨l, f⟩ => ?_
  simp only [onLine, splitQuoted_tidy, map_bind]
  rfl

theorem twoStrings_tidy {t : Kind} {k : Str} (hk : Key t k) (n : Nat) (f : File) : readTwoStrings k n (tidies t f) = onRest t <$> readTwoStrings k n f := by
  unfold readTwoStrings
  rw [goto_tidy hk, bind_map, map_bind]
  refine bind_same fun ⟨l, f⟩ => ?_
  simp only [onLine, split_tidy, map_bind]
  rfl

theorem oneDouble_tidy {t : Kind} {k : Str} (hk : Key t k) (n : Nat) (f : File) : (readOneDouble k n (tidies t f) : Res (List D × File)) = onRest t <$> readOneDouble k n f := by
  unfold readOneDouble
  rw [goto_tidy hk, bind_map, map_bind]
  refine bind_same fun ⟨l, f⟩ => ?_
  simp only [onLine, split_tidy, map_bind]
  rfl

theorem oneIndex_tidy {t : Kind} {k : Str} (hk : Key t k) (n : Nat) (f : File) : readOneIndex k n (tidies t f) = onRest t <$> readOneIndex k n f := by
  unfold readOneIndex
  rw [goto_tidy hk, bind_map, map_bind]
  refine bind_same fun ⟨l, f⟩ => ?_
  simp only [onLine, split_tidy, map_bind]
  rfl

theorem props_tidy {p : Str} (hp : ∀ c ∈ p, isWs c = false) (f : File) : (readPropHeader p (tidies t f) : Res (PropHeader D × File)) = onRest t <$> readPropHeader p f := by
  unfold readPropHeader
  rw [next_tidy (keyAppend hp (by decide))]
  cases h : nextKeyword? (p ++ cs!"PROPERTIES") f with
  | mk o f => cases o with
    | none => rfl
    | some l =>
      simp only [Option.map_some, splitQuoted_tidy, map_bind]
      refine bind_same fun names => ?_
      split
      · rfl
      · rw [map_bind, twoStrings_tidy (keyAppend hp (by decide)), bind_map]
        refine bind_same fun ⟨a, f⟩ => ?_
        simp only [onRest]
        rw [map_bind, oneDouble_tidy (keyAppend hp (by decide)), bind_map]
        refine bind_same fun ⟨b, f⟩ => ?_
        simp only [onRest]
        rw [map_bind, oneString_tidy (keyAppend hp (by decide)), bind_map]
        refine bind_same fun ⟨b, f⟩ => ?_
        simp only [onRest]
        rw [map_bind, oneString_tidy (keyAppend hp (by decide)), bind_map]
        refine bind_same fun ⟨b, f⟩ => ?_
        simp only [onRest]
        rw [map_bind, twoStrings_tidy (keyAppend hp (by decide)), bind_map]
        refine bind_same fun ⟨b, f⟩ => ?_
        simp only [onRest]
        rw [map_bind, oneIndex_tidy (keyAppend hp (by decide)), bind_map]
        refine bind_same fun ⟨b, f⟩ => ?_
        simp only [onRest]
        rw [map_bind, oneString_tidy (keyAppend hp (by decide)), bind_map]
        rfl

theorem tfacesLoop_tidy : ∀ (f : File) (ts : TSurf D), readTfacesLoop ts (tidies t f) = onRest t <$> readTfacesLoop ts f
  | [], _ => rfl
  | l :: f, ts => by
    simp only [tidies_cons, readTfacesLoop, split_tidy]
    cases split l with
    | nil => rfl
    | cons kw args =>
      simp only
      split
      · rfl
      · rw [map_bind]
        exact bind_same fun ts => tfacesLoop_tidy f ts

theorem ilinesLoop_tidy : ∀ (f : File) (ec : ECurve D), readIlinesLoop ec (tidies t f) = onRest t <$> readIlinesLoop ec f
  | [], _ => rfl
  | l :: f, ec => by
    simp only [tidies_cons, readIlinesLoop, split_tidy]
    cases split l with
    | nil => rfl
    | cons kw args =>
      simp only
      split
      · rfl
      · rw [map_bind]
        exact bind_same fun ec => ilinesLoop_tidy f ec

theorem vsetLoop_tidy : ∀ (f : File) (vs : VSet D), readVSetLoop vs (tidies t f) = onRest t <$> readVSetLoop vs f
  | [], _ => rfl
  | l :: f, vs => by
    simp only [tidies_cons, readVSetLoop, split_tidy]
    cases split l with
    | nil => rfl
    | cons kw args =>
      simp only
      split
      · rfl
      · rw [map_bind]
        exact bind_same fun vs => vsetLoop_tidy f vs

theorem tsurf_tidy (f : File) : (readTSurf (tidies .gocad f) : Res (Option (TSurf D × File))) = (Option.map (onRest .gocad)) <$> readTSurf f := by
  unfold readTSurf
  rw [goto?_tidy (t := .gocad) (by decide)]
  cases gotoKeyword? cs!"GOCAD TSurf" f with
  | none => rfl
  | some x =>
    obtain ⟨l, f⟩ := x
    simp only [Option.map_some, onLine, map_bind]
    rw [header_tidy, bind_map]
    refine bind_same fun ⟨name, f⟩ => ?_
    simp only [onRest]
    rw [crs_tidy, bind_map]
    refine bind_same fun ⟨crs, f⟩ => ?_
    simp only [onRest]
    rw [props_tidy (by decide), bind_map]
    refine bind_same fun ⟨props, f⟩ => ?_
    simp only [onRest, readTfaces]
    rw [goto_tidy (key (by decide))]
    simp only [bind_map, Res.bind_assoc']
    refine bind_same fun ⟨l, f⟩ => ?_
    simp only [onLine, tfacesLoop_tidy, bind_map]
    rfl

theorem curve_tidy (f : File) : (readECurve (tidies .gocad f) : Res (Option (ECurve D × File))) = (Option.map (onRest .gocad)) <$> readECurve f := by
  unfold readECurve
  rw [goto?_tidy (t := .gocad) (by decide)]
  cases gotoKeyword? cs!"GOCAD PLine" f with
  | none => rfl
  | some x =>
    obtain ⟨l, f⟩ := x
    simp only [Option.map_some, onLine, map_bind]
    rw [header_tidy, bind_map]
    refine bind_same fun ⟨name, f⟩ => ?_
    simp only [onRest]
    rw [crs_tidy, bind_map]
    refine bind_same fun ⟨crs, f⟩ => ?_
    simp only [onRest, readIlines]
    rw [goto_tidy (key (by decide))]
    simp only [bind_map, Res.bind_assoc']
    refine bind_same fun ⟨l, f⟩ => ?_
    simp only [onLine, ilinesLoop_tidy, bind_map]
    rfl

theorem vset_tidy (f : File) : (readVSet (tidies .gocad f) : Res (Option (VSet D × File))) = (Option.map (onRest .gocad)) <$> readVSet f := by
  unfold readVSet
  rw [goto?_tidy (t := .gocad) (by decide)]
  cases gotoKeyword? cs!"GOCAD VSet" f with
  | none => rfl
  | some x =>
    obtain ⟨l, f⟩ := x
    simp only [Option.map_some, onLine, map_bind]
    rw [header_tidy, bind_map]
    refine bind_same fun ⟨name, f⟩ => ?_
    simp only [onRest]
    rw [crs_tidy, bind_map]
    refine bind_same fun ⟨crs, f⟩ => ?_
    simp only [onRest]
    rw [props_tidy (by decide), bind_map]
    refine bind_same fun ⟨props, f⟩ => ?_
    simp only [onRest, readVSetVertices]
    rw [gotos_tidy (by decide)]
    simp only [bind_map, Res.bind_assoc']
    refine bind_same fun ⟨l, f⟩ => ?_
    simp only [onLine, ← tidies_cons, vsetLoop_tidy, bind_map]
    rfl

end Verif.Spacing
