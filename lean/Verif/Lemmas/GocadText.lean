import Verif.Model.Gocad

/-! # Lemmas on quoted names, headers and coordinate systems -/

namespace Verif.Gocad

open Verif

variable {D : Type} [Num D]

theorem split_append_spaced' (a : Str) (xs : List Str) : split (a ++ spaced xs) = split a ++ xs.flatMap split := by
  induction xs generalizing a with
  | nil => simp [spaced]
  | cons t ts ih =>
    rw [spaced]
    have : a ++ (' ' :: t ++ spaced ts) = (a ++ ' ' :: t) ++ spaced ts := by simp
    rw [this, ih, split_append_space]
    simp

theorem split_kw_spaced' {kw : Str} (h : IsTok kw) (xs : List Str) : split (kw ++ spaced xs) = kw :: xs.flatMap split := by
  rw [split_append_spaced', split_tok h]; rfl

theorem split_kw_spaced {kw : Str} (h : IsTok kw) {xs : List Str} (hx : ∀ x ∈ xs, IsTok x) :
    split (kw ++ spaced xs) = kw :: xs := by
  rw [split_append_spaced _ hx, split_tok h]; rfl

/-! ## Quoted names -/

/-- Words separated by single blanks, at least one word, no quote character. -/
def GoodName (s : Str) : Prop := split s ≠ [] ∧ join (split s) = s ∧ '"' ∉ s

instance (s : Str) : Decidable (GoodName s) := by unfold GoodName; infer_instance

/-- Words separated by single blanks, possibly none, no quote character. -/
def GoodObjectName (s : Str) : Prop := join (split s) = s ∧ '"' ∉ s

instance (s : Str) : Decidable (GoodObjectName s) := by unfold GoodObjectName; infer_instance

theorem dropQuotes_of_not_mem {s : Str} (h : '"' ∉ s) : dropQuotes s = s := by
  unfold dropQuotes
  rw [List.filter_eq_self]
  intro c hc
  have : c ≠ '"' := fun e => h (e ▸ hc)
  simpa using this

theorem mem_join {c : Char} {ts : List Str} {t : Str} (ht : t ∈ ts) (hc : c ∈ t) : c ∈ join ts := by
  induction ts with
  | nil => simp at ht
  | cons u us ih =>
    cases us with
    | nil => simp at ht; subst ht; simpa [join] using hc
    | cons v vs =>
      rw [join]
      · rcases List.mem_cons.1 ht with rfl | ht
        · simp [hc]
        · simp [ih ht]
      · simp

theorem readName_split {s : Str} (h : GoodObjectName s) : readName (split s) = s := by
  unfold readName; rw [h.1, dropQuotes_of_not_mem h.2]

theorem GoodName.obj {s : Str} (h : GoodName s) : GoodObjectName s := h.2

theorem GoodName.tok_noquote {s w : Str} (h : GoodName s) (hw : w ∈ split s) : '"' ∉ w := by
  intro hc
  exact h.2.2 (h.2.1 ▸ mem_join hw hc)

theorem join_append_single {ts : List Str} (h : ts ≠ []) (q : Str) :
    ∃ init last, ts = init ++ [last] ∧ split (join ts ++ q) = split (join ts ++ q) ∧
      join ts ++ q = join (init ++ [last ++ q]) := by
  induction ts with
  | nil => exact absurd rfl h
  | cons t ts ih =>
    cases ts with
    | nil => exact ⟨[], t, rfl, rfl, by simp [join]⟩
    | cons u us =>
      obtain ⟨init, last, h1, _, h3⟩ := ih (by simp)
      refine ⟨t :: init, last, by simp [h1], rfl, ?_⟩
      have e1 : join (t :: u :: us) = t ++ ' ' :: join (u :: us) := by rw [join]; simp
      have e2 : join (t :: (init ++ [last ++ q])) = t ++ ' ' :: join (init ++ [last ++ q]) := by
        cases hi : init ++ [last ++ q] with
        | nil => simp at hi
        | cons _ _ => rw [join]; simp
      rw [List.cons_append, e2, ← h3, e1]; simp

/-- The tokens of a written name. -/
theorem split_writeQuoted {s : Str} (h : GoodName s) :
    (∃ t, split s = [t] ∧ split (writeQuoted s) = [t]) ∨
    (∃ init last, init ≠ [] ∧ split s = init ++ [last] ∧
      split (writeQuoted s) = ['"'] :: (init ++ [last ++ ['"']])) := by
  have hr : readName (split s) = s := readName_split h.obj
  have htok : ∀ t ∈ split s, IsTok t := fun t ht => isTok_of_mem_split ht
  unfold writeQuoted
  by_cases hl : (split s).length > 1
  · right
    simp only [hl, if_true, hr]
    obtain ⟨init, last, h1, _, h3⟩ := join_append_single h.1 ['"']
    refine ⟨init, last, ?_, h1, ?_⟩
    · intro e; rw [h1, e] at hl; simp at hl
    · have e : cs!"\" " ++ s ++ ['"'] = ['"'] ++ ' ' :: (join (split s) ++ ['"']) := by rw [h.2.1]; rfl
      rw [e, split_append_space, h3, split_join]
      · rfl
      · intro t ht
        rw [h1] at htok
        rcases List.mem_append.1 ht with ht | ht
        · exact htok t (by simp [ht])
        · simp at ht; subst ht
          have := htok last (by simp)
          refine ⟨by simp, fun c hc => ?_⟩
          rcases List.mem_append.1 hc with hc | hc
          · exact this.2 c hc
          · simp at hc; subst hc; rfl
  · left
    simp only [hl, if_false, hr]
    cases hs : split s with
    | nil => exact absurd hs h.1
    | cons t ts =>
      cases ts with
      | nil => exact ⟨t, rfl, rfl⟩
      | cons _ _ => rw [hs] at hl; simp at hl

theorem getLast?_ne_quote {t : Str} (h : '"' ∉ t) : t.getLast? ≠ some '"' := by
  intro e
  exact h (List.mem_of_getLast? e)

theorem mergeQuoted_some_words (acc : Str) (init : List Str) (last : Str) (rest : List Str)
    (hi : ∀ w ∈ init, '"' ∉ w) :
    mergeQuoted (some acc) (init ++ (last ++ ['"']) :: rest) =
      (mergeQuoted none rest >>= fun r => .ok ((acc ++ join (init ++ [last])) :: r)) := by
  induction init generalizing acc with
  | nil => simp [mergeQuoted, join, ← List.append_assoc]
  | cons w ws ih =>
    have hw := getLast?_ne_quote (hi w (by simp))
    rw [List.cons_append, mergeQuoted, if_neg hw, ih _ (fun x hx => hi x (by simp [hx]))]
    have e : join (w :: ws ++ [last]) = w ++ ' ' :: join (ws ++ [last]) := by
      cases hx : ws ++ [last] with
      | nil => simp at hx
      | cons a b => simp only [List.cons_append, hx]; rw [join]; simp
    rw [e]; simp

/-- A written name is read back, whatever follows it. -/
theorem mergeQuoted_writeQuoted {s : Str} (h : GoodName s) (rest : List Str) :
    mergeQuoted none (split (writeQuoted s) ++ rest) = (mergeQuoted none rest >>= fun r => .ok (s :: r)) := by
  rcases split_writeQuoted h with ⟨t, h1, h2⟩ | ⟨init, last, hne, h1, h2⟩
  · have ht : t = s := by have := h.2.1; rw [h1] at this; simpa [join] using this
    have hq : t ≠ ['"'] := by
      intro e; exact h.tok_noquote (w := t) (by simp [h1]) (by simp [e])
    rw [h2, List.singleton_append, mergeQuoted, if_neg hq, ht]; rfl
  · rw [h2]
    have e : ['"'] :: (init ++ [last ++ ['"']]) ++ rest = ['"'] :: (init ++ (last ++ ['"']) :: rest) := by simp
    rw [e, mergeQuoted, if_pos rfl, mergeQuoted_some_words]
    · simp only [List.nil_append]; rw [← h1, h.2.1]
    · intro w hw; exact h.tok_noquote (by rw [h1]; simp [hw])

theorem mergeQuoted_names {names : List Str} (h : ∀ s ∈ names, GoodName s) :
    mergeQuoted none ((names.map writeQuoted).flatMap split) = .ok names := by
  induction names with
  | nil => rfl
  | cons s ss ih =>
    simp only [List.map_cons, List.flatMap_cons]
    rw [mergeQuoted_writeQuoted (h s (by simp)), ih (fun x hx => h x (by simp [hx]))]; rfl

theorem splitQuoted_kw_names {kw : Str} (hk : IsTok kw) (hq : kw ≠ ['"']) {names : List Str}
    (h : ∀ s ∈ names, GoodName s) :
    splitQuoted (kw ++ spaced (names.map writeQuoted)) = .ok (kw :: names) := by
  unfold splitQuoted
  rw [split_kw_spaced' hk, mergeQuoted, if_neg hq, mergeQuoted_names h]; rfl

/-! ## Header -/

theorem afterFirst_name (n : Str) : afterFirst cs!"name:" (cs!"name:" ++ n) = some n := by
  simp [afterFirst]

theorem readHeader_writeHeader (name : Option Str) (rest : File) :
    readHeader (writeHeader name ++ rest) = .ok (name.map (fun n => readName (split n)), rest) := by
  cases name with
  | none => rfl
  | some n =>
    have e : writeHeader (some n) ++ rest = cs!"HEADER {" :: (cs!"name:" ++ n) :: cs!"}" :: rest := rfl
    have h1 : startsWith (cs!"name:" ++ n) cs!"}" = false := rfl
    have h2 : checkKeyword cs!"HEADER" (cs!"HEADER {" :: (cs!"name:" ++ n) :: cs!"}" :: rest)
        = .ok ((cs!"name:" ++ n) :: cs!"}" :: rest) := rfl
    rw [e, readHeader, h2, Res.ok_bind, readHeaderLoop, h1, afterFirst_name]
    rfl

theorem readHeader_good {name : Option Str} (h : ∀ n, name = some n → GoodObjectName n) (rest : File) :
    readHeader (writeHeader name ++ rest) = .ok (name, rest) := by
  rw [readHeader_writeHeader]
  cases name with
  | none => rfl
  | some n => simp [readName_split (h n rfl)]

/-! ## Coordinate system -/

theorem splitQuoted_kw_tok {kw t : Str} (hk : IsTok kw) (hq : kw ≠ ['"']) (ht : IsTok t) (hqt : t ≠ ['"']) :
    splitQuoted (kw ++ ' ' :: t) = .ok [kw, t] := by
  unfold splitQuoted
  rw [split_tok_append hk, split_tok ht]
  simp [mergeQuoted, hq, hqt]

theorem splitQuoted_toks {kw : Str} (hk : IsTok kw) {ts : List Str} (ht : ∀ t ∈ ts, IsTok t ∧ t ≠ ['"']) (hq : kw ≠ ['"']) :
    splitQuoted (kw ++ spaced ts) = .ok (kw :: ts) := by
  unfold splitQuoted
  rw [split_kw_spaced hk (fun t h => (ht t h).1), mergeQuoted, if_neg hq]
  have : ∀ ts : List Str, (∀ t ∈ ts, IsTok t ∧ t ≠ ['"']) → mergeQuoted none ts = .ok ts := by
    intro ts
    induction ts with
    | nil => intro _; rfl
    | cons t ts ih =>
      intro h
      rw [mergeQuoted, if_neg (h t (by simp)).2, ih (fun x hx => h x (by simp [hx]))]; rfl
  rw [this ts ht]; rfl

/-- What `write_CRS` assumes of its data for it to be readable. -/
structure GoodCrs (c : Crs) : Prop where
  name : GoodName c.name
  projection : IsTok c.projection ∧ c.projection ≠ ['"']
  datum : IsTok c.datum ∧ c.datum ≠ ['"']
  names : ∀ t ∈ [c.axisNames.1, c.axisNames.2.1, c.axisNames.2.2], IsTok t ∧ t ≠ ['"']
  units : ∀ t ∈ [c.axisUnits.1, c.axisUnits.2.1, c.axisUnits.2.2], IsTok t ∧ t ≠ ['"']

theorem crsLine_name (c : Crs) {n : Str} (h : GoodName n) :
    crsLine c (cs!"NAME " ++ writeQuoted n) = .ok { c with name := n } := by
  have : splitQuoted (cs!"NAME " ++ writeQuoted n) = .ok [cs!"NAME", n] := by
    have := splitQuoted_kw_names (kw := cs!"NAME") (by decide) (by decide) (names := [n]) (by simpa using h)
    simpa [spaced] using this
  unfold crsLine; rw [this]; rfl

theorem crsLine_projection (c : Crs) {n : Str} (h : IsTok n ∧ n ≠ ['"']) :
    crsLine c (cs!"PROJECTION " ++ n) = .ok { c with projection := n } := by
  have := splitQuoted_kw_tok (kw := cs!"PROJECTION") (by decide) (by decide) h.1 h.2
  unfold crsLine
  rw [show cs!"PROJECTION " ++ n = cs!"PROJECTION" ++ ' ' :: n from rfl, this]; rfl

theorem crsLine_datum (c : Crs) {n : Str} (h : IsTok n ∧ n ≠ ['"']) :
    crsLine c (cs!"DATUM " ++ n) = .ok { c with datum := n } := by
  have := splitQuoted_kw_tok (kw := cs!"DATUM") (by decide) (by decide) h.1 h.2
  unfold crsLine
  rw [show cs!"DATUM " ++ n = cs!"DATUM" ++ ' ' :: n from rfl, this]; rfl

theorem crsLine_axisName (c : Crs) {ts : List Str} (h : ∀ t ∈ ts, IsTok t ∧ t ≠ ['"']) :
    crsLine c (cs!"AXIS_NAME" ++ spaced ts) = .ok c := by
  unfold crsLine
  rw [splitQuoted_toks (by decide) h (by decide)]; rfl

theorem crsLine_axisUnit (c : Crs) {ts : List Str} (h : ∀ t ∈ ts, IsTok t ∧ t ≠ ['"']) :
    crsLine c (cs!"AXIS_UNIT" ++ spaced ts) = .ok c := by
  unfold crsLine
  rw [splitQuoted_toks (by decide) h (by decide)]; rfl

theorem crsLine_z (c : Crs) (b : Bool) :
    crsLine c (cs!"ZPOSITIVE " ++ (if b then cs!"Elevation" else cs!"Depth")) = .ok { c with zPos := b } := by
  cases b <;> rfl

theorem readCrsLoop_cons {c : Crs} {l : Str} {ls : File} (h : startsWith l cs!"END_ORIGINAL_COORDINATE_SYSTEM" = false) :
    readCrsLoop c (l :: ls) = (crsLine c l >>= fun c' => readCrsLoop c' ls) := by
  rw [readCrsLoop]; simp [h]

theorem readCrsLoop_section {pre : File} (h : ∀ l ∈ pre, startsWith l cs!"END_ORIGINAL_COORDINATE_SYSTEM" = false)
    (c : Crs) (rest : File) :
    readCrsLoop c (pre ++ cs!"END_ORIGINAL_COORDINATE_SYSTEM" :: rest) =
      (Res.foldM' crsLine c pre >>= fun c' => .ok (c', rest)) := by
  induction pre generalizing c with
  | nil => rfl
  | cons l ls ih =>
    rw [List.cons_append, readCrsLoop_cons (h l (by simp)), Res.foldM'_cons, Res.bind_assoc']
    congr 1; funext c'
    exact ih (fun x hx => h x (by simp [hx])) c'

/-- The coordinate system is read back, except for axis names and units, which the reader ignores. -/
theorem readCrs_writeCrs {c : Crs} (h : GoodCrs c) (rest : File) :
    readCrs (writeCrs c ++ rest) =
      .ok ({ zPos := c.zPos, name := c.name, projection := c.projection, datum := c.datum }, rest) := by
  have e : writeCrs c ++ rest = cs!"GOCAD_ORIGINAL_COORDINATE_SYSTEM" :: ([
    cs!"NAME " ++ writeQuoted c.name,
    cs!"PROJECTION " ++ c.projection,
    cs!"DATUM " ++ c.datum,
    cs!"AXIS_NAME" ++ spaced [c.axisNames.1, c.axisNames.2.1, c.axisNames.2.2],
    cs!"AXIS_UNIT" ++ spaced [c.axisUnits.1, c.axisUnits.2.1, c.axisUnits.2.2],
    cs!"ZPOSITIVE " ++ (if c.zPos then cs!"Elevation" else cs!"Depth")] ++
      cs!"END_ORIGINAL_COORDINATE_SYSTEM" :: rest) := rfl
  rw [e]
  unfold readCrs
  rw [nextKeyword?, if_pos (startsWith_self _)]
  simp only
  rw [readCrsLoop_section]
  · simp only [Res.foldM'_cons, Res.foldM'_nil, crsLine_name _ h.name, crsLine_projection _ h.projection,
      crsLine_datum _ h.datum, crsLine_axisName _ h.names, crsLine_axisUnit _ h.units, crsLine_z, Res.ok_bind]
  · intro l hl
    simp only [List.mem_cons, List.not_mem_nil, or_false] at hl
    rcases hl with rfl | rfl | rfl | rfl | rfl | rfl <;> rfl

theorem goodCrs_default : GoodCrs {} where
  name := by decide
  projection := by decide
  datum := by decide
  names := by decide
  units := by decide

theorem readCrs_default (rest : File) : readCrs (writeCrs {} ++ rest) = .ok ({}, rest) :=
  readCrs_writeCrs goodCrs_default rest

/-! ## Going to a keyword -/

theorem gotoKeyword?_skip {kw : Str} {pre : File} (h : ∀ l ∈ pre, startsWith l kw = false) (rest : File) :
    gotoKeyword? kw (pre ++ rest) = gotoKeyword? kw rest := by
  induction pre with
  | nil => rfl
  | cons l ls ih =>
    rw [List.cons_append, gotoKeyword?, if_neg (by simp [h l (by simp)]), ih (fun x hx => h x (by simp [hx]))]

theorem gotoKeyword_skip {kw : Str} {pre : File} (h : ∀ l ∈ pre, startsWith l kw = false) (rest : File) :
    gotoKeyword kw (pre ++ rest) = gotoKeyword kw rest := by
  unfold gotoKeyword; rw [gotoKeyword?_skip h]

theorem gotoKeyword_here {kw l : Str} (h : startsWith l kw = true) (rest : File) :
    gotoKeyword kw (l :: rest) = .ok (l, rest) := by
  simp [gotoKeyword, gotoKeyword?, h]

theorem gotoKeywords_skip {kws : List Str} {pre : File} (h : ∀ l ∈ pre, kws.any (startsWith l) = false) (rest : File) :
    gotoKeywords kws (pre ++ rest) = gotoKeywords kws rest := by
  induction pre with
  | nil => rfl
  | cons l ls ih =>
    rw [List.cons_append, gotoKeywords, if_neg (by rw [h l (by simp)]; simp), ih (fun x hx => h x (by simp [hx]))]

end Verif.Gocad
