import Verif.Lemmas.GocadProps

/-!
# GOCAD text: names, quotes, property headers, property values (C10, C11, C13, C14, C17)
-/

namespace Verif.Props.GocadText

open Verif Verif.Gocad

variable {D : Type} [Num D]

/-! ## Names with blanks -/

/-- **C10.** A line made of a keyword and any list of names (each of one or more words separated by single blanks, without quote
characters) written with `write_string_with_quotes` is split back into the keyword and exactly those names. -/
theorem names_survive {kw : Str} (hk : IsTok kw) (hq : kw ≠ ['"']) {names : List Str} (h : ∀ s ∈ names, GoodName s) :
    splitQuoted (kw ++ spaced (names.map writeQuoted)) = .ok (kw :: names) :=
  splitQuoted_kw_names hk hq h

example : IsTok cs!"PROPERTIES" ∧ cs!"PROPERTIES" ≠ ['"'] ∧
    ∀ s ∈ [cs!"porosity", cs!"my own prop", cs!"a b"], GoodName s := by decide

/-- A name with a quote character inside does not survive: the quote is dropped on writing. -/
theorem quote_lost : splitQuoted (cs!"UNITS" ++ spaced ([cs!"5\"pipe"].map writeQuoted)) = .ok [cs!"UNITS", cs!"5pipe"] := by
  decide +kernel

/-- **C11.** The property header written for any list of properties is read back field by field (no-data values up to formatting),
and the reader stops exactly after it. -/
theorem header_roundtrip [LawfulNum D] {h : PropHeader D} (g : GoodProps h) (rest : File) :
    readPropHeader [] (writePropHeader h ++ rest) = .ok ({ h with noData := h.noData.map Num.round }, rest) :=
  readPropHeader_write g rest

example : GoodProps ({
      names := [cs!"porosity", cs!"my own prop"], ranges := [(cs!"0", cs!"1"), (cs!"**none**", cs!"**none**")],
      noData := [-1, -99999], classes := [cs!"porosity", cs!"my class"], kinds := [cs!"Real Number", cs!"Real Number"],
      subclasses := [(cs!"QUANTITY", cs!"Float"), (cs!"QUANTITY", cs!"Float")], esizes := [1, 3],
      units := [cs!"none", cs!"square metre"] } : PropHeader Int) :=
  ⟨by decide, by decide, by decide, by decide, by decide, by decide, by decide, by decide, by decide, by decide, by decide,
   by decide, by decide, by decide, by decide⟩

/-! ## Object names -/

/-- **C17.** Whatever the name, what is read back is its words joined by single blanks with the quote characters removed; a name
without quotes whose words are separated by single blanks comes back unchanged. -/
theorem object_name (n : Str) (rest : File) :
    readHeader (writeHeader (some n) ++ rest) = .ok (some (dropQuotes (join (split n))), rest) ∧
      (join (split n) = n → '"' ∉ n → readHeader (writeHeader (some n) ++ rest) = .ok (some n, rest)) := by
  refine ⟨readHeader_writeHeader (some n) rest, fun h1 h2 => ?_⟩
  rw [readHeader_writeHeader]
  simp [readName, h1, dropQuotes_of_not_mem h2]

/-- No quote character is ever read back in a name, and a name without quotes is read back in collapsed form: reading it again
changes nothing. -/
theorem object_name_collapsed (n : Str) : '"' ∉ readName (split n) ∧
    ('"' ∉ n → readName (split (readName (split n))) = readName (split n)) := by
  constructor
  · simp [readName, dropQuotes]
  · intro h
    have hq : '"' ∉ join (split n) := fun hc => h (mem_of_mem_join_split hc)
    have e : readName (split n) = join (split n) := by simp [readName, dropQuotes_of_not_mem hq]
    rw [e, split_join (fun t ht => isTok_of_mem_split ht), e]
where
  mem_of_mem_split {c : Char} {s t : Str} (ht : t ∈ split s) (hc : c ∈ t) : c ∈ s := by
    induction s generalizing t with
    | nil => simp [split] at ht
    | cons d s ih =>
      by_cases hd : isWs d = true
      · rw [split_cons_ws hd] at ht
        exact List.mem_cons_of_mem _ (ih ht hc)
      · simp only [Bool.not_eq_true] at hd
        cases s with
        | nil =>
          rw [split_single hd] at ht
          simp only [List.mem_singleton] at ht; subst ht
          simpa using hc
        | cons e s =>
          by_cases he : isWs e = true
          · rw [split_cons_then_ws hd he] at ht
            rcases List.mem_cons.1 ht with rfl | ht
            · simp only [List.mem_singleton] at hc; subst hc; simp
            · exact List.mem_cons_of_mem _ (ih (by rw [split_cons_ws he]; exact ht) hc)
          · simp only [Bool.not_eq_true] at he
            obtain ⟨u, us, h1, h2⟩ := split_cons_cons hd he s
            rw [h2] at ht
            rcases List.mem_cons.1 ht with rfl | ht
            · rcases List.mem_cons.1 hc with rfl | hc
              · simp
              · exact List.mem_cons_of_mem _ (ih (t := u) (by rw [h1]; simp) hc)
            · exact List.mem_cons_of_mem _ (ih (t := t) (by rw [h1]; simp [ht]) hc)
  mem_of_mem_join_split {s : Str} (hc : '"' ∈ join (split s)) : '"' ∈ s := by
    have key : ∀ ts : List Str, '"' ∈ join ts → ∃ t ∈ ts, '"' ∈ t := by
      intro ts
      induction ts with
      | nil => simp [join]
      | cons t ts ih =>
        cases ts with
        | nil => intro h; exact ⟨t, by simp, by simpa [join] using h⟩
        | cons u us =>
          intro h
          have e : join (t :: u :: us) = t ++ ' ' :: join (u :: us) := rfl
          rw [e] at h
          rcases List.mem_append.1 h with h | h
          · exact ⟨t, by simp, h⟩
          · rcases List.mem_cons.1 h with h | h
            · exact absurd h (by decide)
            · obtain ⟨w, hw, hq⟩ := ih h
              exact ⟨w, by simp [hw], hq⟩
    obtain ⟨t, ht, hq⟩ := key _ hc
    exact mem_of_mem_split ht hq

/-- With quotes in it, a name may even come back with two blanks in a row: `a " b`. -/
theorem object_name_double_blank : readName (split cs!"a \" b") = cs!"a  b" := by decide

/-! ## Unclosed quotes -/

/-- What C13 asks of a token list: an opening quote that is never closed is reported by an exception. -/
def UnclosedReported : Prop :=
  ∀ (pre post : List Str), (∀ t ∈ pre, t ≠ ['"']) → (∀ t ∈ post, t.getLast? ≠ some '"') →
    mergeQuoted none (pre ++ ['"'] :: post) = .throw

theorem mergeQuoted_unclosed (acc : Str) (post : List Str) (h : ∀ t ∈ post, t.getLast? ≠ some '"') :
    mergeQuoted (some acc) post = .ub := by
  induction post generalizing acc with
  | nil => rfl
  | cons t ts ih =>
    rw [mergeQuoted, if_neg (h t (by simp)), ih _ (fun x hx => h x (by simp [hx]))]

/-- What the code does instead, for every token list with an unclosed quote: it reads past the end of the tokens. -/
theorem unclosed_is_ub (pre post : List Str) (hp : ∀ t ∈ pre, t ≠ ['"']) (h : ∀ t ∈ post, t.getLast? ≠ some '"') :
    mergeQuoted none (pre ++ ['"'] :: post) = .ub := by
  induction pre with
  | nil => rw [List.nil_append, mergeQuoted, if_pos rfl, mergeQuoted_unclosed _ _ h]
  | cons t ts ih =>
    rw [List.cons_append, mergeQuoted, if_neg (hp t (by simp)), ih (fun x hx => hp x (by simp [hx]))]
    rfl

/-- **C13 is false of the code.** -/
theorem unclosed_not_reported : ¬ UnclosedReported := by
  intro h
  have h1 := h [cs!"UNITS"] [cs!"square", cs!"metre"] (by decide) (by decide)
  rw [unclosed_is_ub _ _ (by decide) (by decide)] at h1
  exact absurd h1 (by simp)

/-- A piece of a line: a plain token, or a quotation `" w1 ... wn last"`. -/
inductive Item where
  | plain (t : Str)
  | quoted (words : List Str) (last : Str)

/-- The tokens of a piece. -/
def Item.toks : Item → List Str
  | plain t => [t]
  | quoted ws l => ['"'] :: (ws ++ [l ++ ['"']])

/-- The string it stands for. -/
def Item.value : Item → Str
  | plain t => t
  | quoted ws l => join (ws ++ [l])

/-- A plain token is not the lone quote; the inner words of a quotation do not end with a quote. -/
def Item.Ok : Item → Prop
  | plain t => t ≠ ['"']
  | quoted ws _ => ∀ w ∈ ws, w.getLast? ≠ some '"'

theorem mergeQuoted_words (acc : Str) (ws : List Str) (last : Str) (rest : List Str) (h : ∀ w ∈ ws, w.getLast? ≠ some '"') :
    mergeQuoted (some acc) (ws ++ (last ++ ['"']) :: rest) =
      (mergeQuoted none rest >>= fun r => .ok ((acc ++ join (ws ++ [last])) :: r)) := by
  induction ws generalizing acc with
  | nil => simp [mergeQuoted, join, ← List.append_assoc]
  | cons w ws ih =>
    rw [List.cons_append, mergeQuoted, if_neg (h w (by simp)), ih _ (fun x hx => h x (by simp [hx]))]
    have : acc ++ w ++ [' '] ++ join (ws ++ [last]) = acc ++ join (w :: ws ++ [last]) := by
      cases ws <;> simp [join]
    rw [this]

/-- **C13, partial**: every line whose quotations are all closed is split into the strings it stands for.  The full statement is
`UnclosedReported`, refuted above: with `unclosed_is_ub` this covers every token list. -/
theorem closed_ok_partial (items : List Item) (h : ∀ i ∈ items, i.Ok) :
    mergeQuoted none (items.flatMap Item.toks) = .ok (items.map Item.value) := by
  induction items with
  | nil => rfl
  | cons i is ih =>
    have hi := h i (by simp)
    have ih := ih (fun x hx => h x (by simp [hx]))
    rw [List.flatMap_cons]
    cases i with
    | plain t =>
      simp only [Item.toks, List.singleton_append]
      rw [mergeQuoted, if_neg hi, ih]; rfl
    | quoted ws l =>
      simp only [Item.toks, List.cons_append, List.append_assoc, List.nil_append]
      rw [mergeQuoted, if_pos rfl, mergeQuoted_words _ _ _ _ hi, ih]; rfl

/-- Every token list is covered: closed pieces, possibly followed by one unclosed quotation. -/
theorem cover (ts : List Str) : ∃ items : List Item, (∀ i ∈ items, i.Ok) ∧
    (ts = items.flatMap Item.toks ∨ ∃ post, (∀ t ∈ post, t.getLast? ≠ some '"') ∧ ts = items.flatMap Item.toks ++ ['"'] :: post) := by
  suffices H : ∀ n (ts : List Str), ts.length ≤ n → ∃ items : List Item, (∀ i ∈ items, i.Ok) ∧
    (ts = items.flatMap Item.toks ∨
      ∃ post, (∀ t ∈ post, t.getLast? ≠ some '"') ∧ ts = items.flatMap Item.toks ++ ['"'] :: post) from H _ ts (Nat.le_refl _)
  intro n
  induction n with
  | zero =>
    intro ts h
    have : ts = [] := List.length_eq_zero_iff.1 (by omega)
    exact ⟨[], by simp, Or.inl (by simp [this])⟩
  | succ n ih =>
    intro ts h
    cases ts with
    | nil => exact ⟨[], by simp, Or.inl rfl⟩
    | cons t ts =>
      simp only [List.length_cons] at h
      by_cases ht : t = ['"']
      · subst ht
        -- look for the closing token
        rcases first_closing ts with hno | ⟨ws, l, rest, e, hw⟩
        · exact ⟨[], by simp, Or.inr ⟨ts, hno, by simp⟩⟩
        · obtain ⟨items, hok, hcase⟩ := ih rest (by rw [e] at h; simp at h; omega)
          refine ⟨.quoted ws l :: items, ?_, ?_⟩
          · intro i hi
            rcases List.mem_cons.1 hi with rfl | hi
            · exact hw
            · exact hok i hi
          · rcases hcase with hc | ⟨post, hp, hc⟩
            · left; rw [e, hc]; simp [Item.toks]
            · right; exact ⟨post, hp, by rw [e, hc]; simp [Item.toks]⟩
      · obtain ⟨items, hok, hcase⟩ := ih ts (by omega)
        refine ⟨.plain t :: items, ?_, ?_⟩
        · intro i hi
          rcases List.mem_cons.1 hi with rfl | hi
          · exact ht
          · exact hok i hi
        · rcases hcase with hc | ⟨post, hp, hc⟩
          · left; rw [hc]; simp [Item.toks]
          · right; exact ⟨post, hp, by rw [hc]; simp [Item.toks]⟩
where
  first_closing (ts : List Str) : (∀ t ∈ ts, t.getLast? ≠ some '"') ∨
      ∃ ws l rest, ts = ws ++ (l ++ ['"']) :: rest ∧ ∀ w ∈ ws, w.getLast? ≠ some '"' := by
    induction ts with
    | nil => left; simp
    | cons t ts ih =>
      by_cases h : t.getLast? = some '"'
      · right
        obtain ⟨l, hl⟩ := List.getLast?_eq_some_iff.1 h
        exact ⟨[], l, ts, by rw [hl]; rfl, by simp⟩
      · rcases ih with ih | ⟨ws, l, rest, e, hw⟩
        · left
          intro x hx
          rcases List.mem_cons.1 hx with rfl | hx
          · exact h
          · exact ih x hx
        · right
          refine ⟨t :: ws, l, rest, by rw [e]; rfl, ?_⟩
          intro w hw'
          rcases List.mem_cons.1 hw' with rfl | hw'
          · exact h
          · exact hw w hw'

example : ∀ i ∈ [Item.plain cs!"UNITS", .quoted [cs!"square"] cs!"metre", .plain cs!"m"], i.Ok := by
  intro i hi
  simp only [List.mem_cons, List.not_mem_nil, or_false] at hi
  rcases hi with rfl | rfl | rfl <;> (unfold Item.Ok; decide)

/-! ## Property values of a vertex line -/

/-- Specification: cut a row of values into one group per property and append each to its column. -/
def addRow : List Nat → List (List D) → List D → List (List D)
  | e :: es, c :: cols, row => (c ++ row.take e) :: addRow es cols (row.drop e)
  | _, cols, _ => cols

theorem readItems_all [LawfulNum D] (row : List D) (rest : List Str) :
    readItems row.length (row.map Num.fmt ++ rest) = .ok (row.map Num.round, rest) := by
  induction row with
  | nil => rfl
  | cons d ds ih => simp [readItems, ih]

theorem readItems_short [LawfulNum D] (e : Nat) (row : List D) (h : row.length < e) :
    (readItems e (row.map Num.fmt) : Res (List D × List Str)) = .throw := by
  induction e generalizing row with
  | zero => omega
  | succ e ih =>
    cases row with
    | nil => rfl
    | cons d ds =>
      simp only [List.map_cons, readItems, readDouble_fmt, Res.ok_bind]
      rw [ih ds (by simp at h; omega)]; rfl

/-- **C14, enough values**: with at least the announced number of values the row is added to the columns, whatever follows on the
line. -/
theorem values_read [LawfulNum D] (es : List Nat) (cols : List (List D)) (row : List D) (extra : List Str)
    (hc : cols.length = es.length) (hr : row.length = es.sum) :
    readProperties es cols (row.map Num.fmt ++ extra) = .ok (addRow es cols (row.map Num.round)) := by
  induction es generalizing cols row with
  | nil => cases cols <;> simp [readProperties, addRow]
  | cons e es ih =>
    cases cols with
    | nil => simp at hc
    | cons c cols =>
      simp only [List.sum_cons] at hr
      have hl : (row.take e).length = e := by simp; omega
      rw [readProperties]
      have h1 : readItems e (row.map Num.fmt ++ extra) =
          .ok ((row.take e).map Num.round, (row.drop e).map Num.fmt ++ extra) := by
        have := readItems_all (row.take e) ((row.drop e).map Num.fmt ++ extra)
        rw [hl, ← List.append_assoc, ← List.map_append, List.take_append_drop] at this
        exact this
      rw [h1, Res.ok_bind]
      simp only
      rw [ih cols (row.drop e) (by simpa using hc) (by simp; omega), Res.ok_bind]
      simp [addRow, List.map_take, List.map_drop]

/-- **C14, extra tokens**: adding tokens at the end of the line changes nothing. -/
theorem extra_ignored [LawfulNum D] (es : List Nat) (cols : List (List D)) (row : List D) (extra : List Str)
    (hc : cols.length = es.length) (hr : row.length = es.sum) :
    readProperties es cols (row.map Num.fmt ++ extra) = readProperties es cols (row.map Num.fmt) := by
  rw [values_read es cols row extra hc hr]
  have := values_read es cols row [] hc hr
  rw [List.append_nil] at this
  rw [this]

/-- **C14, missing values**: fewer values than announced raise an exception. -/
theorem missing_reported [LawfulNum D] (es : List Nat) (cols : List (List D)) (row : List D)
    (hc : cols.length = es.length) (hr : row.length < es.sum) :
    readProperties es cols (row.map Num.fmt) = .throw := by
  induction es generalizing cols row with
  | nil => simp at hr
  | cons e es ih =>
    cases cols with
    | nil => simp at hc
    | cons c cols =>
      simp only [List.sum_cons] at hr
      rw [readProperties]
      by_cases he : row.length < e
      · rw [readItems_short e row he]; rfl
      · have h1 : readItems e (row.map Num.fmt) = .ok ((row.take e).map Num.round, (row.drop e).map Num.fmt) := by
          have hl : (row.take e).length = e := by simp; omega
          have := readItems_all (row.take e) ((row.drop e).map Num.fmt)
          rw [hl, ← List.map_append, List.take_append_drop] at this
          exact this
        rw [h1, Res.ok_bind]
        simp only
        rw [ih cols (row.drop e) (by simpa using hc) (by simp; omega)]
        rfl

/-- **C14 on a vertex line of a TSurf**: too few values after the coordinates make the whole body throw. -/
theorem short_vertex_line_throws [LawfulNum D] (ts : TSurf D) (kw : Str) (hk : kw = cs!"VRTX" ∨ kw = cs!"PVRTX") {id : Nat} (hid : id < W)
    (p : Pt D) (row : List D) (hc : ts.attrs.length = ts.props.esizes.length) (hr : row.length < ts.props.esizes.sum) (rest : File) :
    readTfacesLoop ts ((kw ++ spaced (showNat id :: (p.toks ++ row.map Num.fmt))) :: rest) = .throw := by
  have hkt : IsTok kw := by rcases hk with rfl | rfl <;> decide
  have hke : kw ≠ cs!"END" := by rcases hk with rfl | rfl <;> decide
  have hsp : split (kw ++ spaced (showNat id :: (p.toks ++ row.map Num.fmt))) =
      kw :: showNat id :: (p.toks ++ row.map Num.fmt) := by
    apply split_kw_spaced hkt
    intro t ht
    rcases List.mem_cons.1 ht with rfl | ht
    · exact isTok_showNat _
    rcases List.mem_append.1 ht with ht | ht
    · simp only [Pt.toks, List.mem_cons, List.not_mem_nil, or_false] at ht
      rcases ht with rfl | rfl | rfl <;> exact LawfulNum.fmt_tok _
    · obtain ⟨d, _, rfl⟩ := List.mem_map.1 ht
      exact LawfulNum.fmt_tok _
  rw [readTfacesLoop, hsp]
  simp only [hke, if_false]
  rw [tsLine, if_pos hk]
  have hp : ∀ z, (readPoint z (kw :: showNat id :: (p.toks ++ row.map Num.fmt)) : Res (Pt D)) =
      .ok ⟨Num.round p.x, Num.round p.y, if z then Num.round p.z else Num.neg (Num.round p.z)⟩ := by
    intro z; simp [readPoint, Pt.toks]
  have hd : (kw :: showNat id :: (p.toks ++ row.map Num.fmt)).drop 5 = row.map Num.fmt := by simp [Pt.toks]
  unfold tsVrtx
  rw [hp, hd, missing_reported _ _ _ hc hr]
  by_cases he : ts.points.isEmpty = true
  · simp [he, readIndex_showNat hid]
  · simp [he]

example : ∃ (ts : TSurf Int) (row : List Int), ts.attrs.length = ts.props.esizes.length ∧ row.length < ts.props.esizes.sum ∧ row ≠ [] :=
  ⟨{ props := { esizes := [1, 3] }, attrs := [[], []] }, [1, 2, 3], by decide, by decide, by decide⟩

end Verif.Props.GocadText
