import Verif.Props.LsoIndicators
import Verif.Props.WlOutcomes
import Verif.Lemmas.GocadLoad

/-!
# C162: the property headers

What `read_prop_header` reads from any text.  Theorems about `Model.Gocad`.
-/

namespace Verif.Props.PropHeaders

open Verif Verif.Gocad Verif.Props.WlOutcomes Verif.Props.LsoIndicators Res

variable {D : Type} [Num D]

/-! ## Words in quotes -/

/-- The words of a line in which those between a quote alone and a word that ends with a quote are put together, separated by blanks. -/
inductive Quoted : List Str → List Str → Prop
  | nil : Quoted [] []
  | word {t ts ws} (h : t ≠ ['"']) (h' : Quoted ts ws) : Quoted (t :: ts) (t :: ws)
  | quote {inner close ts ws} (h1 : ∀ x ∈ inner, x.getLast? ≠ some '"') (h2 : close.getLast? = some '"') (h3 : Quoted ts ws) :
      Quoted (['"'] :: (inner ++ close :: ts)) ((inner.flatMap (fun x => x ++ [' ']) ++ close.dropLast) :: ws)

theorem merge_inside (inner : List Str) (acc close : Str) (ts : List Str) (h1 : ∀ x ∈ inner, x.getLast? ≠ some '"') (h2 : close.getLast? = some '"') :
    mergeQuoted (some acc) (inner ++ close :: ts) =
      mergeQuoted none ts >>= fun r => .ok ((acc ++ inner.flatMap (fun x => x ++ [' ']) ++ close.dropLast) :: r) := by
  induction inner generalizing acc with
  | nil =>
    rw [List.nil_append, mergeQuoted, if_pos h2]
    have hc : close ≠ [] := by rintro rfl; simp at h2
    simp [List.dropLast_append_of_ne_nil hc]
  | cons x inner ih =>
    rw [List.cons_append, mergeQuoted, if_neg (h1 x (by simp)), ih _ fun y hy => h1 y (by simp [hy])]
    simp

theorem merge_inv (ts : List Str) : (∀ ws, mergeQuoted none ts = .ok ws → Quoted ts ws) ∧ ∀ acc ws, mergeQuoted (some acc) ts = .ok ws →
    ∃ inner close ts' ws', ts = inner ++ close :: ts' ∧ (∀ x ∈ inner, x.getLast? ≠ some '"') ∧ close.getLast? = some '"' ∧ Quoted ts' ws' ∧
      ws = (acc ++ inner.flatMap (fun x => x ++ [' ']) ++ close.dropLast) :: ws' := by
  induction ts with
  | nil =>
    constructor
    · intro ws h; cases h; exact .nil
    · intro acc ws h; cases h
  | cons t ts ih =>
    constructor
    · intro ws h
      rw [mergeQuoted] at h
      split at h
      · rename_i ht
        subst ht
        obtain ⟨inner, close, ts', ws', rfl, h1, h2, h3, rfl⟩ := ih.2 _ _ h
        simpa using Quoted.quote h1 h2 h3
      · rename_i ht
        obtain ⟨r, h1, h⟩ := bind_eq_ok.1 h
        cases h
        exact .word ht (ih.1 _ h1)
    · intro acc ws h
      rw [mergeQuoted] at h
      split at h
      · rename_i ht
        obtain ⟨r, h1, h⟩ := bind_eq_ok.1 h
        cases h
        have hc : t ≠ [] := by rintro rfl; simp at ht
        exact ⟨[], t, ts, r, rfl, by simp, ht, ih.1 _ h1, by simp [List.dropLast_append_of_ne_nil hc]⟩
      · rename_i ht
        obtain ⟨inner, close, ts', ws', rfl, h1, h2, h3, rfl⟩ := ih.2 _ _ h
        refine ⟨t :: inner, close, ts', ws', rfl, ?_, h2, h3, by simp⟩
        intro x hx
        rcases List.mem_cons.1 hx with rfl | hx
        · exact ht
        · exact h1 x hx

/-- The words read from a line with quotes. -/
theorem quoted_iff {s : Str} {ws : List Str} : splitQuoted s = .ok ws ↔ Quoted (split s) ws := by
  constructor
  · exact (merge_inv _).1 ws
  · intro h
    unfold splitQuoted
    generalize split s = ts at h
    induction h with
    | nil => rfl
    | word h _ ih => rw [mergeQuoted, if_neg h, ih]; rfl
    | quote h1 h2 _ ih => rw [mergeQuoted, if_pos rfl, merge_inside _ _ _ _ h1 h2, ih]; simp

theorem merge_outcomes (a : Option Str) (ts : List Str) : (∃ ws, mergeQuoted a ts = .ok ws) ∨ mergeQuoted a ts = .ub := by
  induction ts generalizing a with
  | nil => cases a <;> simp [mergeQuoted]
  | cons t ts ih =>
    cases a with
    | none =>
      rw [mergeQuoted]
      split
      · exact ih _
      · rcases ih none with ⟨ws, h⟩ | h <;> rw [h]
        · exact Or.inl ⟨_, rfl⟩
        · exact Or.inr rfl
    | some acc =>
      rw [mergeQuoted]
      split
      · rcases ih none with ⟨ws, h⟩ | h <;> rw [h]
        · exact Or.inl ⟨_, rfl⟩
        · exact Or.inr rfl
      · exact ih _

/-- A quotation that is not closed is undefined behaviour. -/
theorem quoted_ub {s : Str} : splitQuoted s = .ub ↔ ¬ ∃ ws, Quoted (split s) ws := by
  constructor
  · rintro h ⟨ws, hw⟩
    rw [quoted_iff.2 hw] at h
    cases h
  · intro h
    rcases merge_outcomes none (split s) with ⟨ws, hw⟩ | hu
    · exact absurd ⟨ws, quoted_iff.1 hw⟩ h
    · exact hu

/-! ## The lines of a header -/

theorem takeN_iff {n : Nat} {ts r : List Str} : takeN n ts = .ok r ↔ n ≤ ts.length ∧ r = ts.take n := by
  induction n generalizing ts r with
  | zero => simp [takeN, eq_comm]
  | succ n ih =>
    cases ts with
    | nil => simp [takeN]
    | cons t ts =>
      rw [takeN]
      constructor
      · intro h
        obtain ⟨r', h1, h⟩ := bind_eq_ok.1 h
        obtain ⟨h2, rfl⟩ := ih.1 h1
        cases h
        exact ⟨by simpa using h2, by simp⟩
      · rintro ⟨h1, rfl⟩
        rw [ih.2 ⟨by simpa using h1, rfl⟩]
        simp

theorem takeN_ub {n : Nat} {ts : List Str} : takeN n ts = .ub ↔ ts.length < n := by
  induction n generalizing ts with
  | zero => simp [takeN]
  | succ n ih =>
    cases ts with
    | nil => simp [takeN]
    | cons t ts =>
      rw [takeN]
      by_cases h : ts.length < n
      · rw [ih.2 h]
        simp [h]
      · rw [takeN_iff.2 ⟨by omega, rfl⟩]
        simp [h]

/-- Two words for each property, four when the first one is `LINEARFUNCTION`. -/
inductive Pairs : Nat → List Str → List (Str × Str) → Prop
  | done {ws} : Pairs 0 ws []
  | linear {n b c d ws ps} (h : Pairs n ws ps) : Pairs (n + 1) (cs!"LINEARFUNCTION" :: b :: c :: d :: ws) ((cs!"LINEARFUNCTION", b) :: ps)
  | last {b ws} (h : ws.length < 2) : Pairs 1 (cs!"LINEARFUNCTION" :: b :: ws) [(cs!"LINEARFUNCTION", b)]
  | plain {n a b ws ps} (ha : a ≠ cs!"LINEARFUNCTION") (h : Pairs n ws ps) : Pairs (n + 1) (a :: b :: ws) ((a, b) :: ps)

theorem pairs_iff {n : Nat} {ws : List Str} {ps : List (Str × Str)} : takePairs n ws = .ok ps ↔ Pairs n ws ps := by
  constructor
  · intro h
    induction n generalizing ws ps with
    | zero => cases h; exact .done
    | succ n ih =>
      rcases ws with _ | ⟨a, _ | ⟨b, ws⟩⟩
      · cases h
      · cases h
      · rw [takePairs] at h
        obtain ⟨r, h1, h⟩ := bind_eq_ok.1 h
        cases h
        split at h1
        · rename_i ha
          subst ha
          rcases ws with _ | ⟨c, _ | ⟨d, ws⟩⟩
          · cases n with
            | zero => cases h1; exact .last (by simp)
            | succ n => cases h1
          · cases n with
            | zero => cases h1; exact .last (by simp)
            | succ n => cases h1
          · exact .linear (ih h1)
        · rename_i ha
          exact .plain ha (ih h1)
  · intro h
    induction h with
    | done => rfl
    | linear _ ih => rw [takePairs, if_pos rfl, List.drop_succ_cons, List.drop_succ_cons, List.drop_zero, ih]; rfl
    | last h => rw [takePairs]; rfl
    | plain ha _ ih => rw [takePairs, if_neg ha, ih]; rfl

/-- The words after the keyword, in the first line that starts with it. -/
def Words (kw : Str) (n : Nat) (f : File) (ws : List Str) (rest : File) : Prop :=
  ∃ l k ts, First kw f l rest ∧ split l = k :: ts ∧ n ≤ ts.length ∧ ws = ts.take n

/-- The same, with the words in quotes put together. -/
def QuotedWords (kw : Str) (n : Nat) (f : File) (ws : List Str) (rest : File) : Prop :=
  ∃ l k ts, First kw f l rest ∧ Quoted (split l) (k :: ts) ∧ n ≤ ts.length ∧ ws = ts.take n

/-- The same, with pairs. -/
def PairWords (kw : Str) (n : Nat) (f : File) (ps : List (Str × Str)) (rest : File) : Prop :=
  ∃ l k ts, First kw f l rest ∧ split l = k :: ts ∧ Pairs n ts ps

theorem split_starts {l kw : Str} {c : Char} (hc : isWs c = false) (h : startsWith l (c :: kw) = true) : split l ≠ [] := by
  obtain ⟨t, rfl⟩ := List.isPrefixOf_iff_prefix.1 h
  rw [List.cons_append]
  exact split_ne_nil hc _

theorem quoted_ne {ts ws : List Str} (h : Quoted ts ws) : ts = [] ↔ ws = [] := by
  cases h <;> simp

theorem readDouble_ok {w : Str} {v : D} : (readDouble w : Res D) = .ok v ↔ Num.parse w = some v := by
  unfold readDouble
  cases (Num.parse w : Option D) <;> simp [Res.ofParse]

theorem readIndex_ok {w : Str} {v : Nat} : readIndex w = .ok v ↔ parseIndex w = some v := by
  unfold readIndex
  cases parseIndex w <;> simp [Res.ofParse]

theorem mapM'_iff {α β : Type} {f : α → Res β} {as : List α} {bs : List β} : Res.mapM' f as = .ok bs ↔ List.Forall₂ (fun a b => f a = .ok b) as bs := by
  induction as generalizing bs with
  | nil => simp [eq_comm]
  | cons a as ih =>
    rw [mapM'_cons]
    constructor
    · intro h
      obtain ⟨b, h1, h⟩ := bind_eq_ok.1 h
      obtain ⟨bs, h2, h⟩ := bind_eq_ok.1 h
      cases h
      exact .cons h1 (ih.1 h2)
    · intro h
      cases h with
      | cons h1 h2 => rw [h1, ok_bind, ih.2 h2]; rfl

variable {c : Char} {kw : Str}

theorem strings_iff (hc : isWs c = false) {n : Nat} {f : File} {ws : List Str} {rest : File} :
    readOneString (c :: kw) n f = .ok (ws, rest) ↔ QuotedWords (c :: kw) n f ws rest := by
  unfold readOneString QuotedWords
  constructor
  · intro h
    obtain ⟨⟨l, f1⟩, h1, h⟩ := bind_eq_ok.1 h
    obtain ⟨toks, h2, h⟩ := bind_eq_ok.1 h
    obtain ⟨r, h3, h⟩ := bind_eq_ok.1 h
    cases h
    obtain ⟨h4, rfl⟩ := takeN_iff.1 h3
    have hf := goto_iff.1 h1
    have hq := quoted_iff.1 h2
    cases toks with
    | nil => exact absurd ((quoted_ne hq).2 rfl) (split_starts hc hf.choose_spec.2.1)
    | cons k ts => exact ⟨l, k, ts, hf, hq, h4, rfl⟩
  · rintro ⟨l, k, ts, h1, h2, h3, rfl⟩
    rw [goto_iff.2 h1, ok_bind]
    dsimp only
    rw [quoted_iff.2 h2, ok_bind, List.tail_cons, takeN_iff.2 ⟨h3, rfl⟩]
    rfl

theorem doubles_iff (hc : isWs c = false) {n : Nat} {f : File} {vs : List D} {rest : File} :
    readOneDouble (c :: kw) n f = .ok (vs, rest) ↔ ∃ ws, Words (c :: kw) n f ws rest ∧ List.Forall₂ (fun w v => Num.parse w = some v) ws vs := by
  unfold readOneDouble Words
  constructor
  · intro h
    obtain ⟨⟨l, f1⟩, h1, h⟩ := bind_eq_ok.1 h
    obtain ⟨toks, h2, h⟩ := bind_eq_ok.1 h
    obtain ⟨r, h3, h⟩ := bind_eq_ok.1 h
    cases h
    obtain ⟨h4, rfl⟩ := takeN_iff.1 h2
    have hf := goto_iff.1 h1
    simp only [mapM'_iff, readDouble_ok] at h3
    cases hs : split l with
    | nil => exact absurd hs (split_starts hc hf.choose_spec.2.1)
    | cons k ts =>
      rw [hs] at h4 h3
      exact ⟨_, ⟨l, k, ts, hf, hs, h4, rfl⟩, h3⟩
  · rintro ⟨_, ⟨l, k, ts, h1, h2, h3, rfl⟩, h4⟩
    rw [goto_iff.2 h1, ok_bind]
    dsimp only
    rw [h2, List.tail_cons, takeN_iff.2 ⟨h3, rfl⟩, ok_bind, mapM'_iff.2 (by simpa only [readDouble_ok] using h4)]
    rfl

theorem indices_iff (hc : isWs c = false) {n : Nat} {f : File} {vs : List Nat} {rest : File} :
    readOneIndex (c :: kw) n f = .ok (vs, rest) ↔ ∃ ws, Words (c :: kw) n f ws rest ∧ List.Forall₂ (fun w v => parseIndex w = some v) ws vs := by
  unfold readOneIndex Words
  constructor
  · intro h
    obtain ⟨⟨l, f1⟩, h1, h⟩ := bind_eq_ok.1 h
    obtain ⟨toks, h2, h⟩ := bind_eq_ok.1 h
    obtain ⟨r, h3, h⟩ := bind_eq_ok.1 h
    cases h
    obtain ⟨h4, rfl⟩ := takeN_iff.1 h2
    have hf := goto_iff.1 h1
    simp only [mapM'_iff, readIndex_ok] at h3
    cases hs : split l with
    | nil => exact absurd hs (split_starts hc hf.choose_spec.2.1)
    | cons k ts =>
      rw [hs] at h4 h3
      exact ⟨_, ⟨l, k, ts, hf, hs, h4, rfl⟩, h3⟩
  · rintro ⟨_, ⟨l, k, ts, h1, h2, h3, rfl⟩, h4⟩
    rw [goto_iff.2 h1, ok_bind]
    dsimp only
    rw [h2, List.tail_cons, takeN_iff.2 ⟨h3, rfl⟩, ok_bind, mapM'_iff.2 (by simpa only [readIndex_ok] using h4)]
    rfl

theorem twos_iff (hc : isWs c = false) {n : Nat} {f : File} {ps : List (Str × Str)} {rest : File} :
    readTwoStrings (c :: kw) n f = .ok (ps, rest) ↔ PairWords (c :: kw) n f ps rest := by
  unfold readTwoStrings PairWords
  constructor
  · intro h
    obtain ⟨⟨l, f1⟩, h1, h⟩ := bind_eq_ok.1 h
    obtain ⟨r, h3, h⟩ := bind_eq_ok.1 h
    cases h
    have hf := goto_iff.1 h1
    have h3 := pairs_iff.1 h3
    cases hs : split l with
    | nil => exact absurd hs (split_starts hc hf.choose_spec.2.1)
    | cons k ts =>
      rw [hs] at h3
      exact ⟨l, k, ts, hf, hs, h3⟩
  · rintro ⟨l, k, ts, h1, h2, h3⟩
    rw [goto_iff.2 h1, ok_bind]
    dsimp only
    rw [h2, List.tail_cons, pairs_iff.2 h3]
    rfl

/-! ## The header -/

/-- The lines of a property header of `n` properties, after the one that names them, each searched after the previous one. -/
structure Lines (p : Str) (n : Nat) (f : File) (h : PropHeader D) (rest : File) : Prop where
  read : ∃ f1 f2 f3 f4 f5 f6 ds es, PairWords (p ++ cs!"PROP_LEGAL_RANGES") n f h.ranges f1 ∧ Words (p ++ cs!"NO_DATA_VALUES") n f1 ds f2 ∧
    QuotedWords (p ++ cs!"PROPERTY_CLASSES") n f2 h.classes f3 ∧ QuotedWords (p ++ cs!"PROPERTY_KINDS") n f3 h.kinds f4 ∧
    PairWords (p ++ cs!"PROPERTY_SUBCLASSES") n f4 h.subclasses f5 ∧ Words (p ++ cs!"ESIZES") n f5 es f6 ∧
    QuotedWords (p ++ cs!"UNITS") n f6 h.units rest ∧ List.Forall₂ (fun w v => Num.parse w = some v) ds h.noData ∧
    List.Forall₂ (fun w v => parseIndex w = some v) es h.esizes

/-- The header that is read: nothing when the next line does not name properties. -/
def Header (p : Str) (f : File) (h : PropHeader D) (rest : File) : Prop :=
  ((∀ l ∈ f.head?, startsWith l (p ++ cs!"PROPERTIES") = false) ∧ h = {} ∧ rest = f) ∨
  ∃ l f' k names, f = l :: f' ∧ startsWith l (p ++ cs!"PROPERTIES") = true ∧ Quoted (split l) (k :: names) ∧
    ((names = [] ∧ h = {} ∧ rest = f') ∨ (names ≠ [] ∧ h.names = names ∧ Lines p names.length f' h rest))

theorem lines_iff {p line : Str} (hp : ∀ c ∈ p.head?, isWs c = false) {f : File} {h : PropHeader D} {rest : File} {k : Str} {names : List Str}
    (hq : Quoted (split line) (k :: names)) : propLines p line f = .ok (h, rest) ↔
      (names = [] ∧ h = {} ∧ rest = f) ∨ (names ≠ [] ∧ h.names = names ∧ Lines p names.length f h rest) := by
  have hk : ∀ kw : Str, ∀ c0 : Char, isWs c0 = false → ∃ c kw', isWs c = false ∧ p ++ c0 :: kw = c :: kw' := by
    intro kw c0 h0
    cases p with
    | nil => exact ⟨c0, kw, h0, rfl⟩
    | cons c p => exact ⟨c, p ++ c0 :: kw, hp c (by simp), rfl⟩
  have twos : ∀ (kw : Str) (c0 : Char), isWs c0 = false → ∀ {n f ps rest}, readTwoStrings (p ++ c0 :: kw) n f = .ok (ps, rest) ↔ PairWords (p ++ c0 :: kw) n f ps rest := by
    intro kw c0 h0 n f ps rest
    obtain ⟨c, kw', hc, e⟩ := hk kw c0 h0
    rw [e]
    exact twos_iff hc
  have strs : ∀ (kw : Str) (c0 : Char), isWs c0 = false → ∀ {n f ps rest}, readOneString (p ++ c0 :: kw) n f = .ok (ps, rest) ↔ QuotedWords (p ++ c0 :: kw) n f ps rest := by
    intro kw c0 h0 n f ps rest
    obtain ⟨c, kw', hc, e⟩ := hk kw c0 h0
    rw [e]
    exact strings_iff hc
  have dbls : ∀ (kw : Str) (c0 : Char), isWs c0 = false → ∀ {n f rest} {vs : List D}, readOneDouble (p ++ c0 :: kw) n f = .ok (vs, rest) ↔
      ∃ ws, Words (p ++ c0 :: kw) n f ws rest ∧ List.Forall₂ (fun w v => Num.parse w = some v) ws vs := by
    intro kw c0 h0 n f ps rest
    obtain ⟨c, kw', hc, e⟩ := hk kw c0 h0
    rw [e]
    exact doubles_iff hc
  have idxs : ∀ (kw : Str) (c0 : Char), isWs c0 = false → ∀ {n f rest} {vs : List Nat}, readOneIndex (p ++ c0 :: kw) n f = .ok (vs, rest) ↔
      ∃ ws, Words (p ++ c0 :: kw) n f ws rest ∧ List.Forall₂ (fun w v => parseIndex w = some v) ws vs := by
    intro kw c0 h0 n f ps rest
    obtain ⟨c, kw', hc, e⟩ := hk kw c0 h0
    rw [e]
    exact indices_iff hc
  unfold propLines
  rw [quoted_iff.2 hq, ok_bind, List.tail_cons]
  by_cases hn : names = []
  · subst hn
    simp [eq_comm]
  · have hl : ¬ names.length = 0 := by simpa using hn
    rw [if_neg hl]
    constructor
    · intro hr
      obtain ⟨⟨r1, f1⟩, h1, hr⟩ := bind_eq_ok.1 hr
      obtain ⟨⟨r2, f2⟩, h2, hr⟩ := bind_eq_ok.1 hr
      obtain ⟨⟨r3, f3⟩, h3, hr⟩ := bind_eq_ok.1 hr
      obtain ⟨⟨r4, f4⟩, h4, hr⟩ := bind_eq_ok.1 hr
      obtain ⟨⟨r5, f5⟩, h5, hr⟩ := bind_eq_ok.1 hr
      obtain ⟨⟨r6, f6⟩, h6, hr⟩ := bind_eq_ok.1 hr
      obtain ⟨⟨r7, f7⟩, h7, hr⟩ := bind_eq_ok.1 hr
      cases hr
      obtain ⟨ds, h2, h2'⟩ := (dbls _ _ (by decide)).1 h2
      obtain ⟨es, h6, h6'⟩ := (idxs _ _ (by decide)).1 h6
      exact Or.inr ⟨hn, rfl, ⟨f1, f2, f3, f4, f5, f6, ds, es, (twos _ _ (by decide)).1 h1, h2, (strs _ _ (by decide)).1 h3, (strs _ _ (by decide)).1 h4,
        (twos _ _ (by decide)).1 h5, h6, (strs _ _ (by decide)).1 h7, h2', h6'⟩⟩
    · rintro (⟨e, _⟩ | ⟨-, rfl, ⟨f1, f2, f3, f4, f5, f6, ds, es, h1, h2, h3, h4, h5, h6, h7, h8, h9⟩⟩)
      · exact absurd e hn
      · rw [(twos _ _ (by decide)).2 h1, ok_bind, (dbls _ _ (by decide)).2 ⟨ds, h2, h8⟩, ok_bind, (strs _ _ (by decide)).2 h3, ok_bind,
          (strs _ _ (by decide)).2 h4, ok_bind, (twos _ _ (by decide)).2 h5, ok_bind, (idxs _ _ (by decide)).2 ⟨es, h6, h9⟩, ok_bind,
          (strs _ _ (by decide)).2 h7, ok_bind]

/-- **C162**: the property headers that are read. -/
theorem header_iff {p : Str} (hp : ∀ c ∈ p.head?, isWs c = false) {f : File} {h : PropHeader D} {rest : File} :
    readPropHeader p f = .ok (h, rest) ↔ Header p f h rest := by
  rw [readPropHeader_eq]
  unfold Header
  cases f with
  | nil =>
    constructor
    · intro hr
      cases hr
      exact Or.inl ⟨by simp, rfl, rfl⟩
    · rintro (⟨-, rfl, rfl⟩ | ⟨l, f', _, _, e, _⟩)
      · rfl
      · cases e
  | cons l f =>
    simp only [nextKeyword?]
    cases hl : startsWith l (p ++ cs!"PROPERTIES") with
    | false =>
      constructor
      · intro hr
        cases hr
        refine Or.inl ⟨?_, rfl, rfl⟩
        intro x hx
        simp only [List.head?_cons, Option.mem_def, Option.some.injEq] at hx
        rw [← hx]
        exact hl
      · rintro (⟨-, rfl, rfl⟩ | ⟨l', f', _, _, e, hl', _⟩)
        · rfl
        · rw [← (List.cons.inj e).1, hl] at hl'; cases hl'
    | true =>
      simp only [if_true]
      constructor
      · intro hr
        right
        have hs : split l ≠ [] := by
          cases p with
          | nil => exact split_starts (c := 'P') (by decide) hl
          | cons c p => exact split_starts (hp c (by simp)) hl
        cases hq : splitQuoted l with
        | ok toks =>
          have hq' := quoted_iff.1 hq
          cases toks with
          | nil => exact absurd ((quoted_ne hq').2 rfl) hs
          | cons k names => exact ⟨l, f, k, names, rfl, hl, hq', (lines_iff hp hq').1 hr⟩
        | throw => rw [propLines, hq] at hr; cases hr
        | ub => rw [propLines, hq] at hr; cases hr
        | diverge => rw [propLines, hq] at hr; cases hr
      · rintro (⟨h1, _⟩ | ⟨l', f', k, names, e, -, hq, h⟩)
        · rw [h1 l (by simp)] at hl; cases hl
        · obtain ⟨rfl, rfl⟩ := List.cons.inj e
          exact (lines_iff hp hq).2 h

/-! ## The other outcomes -/

/-- A line that is not made for `n` properties: a quotation is not closed, or there are too few words. -/
def Bad (n : Nat) (l : Str) : Prop :=
  (¬ ∃ ws, Quoted (split l) ws) ∨ (∃ k ts, Quoted (split l) (k :: ts) ∧ ts.length < n) ∨ (split l).tail.length < n ∨ ¬ ∃ ps, Pairs n (split l).tail ps

theorem bind_ub {α β : Type} {r : Res α} {k : α → Res β} (h : r >>= k = .ub) : r = .ub ∨ ∃ a, r = .ok a ∧ k a = .ub := by
  cases r with
  | ok a => exact Or.inr ⟨a, rfl, h⟩
  | ub => exact Or.inl rfl
  | throw => cases h
  | diverge => cases h

theorem goto_ne_ub (kw : Str) (f : File) : gotoKeyword kw f ≠ .ub := by
  unfold gotoKeyword
  cases gotoKeyword? kw f <;> simp [Res.ofParse]

theorem mapM'_ne_ub {α β : Type} {f : α → Res β} (hf : ∀ a, f a ≠ .ub) (as : List α) : Res.mapM' f as ≠ .ub := by
  induction as with
  | nil => simp
  | cons a as ih =>
    rw [mapM'_cons]
    intro h
    rcases bind_ub h with h | ⟨b, -, h⟩
    · exact hf a h
    · rcases bind_ub h with h | ⟨bs, -, h⟩
      · exact ih h
      · cases h

theorem pairs_ub {n : Nat} {ws : List Str} (h : takePairs n ws = .ub) : ¬ ∃ ps, Pairs n ws ps := by
  rintro ⟨ps, hp⟩
  rw [pairs_iff.2 hp] at h
  cases h

/-- A line of `f` that starts with `kw` and is not made for `n` properties. -/
def HasBad (kw : Str) (n : Nat) (f : File) : Prop := ∃ l ∈ f, startsWith l kw = true ∧ Bad n l

theorem first_mem {kw : Str} {f : File} {l : Str} {rest : File} (h : First kw f l rest) : l ∈ f ∧ startsWith l kw = true := by
  obtain ⟨pre, rfl, hl, -⟩ := h
  exact ⟨by simp, hl⟩

theorem strings_ub {n : Nat} {f : File} (h : readOneString kw n f = .ub) : HasBad kw n f := by
  unfold readOneString at h
  rcases bind_ub h with h | ⟨⟨l, f1⟩, h1, h⟩
  · exact absurd h (goto_ne_ub _ _)
  · have hm := first_mem (goto_iff.1 h1)
    refine ⟨l, hm.1, hm.2, ?_⟩
    rcases bind_ub h with h | ⟨toks, h2, h⟩
    · exact Or.inl (quoted_ub.1 h)
    · rcases bind_ub h with h | ⟨_, -, h⟩
      · have hq := quoted_iff.1 h2
        cases toks with
        | nil =>
          refine Or.inr (Or.inr (Or.inl ?_))
          rw [(quoted_ne hq).2 rfl]
          exact takeN_ub.1 h
        | cons k ts => exact Or.inr (Or.inl ⟨k, ts, hq, takeN_ub.1 h⟩)
      · cases h

theorem twos_ub {n : Nat} {f : File} (h : readTwoStrings kw n f = .ub) : HasBad kw n f := by
  unfold readTwoStrings at h
  rcases bind_ub h with h | ⟨⟨l, f1⟩, h1, h⟩
  · exact absurd h (goto_ne_ub _ _)
  · have hm := first_mem (goto_iff.1 h1)
    refine ⟨l, hm.1, hm.2, ?_⟩
    rcases bind_ub h with h | ⟨toks, h2, h⟩
    · exact Or.inr (Or.inr (Or.inr (pairs_ub h)))
    · cases h

theorem doubles_ub {n : Nat} {f : File} (h : (readOneDouble kw n f : Res (List D × File)) = .ub) : HasBad kw n f := by
  unfold readOneDouble at h
  rcases bind_ub h with h | ⟨⟨l, f1⟩, h1, h⟩
  · exact absurd h (goto_ne_ub _ _)
  · have hm := first_mem (goto_iff.1 h1)
    refine ⟨l, hm.1, hm.2, ?_⟩
    rcases bind_ub h with h | ⟨toks, h2, h⟩
    · exact Or.inr (Or.inr (Or.inl (takeN_ub.1 h)))
    · rcases bind_ub h with h | ⟨_, -, h⟩
      · refine absurd h (mapM'_ne_ub (fun w => ?_) _)
        unfold readDouble
        cases (Num.parse w : Option D) <;> simp [Res.ofParse]
      · cases h

theorem indices_ub {n : Nat} {f : File} (h : readOneIndex kw n f = .ub) : HasBad kw n f := by
  unfold readOneIndex at h
  rcases bind_ub h with h | ⟨⟨l, f1⟩, h1, h⟩
  · exact absurd h (goto_ne_ub _ _)
  · have hm := first_mem (goto_iff.1 h1)
    refine ⟨l, hm.1, hm.2, ?_⟩
    rcases bind_ub h with h | ⟨toks, h2, h⟩
    · exact Or.inr (Or.inr (Or.inl (takeN_ub.1 h)))
    · rcases bind_ub h with h | ⟨_, -, h⟩
      · refine absurd h (mapM'_ne_ub (fun w => ?_) _)
        unfold readIndex
        cases parseIndex w <;> simp [Res.ofParse]
      · cases h

theorem hasBad_suffix {kw : Str} {n : Nat} {f g : File} (h : HasBad kw n g) (hs : g <:+ f) : HasBad kw n f := by
  obtain ⟨l, hl, h⟩ := h
  exact ⟨l, hs.subset hl, h⟩

/-- The keywords of the lines after the names. -/
def keywords : List Str :=
  [cs!"PROP_LEGAL_RANGES", cs!"NO_DATA_VALUES", cs!"PROPERTY_CLASSES", cs!"PROPERTY_KINDS", cs!"PROPERTY_SUBCLASSES", cs!"ESIZES", cs!"UNITS"]

/-- **C162, the other outcomes**: a header that is not read is refused, unless a line of the file has a quotation that is not closed or too few words for the properties
that are named. -/
theorem header_outcomes_partial {p : Str} {l : Str} {f : File} {k : Str} {names : List Str} (hl : startsWith l (p ++ cs!"PROPERTIES") = true)
    (hq : Quoted (split l) (k :: names)) (hg : ∀ kw ∈ keywords, ¬ HasBad (p ++ kw) names.length f) :
    (∃ h rest, (readPropHeader p (l :: f) : Res (PropHeader D × File)) = .ok (h, rest)) ∨ (readPropHeader p (l :: f) : Res (PropHeader D × File)) = .throw := by
  have key : (readPropHeader p (l :: f) : Res (PropHeader D × File)) = propLines p l f := by
    rw [readPropHeader_eq]
    simp only [nextKeyword?, hl, if_true]
  cases hr : (readPropHeader p (l :: f) : Res (PropHeader D × File)) with
  | ok r => exact Or.inl ⟨r.1, r.2, rfl⟩
  | throw => exact Or.inr rfl
  | diverge => exact absurd hr (Verif.GocadMesh.readPropHeader_fwd _ _).1
  | ub =>
    exfalso
    rw [key, propLines, quoted_iff.2 hq, ok_bind, List.tail_cons] at hr
    split at hr
    · cases hr
    · have suf : ∀ {α : Type} {R : File → Res (α × File)} {f g : File} {a : α}, Local R → R f = .ok (a, g) → g <:+ f := by
        intro α R f g a hR h
        obtain ⟨u, rfl, -⟩ := hR _ _ _ h
        exact List.suffix_append _ _
      rcases bind_ub hr with h | ⟨⟨r1, f1⟩, h1, hr⟩
      · exact hg _ (by simp [keywords]) (twos_ub h)
      have s1 := suf (local_twoStrings _ _) h1
      rcases bind_ub hr with h | ⟨⟨r2, f2⟩, h2, hr⟩
      · exact hg _ (by simp [keywords]) (hasBad_suffix (doubles_ub h) s1)
      have s2 := (suf (local_oneDouble (D := D) _ _) h2).trans s1
      rcases bind_ub hr with h | ⟨⟨r3, f3⟩, h3, hr⟩
      · exact hg _ (by simp [keywords]) (hasBad_suffix (strings_ub h) s2)
      have s3 := (suf (local_oneString _ _) h3).trans s2
      rcases bind_ub hr with h | ⟨⟨r4, f4⟩, h4, hr⟩
      · exact hg _ (by simp [keywords]) (hasBad_suffix (strings_ub h) s3)
      have s4 := (suf (local_oneString _ _) h4).trans s3
      rcases bind_ub hr with h | ⟨⟨r5, f5⟩, h5, hr⟩
      · exact hg _ (by simp [keywords]) (hasBad_suffix (twos_ub h) s4)
      have s5 := (suf (local_twoStrings _ _) h5).trans s4
      rcases bind_ub hr with h | ⟨⟨r6, f6⟩, h6, hr⟩
      · exact hg _ (by simp [keywords]) (hasBad_suffix (indices_ub h) s5)
      have s6 := (suf (local_oneIndex _ _) h6).trans s5
      rcases bind_ub hr with h | ⟨⟨r7, f7⟩, h7, hr⟩
      · exact hg _ (by simp [keywords]) (hasBad_suffix (strings_ub h) s6)
      cases hr

/-- A header with two properties and a unit for one of them only. -/
def oneUnit : File := [cs!"PROPERTIES a b", cs!"PROP_LEGAL_RANGES 0 1 0 1", cs!"NO_DATA_VALUES 0 0", cs!"PROPERTY_CLASSES a b", cs!"PROPERTY_KINDS a b",
  cs!"PROPERTY_SUBCLASSES QUANTITY Float LINEARFUNCTION Float 1 2", cs!"ESIZES 1 3", cs!"UNITS m"]

/-- Its units are read out of bounds. -/
theorem one_unit_ub : (readPropHeader [] oneUnit : Res (PropHeader Int × File)) = .ub := by decide +kernel

/-- Without the last line it is refused. -/
theorem no_unit_throws : (readPropHeader [] (oneUnit.take 7) : Res (PropHeader Int × File)) = .throw := by decide +kernel

/-- With two units it is read (a test on one header). -/
example : Header [] (oneUnit.take 7 ++ [cs!"UNITS m \" cubic m\"", cs!"TFACE"]) (⟨[cs!"a", cs!"b"], [(cs!"0", cs!"1"), (cs!"0", cs!"1")], [0, 0], [cs!"a", cs!"b"],
    [cs!"a", cs!"b"], [(cs!"QUANTITY", cs!"Float"), (cs!"LINEARFUNCTION", cs!"Float")], [1, 3], [cs!"m", cs!"cubic m"]⟩ : PropHeader Int) [cs!"TFACE"] :=
  (header_iff (by simp)).1 (by decide +kernel)

/-- The hypotheses of `header_outcomes_partial` hold for a header of one line. -/
example : Quoted (split cs!"PROPERTIES a") [cs!"PROPERTIES", cs!"a"] ∧ ∀ kw ∈ keywords, ¬ HasBad ([] ++ kw) 1 [cs!"TFACE"] := by
  refine ⟨quoted_iff.1 (by decide), ?_⟩
  intro kw hk
  rintro ⟨l, hl, hs, -⟩
  simp only [List.mem_singleton] at hl
  subst hl
  revert hs
  revert kw
  decide

end Verif.Props.PropHeaders
