import Verif.Props.LsoRefused

/-!
# C171: the coordinate systems and property headers that are read out of bounds

For every text, when reading the coordinate system or the property header at the start of an object has undefined behaviour.
Theorems about `Model.Gocad`.
-/

namespace Verif.Props.HeadersRefused

open Verif Verif.Gocad Res
open Verif.Props.WlOutcomes (First goto_iff crsLine_else)
open Verif.Props.LsoIndicators (propLines readPropHeader_eq)
open Verif.Props.PropHeaders (Quoted quoted_iff quoted_ub quoted_ne takeN_iff takeN_ub Pairs pairs_iff Header header_iff mapM'_iff readDouble_ok readIndex_ok split_starts)
open Verif.Props.LsoRefused (IsReal IsIndex readIndex_ne readDouble_ne gotoKeyword_ne)

variable {D : Type} [Num D]

/-! ## The coordinate system -/

/-- The line that starts a coordinate system. -/
def opens (l : Str) : Bool := startsWith l cs!"GOCAD_ORIGINAL_COORDINATE_SYSTEM"

/-- The line that ends it. -/
def closes (l : Str) : Bool := startsWith l cs!"END_ORIGINAL_COORDINATE_SYSTEM"

/-- A line of a coordinate system that can be read: its quotes are closed, it has a word, and the keywords that give a value are followed by one. -/
def Understood (l : Str) : Prop := ∃ k ws, Quoted (split l) (k :: ws) ∧ (k ∈ [cs!"NAME", cs!"PROJECTION", cs!"DATUM", cs!"ZPOSITIVE"] → ws ≠ [])

theorem understood_iff {l : Str} : GocadHeaders.Readable l ↔ Understood l := by
  unfold GocadHeaders.Readable Understood
  simp only [quoted_iff, List.mem_cons, List.not_mem_nil, or_false]

/-- The section of a coordinate system has a line that cannot be read, before the end of the section. -/
def BadSystem (f : File) : Prop :=
  ∃ k ls, f = k :: ls ∧ opens k = true ∧ FirstBad (fun l => closes l = false ∧ Understood l) (fun l => closes l = false ∧ ¬ Understood l) ls

theorem crsLoop_ub (c : Crs) (f : File) : readCrsLoop c f = .ub ↔
    FirstBad (fun l => closes l = false ∧ Understood l) (fun l => closes l = false ∧ ¬ Understood l) f := by
  induction f generalizing c with
  | nil => exact ⟨fun h => (by cases h), fun h => absurd h firstBad_nil⟩
  | cons l ls ih =>
    rw [readCrsLoop, firstBad_cons]
    cases hc : closes l with
    | true =>
      rw [if_pos (show startsWith l cs!"END_ORIGINAL_COORDINATE_SYSTEM" = true from hc)]
      simp
    | false =>
      rw [if_neg (by rw [show startsWith l cs!"END_ORIGINAL_COORDINATE_SYSTEM" = false from hc]; simp)]
      by_cases h : Understood l
      · obtain ⟨c', e⟩ := (GocadHeaders.crsLine_iff c l).2 (understood_iff.2 h)
        rw [e, ok_bind, ih]
        simp [h]
      · rw [crsLine_else (fun hr => h (understood_iff.1 hr)), ub_bind]
        simp [h]

/-- **C171**: when reading a coordinate system has undefined behaviour. -/
theorem crs_ub_iff {f : File} : readCrs f = .ub ↔ BadSystem f := by
  unfold readCrs BadSystem
  cases f with
  | nil => exact ⟨fun h => (by cases h), fun ⟨_, _, e, _⟩ => (by cases e)⟩
  | cons k ls =>
    rw [nextKeyword?]
    cases hk : opens k with
    | true =>
      rw [if_pos (show startsWith k cs!"GOCAD_ORIGINAL_COORDINATE_SYSTEM" = true from hk)]
      dsimp only
      rw [crsLoop_ub]
      constructor
      · intro h
        exact ⟨k, ls, rfl, hk, h⟩
      · rintro ⟨k', ls', e, -, h⟩
        rw [(List.cons.inj e).2]
        exact h
    | false =>
      rw [if_neg (by rw [show startsWith k cs!"GOCAD_ORIGINAL_COORDINATE_SYSTEM" = false from hk]; simp)]
      dsimp only
      constructor
      · intro h
        cases h
      · rintro ⟨k', ls', e, h, -⟩
        rw [← (List.cons.inj e).1, hk] at h
        cases h

/-! ## The lines of a property header -/

/-- What a line of a property header gives for each property. -/
inductive Kind
  | pair
  | real
  | name
  | whole

/-- The lines after the names. -/
def kinds : List (Str × Kind) :=
  [(cs!"PROP_LEGAL_RANGES", .pair), (cs!"NO_DATA_VALUES", .real), (cs!"PROPERTY_CLASSES", .name), (cs!"PROPERTY_KINDS", .name), (cs!"PROPERTY_SUBCLASSES", .pair),
    (cs!"ESIZES", .whole), (cs!"UNITS", .name)]

/-- The words after the keyword are enough for `n` properties. -/
def Enough (n : Nat) (l : Str) : Kind → Prop
  | .pair => ∃ ps, Pairs n (split l).tail ps
  | .name => ∃ k ws, Quoted (split l) (k :: ws) ∧ n ≤ ws.length
  | _ => n ≤ (split l).tail.length

/-- Those of the `n` properties are numbers where they have to be. -/
def Numbers (D : Type) [Num D] (n : Nat) (l : Str) : Kind → Prop
  | .real => ∀ w ∈ (split l).tail.take n, IsReal D w
  | .whole => ∀ w ∈ (split l).tail.take n, IsIndex w
  | _ => True

/-- One of the lines does not have enough words, those before it being read. -/
inductive BadLine (D : Type) [Num D] (p : Str) (n : Nat) : List (Str × Kind) → File → Prop
  | here {kw kind ks f l rest} (h : First (p ++ kw) f l rest) (hb : ¬ Enough n l kind) : BadLine D p n ((kw, kind) :: ks) f
  | later {kw kind ks f l rest} (h : First (p ++ kw) f l rest) (h1 : Enough n l kind) (h2 : Numbers D n l kind) (hb : BadLine D p n ks rest) :
      BadLine D p n ((kw, kind) :: ks) f

/-- A property header that is read out of bounds. -/
def BadHeader (D : Type) [Num D] (p : Str) (f : File) : Prop :=
  ∃ l f', f = l :: f' ∧ startsWith l (p ++ cs!"PROPERTIES") = true ∧ ((¬ ∃ ws, Quoted (split l) ws) ∨
    ∃ k names, Quoted (split l) (k :: names) ∧ names ≠ [] ∧ BadLine D p names.length kinds f')

theorem pairs_else {n : Nat} {ws : List Str} : takePairs n ws = .ub ↔ ¬ ∃ ps, Pairs n ws ps := by
  have : (∃ ps, takePairs n ws = .ok ps) ∨ takePairs n ws = .ub := by
    induction n generalizing ws with
    | zero => exact .inl ⟨[], rfl⟩
    | succ n ih =>
      match ws with
      | [] => exact .inr rfl
      | [_] => exact .inr rfl
      | a :: b :: ts =>
        rw [takePairs]
        rcases ih (ws := if a = cs!"LINEARFUNCTION" then ts.drop 2 else ts) with ⟨ps, h⟩ | h
        · exact .inl ⟨_, by rw [h]; rfl⟩
        · exact .inr (by rw [h]; rfl)
  constructor
  · rintro h ⟨ps, hp⟩
    rw [pairs_iff.2 hp] at h
    cases h
  · intro h
    rcases this with ⟨ps, hp⟩ | h'
    · exact absurd ⟨ps, pairs_iff.1 hp⟩ h
    · exact h'

/-- A reader of a line: it searches it, then has undefined behaviour when it does not have enough words. -/
def Reads {A : Type} (D : Type) [Num D] (r : Str → Nat → File → Res (A × File)) (kind : Kind) : Prop :=
  ∀ (c : Char) (kw : Str) (n : Nat) (f : File), isWs c = false →
    (r (c :: kw) n f = .ub ↔ ∃ l rest, First (c :: kw) f l rest ∧ ¬ Enough n l kind) ∧
    ∀ rest, (∃ a, r (c :: kw) n f = .ok (a, rest)) ↔ ∃ l, First (c :: kw) f l rest ∧ Enough n l kind ∧ Numbers D n l kind

/-- Searching a line, then reading it. -/
theorem reads_of {A : Type} {r : Str → Nat → File → Res (A × File)} {kind : Kind} (g : Nat → Str → Res A)
    (he : ∀ kw n f, r kw n f = gotoKeyword kw f >>= fun x => g n x.1 >>= fun a => .ok (a, x.2))
    (hu : ∀ n l, split l ≠ [] → (g n l = .ub ↔ ¬ Enough n l kind))
    (ho : ∀ n l, split l ≠ [] → ((∃ a, g n l = .ok a) ↔ Enough n l kind ∧ Numbers D n l kind)) : Reads D r kind := by
  intro c kw n f hc
  have hs : ∀ {l rest}, First (c :: kw) f l rest → split l ≠ [] := fun h => split_starts hc h.choose_spec.2.1
  rw [he]
  constructor
  · rw [bind_ub]
    constructor
    · rintro (h | ⟨⟨l, rest⟩, h, h'⟩)
      · exact absurd h (gotoKeyword_ne _ _).1
      · have hf := goto_iff.1 h
        rcases bind_ub.1 h' with h' | ⟨_, _, h'⟩
        · exact ⟨l, rest, hf, (hu n l (hs hf)).1 h'⟩
        · cases h'
    · rintro ⟨l, rest, hf, h⟩
      exact .inr ⟨(l, rest), goto_iff.2 hf, bind_ub.2 (.inl ((hu n l (hs hf)).2 h))⟩
  · intro rest
    constructor
    · rintro ⟨a, h⟩
      obtain ⟨⟨l, rest'⟩, h1, h⟩ := bind_eq_ok.1 h
      obtain ⟨b, h2, h⟩ := bind_eq_ok.1 h
      cases h
      have hf := goto_iff.1 h1
      exact ⟨l, hf, (ho n l (hs hf)).1 ⟨_, h2⟩⟩
    · rintro ⟨l, hf, h⟩
      obtain ⟨a, ha⟩ := (ho n l (hs hf)).2 h
      exact ⟨a, by rw [goto_iff.2 hf, ok_bind]; dsimp only; rw [ha]; rfl⟩

theorem reads_pair : Reads D readTwoStrings .pair := by
  refine reads_of (fun n l => takePairs n (split l).tail) (fun kw n f => rfl) (fun n l _ => pairs_else) fun n l _ => ?_
  simp only [Enough, Numbers, and_true, pairs_iff]

theorem reads_name : Reads D readOneString .name := by
  refine reads_of (fun n l => splitQuoted l >>= fun toks => takeN n toks.tail) (fun kw n f => ?_) (fun n l hs => ?_) fun n l hs => ?_
  · unfold readOneString
    simp only [bind_assoc']
    rfl
  · rw [bind_ub, quoted_ub]
    constructor
    · rintro (h | ⟨toks, h1, h2⟩) ⟨k, ws, hq, hn⟩
      · exact h ⟨_, hq⟩
      · rw [quoted_iff.2 hq] at h1
        cases h1
        have := takeN_ub.1 h2
        simp at this
        omega
    · intro h
      by_cases hq : ∃ ws, Quoted (split l) ws
      · obtain ⟨ws, hq⟩ := hq
        refine .inr ⟨ws, quoted_iff.2 hq, takeN_ub.2 ?_⟩
        cases ws with
        | nil => exact absurd ((quoted_ne hq).2 rfl) hs
        | cons k ws =>
          rw [List.tail_cons]
          exact Nat.lt_of_not_le fun hn => h ⟨k, ws, hq, hn⟩
      · exact .inl hq
  · simp only [Enough, Numbers, and_true]
    constructor
    · rintro ⟨a, h⟩
      obtain ⟨toks, h1, h2⟩ := bind_eq_ok.1 h
      have hq := quoted_iff.1 h1
      cases toks with
      | nil => exact absurd ((quoted_ne hq).2 rfl) hs
      | cons k ws => exact ⟨k, ws, hq, (takeN_iff.1 h2).1⟩
    · rintro ⟨k, ws, hq, hn⟩
      exact ⟨_, by rw [quoted_iff.2 hq, ok_bind, List.tail_cons, takeN_iff.2 ⟨hn, rfl⟩]⟩

theorem all_read {A : Type} {P : Str → A → Prop} {ws : List Str} : (∃ vs, List.Forall₂ P ws vs) ↔ ∀ w ∈ ws, ∃ v, P w v := by
  induction ws with
  | nil => exact ⟨fun _ => by simp, fun _ => ⟨[], .nil⟩⟩
  | cons w ws ih =>
    constructor
    · rintro ⟨vs, h⟩
      cases h with
      | cons h1 h2 =>
        intro x hx
        rcases List.mem_cons.1 hx with rfl | hx
        · exact ⟨_, h1⟩
        · exact ih.1 ⟨_, h2⟩ x hx
    · intro h
      obtain ⟨v, h1⟩ := h w List.mem_cons_self
      obtain ⟨vs, h2⟩ := ih.2 fun x hx => h x (List.mem_cons_of_mem _ hx)
      exact ⟨v :: vs, .cons h1 h2⟩

/-- A number of words, read one by one. -/
theorem reads_words {A : Type} {r : Str → Nat → File → Res (List A × File)} {kind : Kind} (g : Str → Res A) (ok : Str → Prop)
    (he : ∀ kw n f, r kw n f = gotoKeyword kw f >>= fun x => (takeN n (split x.1).tail >>= fun ws => Res.mapM' g ws) >>= fun a => .ok (a, x.2))
    (hg : ∀ w, g w ≠ .ub) (hw : ∀ w, (∃ a, g w = .ok a) ↔ ok w) (h1 : ∀ n l, Enough n l kind ↔ n ≤ (split l).tail.length)
    (h2 : ∀ n l, Numbers D n l kind ↔ ∀ w ∈ (split l).tail.take n, ok w) : Reads D r kind := by
  refine reads_of (fun n l => takeN n (split l).tail >>= fun ws => Res.mapM' g ws) he (fun n l _ => ?_) fun n l _ => ?_
  · rw [h1, bind_ub, takeN_ub, Nat.not_le]
    constructor
    · rintro (h | ⟨_, _, h⟩)
      · exact h
      · exact absurd h (PropHeaders.mapM'_ne_ub hg _)
    · exact .inl
  · rw [h1, h2]
    simp only [← hw]
    constructor
    · rintro ⟨a, h⟩
      obtain ⟨ws, h3, h4⟩ := bind_eq_ok.1 h
      obtain ⟨h5, rfl⟩ := takeN_iff.1 h3
      exact ⟨h5, all_read.1 ⟨a, mapM'_iff.1 h4⟩⟩
    · rintro ⟨h3, h4⟩
      obtain ⟨a, h5⟩ := all_read.2 h4
      exact ⟨a, by rw [takeN_iff.2 ⟨h3, rfl⟩, ok_bind]; exact mapM'_iff.2 h5⟩

theorem reads_real : Reads D (readOneDouble (D := D)) .real := by
  refine reads_words readDouble (IsReal D) (fun kw n f => ?_) (fun w => readDouble_ne.1) (fun w => ?_) (fun n l => Iff.rfl) fun n l => Iff.rfl
  · unfold readOneDouble
    simp only [bind_assoc']
    rfl
  · simp only [readDouble_ok, IsReal]

theorem reads_whole : Reads D readOneIndex .whole := by
  refine reads_words readIndex IsIndex (fun kw n f => ?_) (fun w => readIndex_ne.1) (fun w => ?_) (fun n l => Iff.rfl) fun n l => Iff.rfl
  · unfold readOneIndex
    simp only [bind_assoc']
    rfl
  · simp only [readIndex_ok, IsIndex]

/-- One line, then the others. -/
theorem step {A B : Type} {r : Str → Nat → File → Res (A × File)} {kind : Kind} (hr : Reads D r kind) {p : Str} (hp : ∀ c ∈ p.head?, isWs c = false) {c0 : Char} {kw : Str}
    (h0 : isWs c0 = false) {n : Nat} {ks : List (Str × Kind)} (next : A × File → Res B) (hn : ∀ a f, next (a, f) = .ub ↔ BadLine D p n ks f) {f : File} :
    (r (p ++ c0 :: kw) n f >>= next) = .ub ↔ BadLine D p n ((c0 :: kw, kind) :: ks) f := by
  obtain ⟨c, kw', hc, e⟩ : ∃ c kw', isWs c = false ∧ p ++ c0 :: kw = c :: kw' := by
    cases p with
    | nil => exact ⟨c0, kw, h0, rfl⟩
    | cons c p => exact ⟨c, p ++ c0 :: kw, hp c (by simp), rfl⟩
  have h := hr c kw' n f hc
  rw [← e] at h
  rw [bind_ub, h.1]
  constructor
  · rintro (⟨l, rest, h1, h2⟩ | ⟨⟨a, rest⟩, h1, h2⟩)
    · exact .here h1 h2
    · obtain ⟨l, h3, h4, h5⟩ := (h.2 rest).1 ⟨a, h1⟩
      exact .later h3 h4 h5 ((hn a rest).1 h2)
  · intro hb
    cases hb with
    | here h1 h2 => exact .inl ⟨_, _, h1, h2⟩
    | later h1 h2 h3 h4 =>
      obtain ⟨a, ha⟩ := (h.2 _).2 ⟨_, h1, h2, h3⟩
      exact .inr ⟨_, ha, (hn a _).2 h4⟩

theorem lines_ub {p : Str} (hp : ∀ c ∈ p.head?, isWs c = false) {l : Str} {f : File} {k : Str} {names : List Str} (hq : Quoted (split l) (k :: names)) :
    (propLines p l f : Res (PropHeader D × File)) = .ub ↔ names ≠ [] ∧ BadLine D p names.length kinds f := by
  unfold propLines
  rw [quoted_iff.2 hq, ok_bind, List.tail_cons]
  by_cases hn : names = []
  · subst hn
    simp
  · rw [if_neg (show ¬ names.length = 0 by simpa using hn)]
    simp only [ne_eq, hn, not_false_eq_true, true_and]
    refine step reads_pair hp (by decide) _ fun a1 f1 => ?_
    refine step reads_real hp (by decide) _ fun a2 f2 => ?_
    refine step reads_name hp (by decide) _ fun a3 f3 => ?_
    refine step reads_name hp (by decide) _ fun a4 f4 => ?_
    refine step reads_pair hp (by decide) _ fun a5 f5 => ?_
    refine step reads_whole hp (by decide) _ fun a6 f6 => ?_
    refine step reads_name hp (by decide) _ fun a7 f7 => ?_
    exact ⟨fun h => (by cases h), fun h => (by cases h)⟩

/-- **C171**: when reading a property header has undefined behaviour. -/
theorem header_ub_iff {p : Str} (hp : ∀ c ∈ p.head?, isWs c = false) {f : File} : (readPropHeader p f : Res (PropHeader D × File)) = .ub ↔ BadHeader D p f := by
  rw [readPropHeader_eq]
  unfold BadHeader
  cases f with
  | nil => exact ⟨fun h => (by cases h), fun ⟨_, _, e, _⟩ => (by cases e)⟩
  | cons l f =>
    simp only [nextKeyword?]
    cases hl : startsWith l (p ++ cs!"PROPERTIES") with
    | false =>
      constructor
      · intro h
        cases h
      · rintro ⟨l', f', e, h, -⟩
        rw [← (List.cons.inj e).1, hl] at h
        cases h
    | true =>
      simp only [if_true]
      have hs : split l ≠ [] := by
        cases p with
        | nil => exact split_starts (c := 'P') (by decide) hl
        | cons c p => exact split_starts (hp c (by simp)) hl
      constructor
      · intro h
        refine ⟨l, f, rfl, hl, ?_⟩
        by_cases hq : ∃ ws, Quoted (split l) ws
        · obtain ⟨ws, hq⟩ := hq
          cases ws with
          | nil => exact absurd ((quoted_ne hq).2 rfl) hs
          | cons k names => exact .inr ⟨k, names, hq, (lines_ub hp hq).1 h⟩
        · exact .inl hq
      · rintro ⟨l', f', e, -, h⟩
        obtain ⟨rfl, rfl⟩ := List.cons.inj e
        rcases h with h | ⟨k, names, hq, h⟩
        · rw [propLines, quoted_ub.2 h, ub_bind]
        · exact (lines_ub hp hq).2 h

/-! ## All texts -/

/-- A coordinate system that is not read is refused. -/
def SystemRefused : Prop := ∀ f : File, (∃ r, readCrs f = .ok r) ∨ readCrs f = .throw

/-- **C171**: the coordinate systems that are not read are refused, but those of `BadSystem`. -/
theorem system_refused_partial (f : File) : (∃ r, readCrs f = .ok r) ∨ readCrs f = .throw ∨ (readCrs f = .ub ∧ BadSystem f) := by
  rcases WlOutcomes.crs_cases f with h | h | ⟨h, -⟩
  · exact .inl h
  · exact .inr (.inl h)
  · exact .inr (.inr ⟨h, crs_ub_iff.1 h⟩)

/-- A property header that is not read is refused. -/
def HeaderRefused : Prop := ∀ (D : Type) [Num D] (p : Str) (f : File), (∃ r : PropHeader D × File, readPropHeader p f = .ok r) ∨
  (readPropHeader p f : Res (PropHeader D × File)) = .throw

/-- **C171**: the property headers that are not read are refused, but those of `BadHeader`. -/
theorem header_refused_partial {p : Str} (hp : ∀ c ∈ p.head?, isWs c = false) (f : File) : (∃ h rest, Header (D := D) p f h rest) ∨
    (readPropHeader p f : Res (PropHeader D × File)) = .throw ∨ ((readPropHeader p f : Res (PropHeader D × File)) = .ub ∧ BadHeader D p f) := by
  cases hr : (readPropHeader p f : Res (PropHeader D × File)) with
  | ok r => exact .inl ⟨r.1, r.2, (header_iff hp).1 hr⟩
  | throw => exact .inr (.inl rfl)
  | ub => exact .inr (.inr ⟨rfl, (header_ub_iff hp).1 hr⟩)
  | diverge => exact absurd hr (Verif.GocadMesh.readPropHeader_fwd _ _).1

/-- An empty line in a coordinate system. -/
def hollow : File := [cs!"GOCAD_ORIGINAL_COORDINATE_SYSTEM", cs!"NAME \" a \" ", [], cs!"END_ORIGINAL_COORDINATE_SYSTEM"]

/-- It is read out of bounds. -/
theorem system_refused_fails : ¬ SystemRefused := by
  intro h
  rcases h hollow with ⟨r, hr⟩ | hr
  · rw [show readCrs hollow = .ub by decide +kernel] at hr
    cases hr
  · revert hr
    decide +kernel

/-- So is a property header with one unit for two properties. -/
theorem header_refused_fails : ¬ HeaderRefused := by
  intro h
  rcases h Int [] PropHeaders.oneUnit with ⟨r, hr⟩ | hr
  · rw [PropHeaders.one_unit_ub] at hr
    cases hr
  · rw [PropHeaders.one_unit_ub] at hr
    cases hr

/-- `BadSystem` holds for the first of them. -/
example : BadSystem hollow := crs_ub_iff.1 (by decide +kernel)

/-- `BadHeader` holds for the second one. -/
example : BadHeader Int [] PropHeaders.oneUnit := (header_ub_iff (by simp)).1 PropHeaders.one_unit_ub

/-- Neither holds for the texts without these sections. -/
example : ¬ BadSystem [cs!"ILINE"] ∧ ¬ BadHeader Int [] [cs!"TFACE"] :=
  ⟨fun h => absurd (crs_ub_iff.2 h) (by decide +kernel), fun h => absurd ((header_ub_iff (by simp)).2 h) (by decide +kernel)⟩

/-- A property without a closing quote in its name has undefined behaviour, and after the sizes of two properties that are read, a missing unit is refused (tests on two headers). -/
example : (readPropHeader [] [cs!"PROPERTIES \" a"] : Res (PropHeader Int × File)) = .ub ∧ (readPropHeader [] (PropHeaders.oneUnit.take 7) : Res (PropHeader Int × File)) = .throw := by
  decide +kernel

end Verif.Props.HeadersRefused
