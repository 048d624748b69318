import Verif.Props.MlNumbers

/-!
# The lines of the component section of structural model files
-/

set_option linter.unusedSectionVars false

namespace Verif.Props.MlFile

open Verif Verif.Gocad Verif.Ml Verif.Props.MlNumbers Res

variable {D : Type} [Num D]

/-! ## Lists of numbers -/

/-- The lines have the items in order, five on each line, and a last line of fewer than five items and 0. -/
def Listed (items : List Str) (ls : File) : Prop := ∃ (fives : List (List Str)) (last : List Str),
  ls.map split = fives ++ [last ++ [cs!"0"]] ∧ (∀ l ∈ fives, l.length = 5) ∧ last.length < 5 ∧ fives.flatten ++ last = items

theorem split_item {c x : Str} (hx : IsTok x) : split (c ++ cs!" " ++ x ++ cs!"  ") = split (c ++ cs!" ") ++ [x] := by
  have e : split cs!" " = [] := rfl
  have e' : split [] = [] := rfl
  have e1 : c ++ cs!" " ++ x ++ cs!"  " = c ++ ' ' :: (x ++ ' ' :: cs!" ") := by simp
  have e2 : c ++ cs!" " = c ++ ' ' :: [] := rfl
  rw [e1, split_append_space, split_append_space, split_tok hx, e, e2, split_append_space, e', List.append_nil, List.append_nil]

theorem split_zero {c : Str} : split (c ++ cs!" " ++ cs!"0") = split (c ++ cs!" ") ++ [cs!"0"] := by
  have e' : split [] = [] := rfl
  have e1 : c ++ cs!" " ++ cs!"0" = c ++ ' ' :: cs!"0" := by simp
  have e2 : c ++ cs!" " = c ++ ' ' :: [] := rfl
  rw [e1, split_append_space, split_tok (show IsTok cs!"0" by decide), e2, split_append_space, e', List.append_nil]

theorem wrapped_listed : ∀ (xs : List Str) (c : Str) (count : Nat), (∀ x ∈ xs, IsTok x) → (split (c ++ cs!" ")).length = count % 5 →
    Listed (split (c ++ cs!" ") ++ xs) (wrapped (c ++ cs!" ") count xs)
  | [], c, count, _, hc => by
    refine ⟨[], split (c ++ cs!" "), ?_, by simp, by omega, by simp⟩
    rw [wrapped, List.map_singleton, split_zero]
    rfl
  | x :: xs, c, count, hx, hc => by
    have hs := split_item (c := c) (hx x (by simp))
    rw [wrapped]
    split
    · rename_i h5
      obtain ⟨fives, last, h1, h2, h3, h4⟩ := wrapped_listed xs cs!" " (count + 1) (fun y hy => hx y (by simp [hy])) (by rw [h5]; rfl)
      refine ⟨(split (c ++ cs!" ") ++ [x]) :: fives, last, ?_, ?_, h3, ?_⟩
      · rw [List.map_cons, hs]
        have : cs!" " ++ cs!" " = cs!"  " := rfl
        rw [this] at h1
        rw [h1]
        rfl
      · intro l hl
        rcases List.mem_cons.1 hl with rfl | hl
        · rw [List.length_append, hc, List.length_singleton]
          omega
        · exact h2 l hl
      · have e : split (cs!" " ++ cs!" ") = [] := rfl
        rw [e, List.nil_append] at h4
        simp [List.flatten_cons, ← h4]
    · rename_i h5
      have e : c ++ cs!" " ++ x ++ cs!"  " = (c ++ cs!" " ++ x ++ cs!" ") ++ cs!" " := by simp
      have hl : (split ((c ++ cs!" " ++ x ++ cs!" ") ++ cs!" ")).length = (count + 1) % 5 := by
        rw [← e, hs, List.length_append, hc, List.length_singleton]
        omega
      have := wrapped_listed xs (c ++ cs!" " ++ x ++ cs!" ") (count + 1) (fun y hy => hx y (by simp [hy])) hl
      rw [← e, hs] at this
      rw [List.append_cons]
      exact this

theorem listed_of {xs : List Str} (h : ∀ x ∈ xs, IsTok x) : Listed xs (wrapped cs!"  " 0 xs) :=
  wrapped_listed xs cs!" " 0 h rfl

theorem tok_signed (b : Bool) (n : Nat) : IsTok (signed b n) := by
  refine ⟨by simp [signed], ?_⟩
  intro c hc
  rcases List.mem_cons.1 hc with rfl | hc
  · cases b <;> rfl
  · exact (isTok_showNat n).2 c hc

theorem mapM'_all {A B : Type} {f : A → Res B} {P : B → Prop} (hf : ∀ a b, f a = .ok b → P b) : ∀ {l : List A} {r : List B}, Res.mapM' f l = .ok r → ∀ b ∈ r, P b
  | [], r, h => by
    have : r = [] := (Res.ok.inj h).symm
    subst this
    simp
  | a :: l, r, h => by
    rw [mapM'_cons] at h
    obtain ⟨x, hx, h⟩ := bind_eq_ok.1 h
    obtain ⟨xs, hxs, h⟩ := bind_eq_ok.1 h
    simp only [pure_eq, Res.ok.injEq] at h
    subst h
    intro b hb
    rcases List.mem_cons.1 hb with rfl | hb
    · exact hf _ _ hx
    · exact mapM'_all hf hxs b hb

theorem length_mapM' {A B : Type} {f : A → Res B} : ∀ {l : List A} {r : List B}, Res.mapM' f l = .ok r → r.length = l.length
  | [], r, h => by
    have : r = [] := (Res.ok.inj h).symm
    subst this
    rfl
  | a :: l, r, h => by
    rw [mapM'_cons] at h
    obtain ⟨x, hx, h⟩ := bind_eq_ok.1 h
    obtain ⟨xs, hxs, h⟩ := bind_eq_ok.1 h
    simp only [pure_eq, Res.ok.injEq] at h
    subst h
    rw [List.length_cons, length_mapM' hxs, List.length_cons]

/-- A record: a line, then a list of numbers, five on each line. -/
def Record (f : File) : Prop := ∃ (head : Str) (items : List Str) (ls : File), f = head :: ls ∧ Listed items ls ∧ ∀ x ∈ items, IsTok x

/-- **The list of the universe has five numbers on each line.** -/
theorem universe_listed {m : Model D} {sides : Sides.AllSides} {comps : List (Nat × Nat)} {next : Nat} {f : File}
    (h : writeUniverse m sides comps next = .ok f) : Record f := by
  unfold writeUniverse at h
  obtain ⟨items, h1, h⟩ := bind_eq_ok.1 h
  simp only [pure_eq, Res.ok.injEq] at h
  have ht : ∀ x ∈ items, IsTok x := mapM'_all (by
    intro a b hb
    obtain ⟨_, _, hb⟩ := bind_eq_ok.1 hb
    obtain ⟨_, _, hb⟩ := bind_eq_ok.1 hb
    rw [← Res.ok.inj hb]
    exact tok_signed _ _) h1
  exact ⟨_, items, _, h.symm, listed_of ht, ht⟩

/-- **The list of a region has five numbers on each line**: its boundaries, then its internal surfaces, each twice. -/
theorem region_listed {sides : Sides.AllSides} {comps : List (Nat × Nat)} {next : Nat} {b : Block} {f : File}
    (h : writeRegion sides comps next b = .ok f) : ∃ (head : Str) (items : List Str) (ls : File), f = head :: ls ∧ Listed items ls ∧
      items.length = b.boundaries.length + 2 * b.internals.length ∧ ∀ x ∈ items, IsTok x := by
  unfold writeRegion at h
  obtain ⟨bounds, h1, h⟩ := bind_eq_ok.1 h
  obtain ⟨inner, h2, h⟩ := bind_eq_ok.1 h
  simp only [pure_eq, Res.ok.injEq] at h
  have t1 : ∀ x ∈ bounds, IsTok x := mapM'_all (by
    intro a b hb
    obtain ⟨_, _, hb⟩ := bind_eq_ok.1 hb
    obtain ⟨_, _, hb⟩ := bind_eq_ok.1 hb
    rw [← Res.ok.inj hb]
    exact tok_signed _ _) h1
  have t2 : ∀ l ∈ inner, l.length = 2 ∧ ∀ x ∈ l, IsTok x := mapM'_all (by
    intro a b hb
    obtain ⟨_, _, hb⟩ := bind_eq_ok.1 hb
    rw [← Res.ok.inj hb]
    refine ⟨rfl, ?_⟩
    intro x hx
    simp only [List.mem_cons, List.not_mem_nil, or_false] at hx
    rcases hx with rfl | rfl <;> exact tok_signed _ _) h2
  have ht : ∀ x ∈ bounds ++ inner.flatten, IsTok x := by
    intro x hx
    rcases List.mem_append.1 hx with hx | hx
    · exact t1 x hx
    · obtain ⟨l, hl, hx⟩ := List.mem_flatten.1 hx
      exact (t2 l hl).2 x hx
  refine ⟨_, _, _, h.symm, listed_of ht, ?_, ht⟩
  have e : inner.flatten.length = 2 * inner.length := by
    have : ∀ l : List (List Str), (∀ x ∈ l, x.length = 2) → l.flatten.length = 2 * l.length := by
      intro l
      induction l with
      | nil => intro _; rfl
      | cons a l ih => intro hl; rw [List.flatten_cons, List.length_append, hl a (by simp), ih fun x hx => hl x (by simp [hx]), List.length_cons]; omega
    exact this inner fun x hx => (t2 x hx).1
  rw [List.length_append, e, length_mapM' h1, length_mapM' h2]

/-- **The lists of layers and fault blocks have five numbers on each line.** -/
theorem layer_listed {keyword : Str} {numbers : List (Nat × Nat)} {l : Option Str × List Nat} {f : File} (h : writeLayer keyword numbers l = .ok f) :
    ∃ (head : Str) (items : List Str) (ls : File), f = head :: ls ∧ Listed items ls ∧ items.length = l.2.length ∧ ∀ x ∈ items, IsTok x := by
  unfold writeLayer at h
  obtain ⟨_, _, h⟩ := bind_eq_ok.1 h
  obtain ⟨items, h1, h⟩ := bind_eq_ok.1 h
  simp only [pure_eq, Res.ok.injEq] at h
  have ht : ∀ x ∈ items, IsTok x := mapM'_all (by
    intro a b hb
    obtain ⟨_, _, hb⟩ := bind_eq_ok.1 hb
    rw [← Res.ok.inj hb]
    exact isTok_showNat _) h1
  exact ⟨_, items, _, h.symm, listed_of ht, length_mapM' h1, ht⟩

/-- With five items the last line has the 0 alone. -/
example : (wrapped cs!"  " 0 [cs!"+1", cs!"-2", cs!"+3", cs!"-4", cs!"+5"]).map split =
    [[cs!"+1", cs!"-2", cs!"+3", cs!"-4", cs!"+5"], [cs!"0"]] := by decide +kernel

/-! ## Missing words -/

/-- A line outside of the lists has the words that its keyword needs. -/
def Complete (l : Str) : Prop := 2 ≤ (split l).length ∧ ((split l).head? = some cs!"TFACE" → 4 ≤ (split l).length) ∧
  ((split l).head? = some cs!"REGION" → 3 ≤ (split l).length)

/-- **The full property**: a line with missing words is reported. -/
def MissingReported : Prop := ∀ (st : RState) (l : Str), ¬Complete l → topLine st l = .throw

/-- The TSurfs by name are TSurfs of the list: true at the beginning, and kept by every line (`good_step`). -/
def Good (st : RState) : Prop := ∀ e ∈ st.names, e.2 < st.tsurfs.length

theorem index_ub {A : Type} {l : List A} {i : Nat} (h : l.length ≤ i) : Res.index l i = .ub := by
  unfold Res.index
  rw [List.getElem?_eq_none h]

theorem index_lt {A : Type} {l : List A} {i : Nat} (h : i < l.length) : ∃ a, Res.index l i = .ok a := ⟨_, index_of_lt h⟩

theorem find_mem {K V : Type} [DecidableEq K] {m : List (K × V)} {k : K} {v : V} (h : Sides.find m k = some v) : (k, v) ∈ m := by
  induction m with
  | nil => cases h
  | cons e m ih =>
    rw [Sides.find] at h
    split at h
    · rename_i hk
      rw [← Option.some.inj h, ← hk]
      exact List.mem_cons_self
    · exact List.mem_cons_of_mem _ (ih h)

theorem tface_ub {st : RState} (hg : Good st) {ts : List Str} : readTfaceKeyword st ts = .ub ↔ ts.length < 3 := by
  unfold readTfaceKeyword
  constructor
  · intro h
    by_cases h3 : ts.length < 3
    · exact h3
    · exfalso
      obtain ⟨a, ha⟩ := index_lt (l := ts) (i := 1) (by omega)
      obtain ⟨b, hb⟩ := index_lt (l := ts) (i := 2) (by omega)
      simp only [ha, hb, ok_bind] at h
      unfold atKey at h
      cases hf : Sides.find st.names (readName (ts.drop 2)) with
      | none => rw [hf] at h; cases h
      | some i =>
        rw [hf, ofParse_some, ok_bind] at h
        obtain ⟨t, ht⟩ := index_lt (hg _ (find_mem hf))
        simp only at ht
        rw [ht] at h
        cases h
  · intro h
    by_cases h1 : ts.length < 2
    · rw [index_ub (by omega)]; rfl
    · obtain ⟨a, ha⟩ := index_lt (l := ts) (i := 1) (by omega)
      rw [ha, ok_bind, index_ub (by omega)]; rfl

theorem region_ub {ts : List Str} : readRegionKeyword ts = .ub ↔ ts.length < 2 := by
  unfold readRegionKeyword
  constructor
  · intro h
    by_cases h3 : ts.length < 2
    · exact h3
    · obtain ⟨a, ha⟩ := index_lt (l := ts) (i := 1) (by omega)
      rw [ha] at h
      cases h
  · intro h
    rw [index_ub (by omega)]; rfl

/-- **A line outside of the lists is undefined behaviour exactly when words are missing.** -/
theorem missing_words {st : RState} (hg : Good st) (l : Str) : topLine st l = .ub ↔ ¬Complete l := by
  unfold topLine Complete
  match hs : split l with
  | [] => simp
  | [a] => simp
  | kw :: b :: ts =>
    simp only []
    by_cases h1 : kw = cs!"TSURF"
    · subst h1; simp
    · rw [if_neg h1]
      by_cases h2 : kw = cs!"TFACE"
      · subst h2
        rw [if_pos rfl]
        have : (do let st ← readTfaceKeyword st (b :: ts); pure (st, Mode.top)) = Res.ub ↔ readTfaceKeyword st (b :: ts) = .ub := by
          cases readTfaceKeyword st (b :: ts) <;> simp
        rw [this, tface_ub hg]
        simp
        omega
      · rw [if_neg h2]
        by_cases h3 : kw = cs!"REGION"
        · subst h3
          rw [if_pos rfl]
          have : (do let mode ← readRegionKeyword (b :: ts); pure (st, mode)) = Res.ub ↔ readRegionKeyword (b :: ts) = .ub := by
            cases readRegionKeyword (b :: ts) <;> simp
          rw [this, region_ub]
          cases ts <;> simp
        · rw [if_neg h3]
          have e : (if kw = cs!"LAYER" then Res.ok (st, Mode.layer (readName (b :: ts)) []) else
              if kw = cs!"FAULT_BLOCK" then Res.ok (st, Mode.faultBlock (readName (b :: ts)) []) else Res.ok (st, Mode.top)) ≠ .ub := by
            split
            · simp
            · split <;> simp
          simp [e, h2, h3]

/-- Blank lines, lines of one word, and short `TFACE` and `REGION` lines are therefore not reported. -/
theorem missing_not_reported : ¬MissingReported := by
  intro h
  have h1 := h {} [] (by intro hc; exact absurd hc.1 (by decide))
  have h2 : topLine {} [] = .ub := rfl
  rw [h2] at h1
  cases h1

theorem good_empty : Good {} := by intro e he; cases he

theorem good_tsurf {st : RState} (hg : Good st) (ts : List Str) : Good (readTsurfKeyword st ts) := by
  intro e he
  unfold readTsurfKeyword at he ⊢
  simp only [List.length_append, List.length_singleton]
  have hem : e ∈ st.names ∨ e.2 = st.tsurfs.length := by
    simp only [Sides.emplace] at he
    split at he
    · exact Or.inl he
    · rcases List.mem_append.1 he with he | he
      · exact Or.inl he
      · right; rw [List.mem_singleton.1 he]
  rcases hem with h | h
  · have := hg e h; omega
  · omega

theorem good_of_eq {st st' : RState} (hg : Good st) (h1 : st'.names = st.names) (h2 : st'.tsurfs.length = st.tsurfs.length) : Good st' := by
  intro e he
  rw [h2]
  exact hg e (by rw [← h1]; exact he)

/-- The condition holds at every line of a section. -/
theorem good_step {st st' : RState} {mode mode' : Mode} {l : Str} (hg : Good st) (h : step (st, mode) l = .ok (st', mode')) : Good st' := by
  cases mode with
  | top =>
    simp only [step, topLine] at h
    split at h
    · cases h
    · cases h
    · split at h
      · simp only [Res.ok.injEq, Prod.mk.injEq] at h
        rw [← h.1]; exact good_tsurf hg _
      · split at h
        · obtain ⟨s, hs, h⟩ := bind_eq_ok.1 h
          simp only [pure_eq, Res.ok.injEq, Prod.mk.injEq] at h
          rw [← h.1]
          unfold readTfaceKeyword at hs
          obtain ⟨_, _, hs⟩ := bind_eq_ok.1 hs
          obtain ⟨_, _, hs⟩ := bind_eq_ok.1 hs
          obtain ⟨_, _, hs⟩ := bind_eq_ok.1 hs
          obtain ⟨_, _, hs⟩ := bind_eq_ok.1 hs
          rw [← Res.ok.inj hs]
          exact good_of_eq hg rfl (by simp)
        · split at h
          · obtain ⟨s, hs, h⟩ := bind_eq_ok.1 h
            simp only [pure_eq, Res.ok.injEq, Prod.mk.injEq] at h
            rw [← h.1]; exact hg
          · split at h
            · simp only [Res.ok.injEq, Prod.mk.injEq] at h
              rw [← h.1]; exact hg
            · split at h <;> (simp only [Res.ok.injEq, Prod.mk.injEq] at h; rw [← h.1]; exact hg)
  | outside =>
    simp only [step] at h
    obtain ⟨_, _, h⟩ := bind_eq_ok.1 h
    simp only [pure_eq, Res.ok.injEq, Prod.mk.injEq] at h
    rw [← h.1]; exact good_of_eq hg rfl rfl
  | block name acc =>
    simp only [step] at h
    obtain ⟨⟨_, c⟩, _, h⟩ := bind_eq_ok.1 h
    cases c with
    | false =>
      simp only [Bool.false_eq_true, if_false, pure_eq, Res.ok.injEq, Prod.mk.injEq] at h
      rw [← h.1]; exact hg
    | true =>
      simp only [if_true] at h
      obtain ⟨s, hs, h⟩ := bind_eq_ok.1 h
      simp only [pure_eq, Res.ok.injEq, Prod.mk.injEq] at h
      rw [← h.1]
      unfold closeBlock at hs
      obtain ⟨_, _, hs⟩ := bind_eq_ok.1 hs
      obtain ⟨_, _, hs⟩ := bind_eq_ok.1 hs
      rw [← Res.ok.inj hs]
      exact good_of_eq hg rfl rfl
  | layer name acc =>
    simp only [step] at h
    obtain ⟨⟨_, c⟩, _, h⟩ := bind_eq_ok.1 h
    cases c <;> (simp only [Bool.false_eq_true, if_false, if_true, pure_eq, Res.ok.injEq, Prod.mk.injEq] at h; rw [← h.1]; exact good_of_eq hg rfl rfl)
  | faultBlock name acc =>
    simp only [step] at h
    obtain ⟨⟨_, c⟩, _, h⟩ := bind_eq_ok.1 h
    cases c <;> (simp only [Bool.false_eq_true, if_false, if_true, pure_eq, Res.ok.injEq, Prod.mk.injEq] at h; rw [← h.1]; exact good_of_eq hg rfl rfl)

/-- Every state reached in a section is good. -/
theorem good_run : ∀ {ls : File} {s s' : RState × Mode}, Good s.1 → run s ls = .ok s' → Good s'.1
  | [], s, s', hg, h => by rw [← Res.ok.inj h]; exact hg
  | l :: ls, (st, mode), s', hg, h => by
    rw [run_cons] at h
    obtain ⟨⟨st2, mode2⟩, h1, h⟩ := bind_eq_ok.1 h
    exact good_run (s := (st2, mode2)) (good_step hg h1) h

/-- **In a whole section**: after any lines that were read up to the end of a list, the next line is undefined behaviour exactly when words are
missing.  In particular a section with all its words has none outside of its lists. -/
theorem missing_words_partial {ls : File} {st : RState} (h : run ({}, .top) ls = .ok (st, .top)) (l : Str) :
    run ({}, .top) (ls ++ [l]) = .ub ↔ ¬Complete l := by
  have hg : Good st := good_run (s := ({}, .top)) good_empty h
  rw [← missing_words hg l, run_append, h, ok_bind, run_cons]
  show ((topLine st l).bind fun s' => run s' []) = .ub ↔ _
  cases topLine st l <;> simp [Res.bind]

/-- **A surface of a TSurf that was not announced is refused.** -/
theorem unknown_tsurf (st : RState) {a b c : Str} {ts : List Str} (h : ∀ e ∈ st.names, e.1 ≠ readName (c :: ts)) :
    readTfaceKeyword st (a :: b :: c :: ts) = .throw := by
  unfold readTfaceKeyword
  have hf : Sides.find st.names (readName (c :: ts)) = none := by
    cases hh : Sides.find st.names (readName (c :: ts)) with
    | none => rfl
    | some v => exact absurd rfl (h _ (find_mem hh))
  have : (a :: b :: c :: ts).drop 2 = c :: ts := rfl
  simp [this, atKey, hf]

example : Complete cs!"TFACE 1 top h" ∧ ¬Complete cs!"TFACE 1 top" ∧ ¬Complete cs!"REGION 4" := by
  unfold Complete
  decide +kernel

end Verif.Props.MlFile
