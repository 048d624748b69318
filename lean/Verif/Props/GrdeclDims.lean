import Verif.Props.GrdeclIncludes

/-!
# Dimensions of a corner point grid
-/

set_option linter.unusedSectionVars false

namespace Verif.Props.GrdeclDims

open Verif Verif.Grdecl Verif.Props.GrdeclCells Verif.Props.GrdeclText Verif.Props.GrdeclIncludes Verif.Props.GocadTruncated

/-- The line begins with the three numbers. -/
def ThreeNumbers (line : Str) (d : Nat × Nat × Nat) : Prop :=
  ∃ a b c ts, split line = a :: b :: c :: ts ∧ parseIndex a = some d.1 ∧ parseIndex b = some d.2.1 ∧ parseIndex c = some d.2.2

/-- A blank line or a comment. -/
def IsComment (line : Str) : Prop := split line = [] ∨ ∃ t ts, split line = t :: ts ∧ startsWith t cs!"--" = true

/-- The file has a `SPECGRID` section: the keyword, comments, and the line of the numbers. -/
structure Section (f : File) (mid : File) (line : Str) (rest : File) : Prop where
  file : ∃ pre, f = pre ++ cs!"SPECGRID" :: (mid ++ line :: rest) ∧ ∀ l ∈ pre, startsWith l cs!"SPECGRID" = false
  comments : ∀ l ∈ mid, IsComment l

/-- **The full property**: the dimensions of a grid are the numbers of its section, comments being ignored. -/
def DimensionsRead : Prop := ∀ (f mid rest : File) (line : Str) (d : Nat × Nat × Nat), Section f mid line rest → ThreeNumbers line d →
  readDims f = .ok (d, rest)

theorem readDimsLoop_skip {mid : File} (h : ∀ l ∈ mid, 'F' ∉ l) (r : File) : readDimsLoop (mid ++ r) = readDimsLoop r := by
  induction mid with
  | nil => rfl
  | cons l mid ih =>
    have : contains cs!"F" l = false := by
      cases hc : contains cs!"F" l with
      | false => rfl
      | true => exact absurd (contains_char.1 hc) (h l (by simp))
    rw [List.cons_append, readDimsLoop, this]
    exact ih fun x hx => h x (by simp [hx])

theorem readDimsLoop_line {line : Str} {d : Nat × Nat × Nat} (hF : 'F' ∈ line) (h : ThreeNumbers line d) (rest : File) :
    readDimsLoop (line :: rest) = .ok (d, rest) := by
  obtain ⟨a, b, c, ts, hs, ha, hb, hc⟩ := h
  rw [readDimsLoop, contains_char.2 hF, hs]
  have e : ∀ {s : Str} {n : Nat}, parseIndex s = some n → readIndex s = .ok n := by
    intro s n h; unfold readIndex; rw [h]; rfl
  simp only [if_true, Res.index_cons_zero, Res.index_cons_succ, Res.ok_bind, e ha, e hb, e hc]
  rfl

/-- **The dimensions are those of the section** when no comment has the letter `F` and the line of the numbers has it. -/
theorem dimensions_partial {f mid rest : File} {line : Str} {d : Nat × Nat × Nat} (h : Section f mid line rest) (hd : ThreeNumbers line d)
    (hm : ∀ l ∈ mid, 'F' ∉ l) (hl : 'F' ∈ line) : readDims f = .ok (d, rest) := by
  obtain ⟨pre, rfl, hp⟩ := h.file
  unfold readDims gotoKeyword
  rw [gotoKeyword?_skip' hp (by rfl)]
  simp only [Res.ofParse_some, Res.ok_bind]
  rw [← List.cons_append, readDimsLoop_skip, readDimsLoop_line hl hd]
  intro l hl
  rcases List.mem_cons.1 hl with rfl | hl
  · decide
  · exact hm l hl

/-- **Where the dimensions come from**, for every file: the first line with the letter `F` from the keyword on, of which the first three words are
the numbers. -/
theorem dimensions_from {f rest : File} {d : Nat × Nat × Nat} (h : readDims f = .ok (d, rest)) :
    ∃ pre mid line key tail, f = pre ++ (mid ++ line :: rest) ∧ (∀ l ∈ pre, startsWith l cs!"SPECGRID" = false) ∧
      mid ++ [line] = key :: tail ∧ startsWith key cs!"SPECGRID" = true ∧ (∀ l ∈ mid, 'F' ∉ l) ∧ 'F' ∈ line ∧ ThreeNumbers line d := by
  have loop : ∀ {g : File}, readDimsLoop g = .ok (d, rest) → ∃ mid line, g = mid ++ line :: rest ∧ (∀ l ∈ mid, 'F' ∉ l) ∧ 'F' ∈ line ∧
      ThreeNumbers line d := by
    intro g
    induction g with
    | nil => intro h; simp [readDimsLoop] at h
    | cons l ls ih =>
      intro h
      rw [readDimsLoop] at h
      split at h
      · rename_i hF
        simp only [Res.bind_eq_ok] at h
        obtain ⟨a, ha, a', ha', b, hb, b', hb', c, hc, c', hc', e⟩ := h
        simp only [Res.pure_eq, Res.ok.injEq, Prod.mk.injEq] at e
        obtain ⟨rfl, rfl⟩ := e
        refine ⟨[], l, rfl, by simp, contains_char.1 hF, ?_⟩
        have inv : ∀ {s : Str} {n : Nat}, readIndex s = .ok n → parseIndex s = some n := by
          intro s n h
          unfold readIndex at h
          cases hp : parseIndex s with
          | none => rw [hp] at h; cases h
          | some x => rw [hp] at h; cases h; rfl
        cases hs : split l with
        | nil => rw [hs] at ha; cases ha
        | cons x t =>
          cases t with
          | nil => rw [hs] at hb; cases hb
          | cons y t =>
            cases t with
            | nil => rw [hs] at hc; cases hc
            | cons z t =>
              rw [hs] at ha hb hc
              cases ha; cases hb; cases hc
              exact ⟨_, _, _, t, hs, inv ha', inv hb', inv hc'⟩
      · rename_i hF
        obtain ⟨mid, line, e, h1, h2, h3⟩ := ih h
        refine ⟨l :: mid, line, by rw [e]; rfl, ?_, h2, h3⟩
        intro x hx
        rcases List.mem_cons.1 hx with rfl | hx
        · intro hm; exact hF (contains_char.2 hm)
        · exact h1 x hx
  unfold readDims gotoKeyword at h
  cases hk : gotoKeyword? cs!"SPECGRID" f with
  | none => rw [hk] at h; simp at h
  | some p =>
    obtain ⟨l, g⟩ := p
    rw [hk] at h
    simp only [Res.ofParse_some, Res.ok_bind] at h
    obtain ⟨pre, rfl, h1, h2⟩ := gotoKeyword?_some hk
    obtain ⟨mid, line, e, h3, h4, h5⟩ := loop h
    cases mid with
    | nil =>
      rw [List.nil_append, List.cons.injEq] at e
      exact ⟨pre, [], line, l, [], by rw [e.1, e.2]; rfl, h1, by rw [e.1]; rfl, h2, by simp, h4, h5⟩
    | cons m mid =>
      rw [List.cons_append, List.cons.injEq] at e
      exact ⟨pre, m :: mid, line, l, mid ++ [line], by rw [e.1, e.2]; rfl, h1, by rw [e.1]; rfl, h2, h3, h4, h5⟩

/-- A grid with a comment that has the letter `F` is refused. -/
theorem comment_refused : readDims [cs!"SPECGRID", cs!"-- NUMBER OF CELLS", cs!"3 4 5 1 F /"] = .throw := by decide +kernel

/-- A grid of the other type of coordinates, without the letter, is read for ever, or up to another line with the letter. -/
theorem other_type : readDims [cs!"SPECGRID", cs!"3 4 5 1 T /"] = .diverge ∧
    readDims [cs!"SPECGRID", cs!"3 4 5 1 T /", cs!"7 7 7 FAULTS"] = .ok ((7, 7, 7), []) := by decide +kernel

theorem mem_split {s : Str} {c : Char} (hc : c ∈ s) (hw : isWs c = false) : ∃ t ∈ split s, c ∈ t := by
  induction s with
  | nil => cases hc
  | cons a s ih =>
    by_cases ha : isWs a = true
    · rw [split_cons_ws ha]
      rcases List.mem_cons.1 hc with rfl | hc
      · rw [hw] at ha; cases ha
      · exact ih hc
    · have ha : isWs a = false := by simpa using ha
      cases s with
      | nil =>
        rw [split_single ha]
        exact ⟨[a], by simp, hc⟩
      | cons d s =>
        by_cases hd : isWs d = true
        · rw [split_cons_then_ws ha hd]
          rcases List.mem_cons.1 hc with rfl | hc
          · exact ⟨[c], by simp, by simp⟩
          · obtain ⟨t, ht, h⟩ := ih hc
            rw [split_cons_ws hd] at ht
            exact ⟨t, by simp [ht], h⟩
        · have hd : isWs d = false := by simpa using hd
          obtain ⟨t, ts, e, h⟩ : ∃ t ts, split (d :: s) = t :: ts ∧ split (a :: d :: s) = (a :: t) :: ts := by
            cases e : split (d :: s) with
            | nil => exact absurd e (Verif.split_ne_nil hd s)
            | cons t ts => exact ⟨t, ts, rfl, by simp [split, ha, hd] at e ⊢; simp [e]⟩
          rw [h]
          rcases List.mem_cons.1 hc with rfl | hc
          · exact ⟨c :: t, by simp, by simp⟩
          · obtain ⟨t', ht', h'⟩ := ih hc
            rw [e] at ht'
            rcases List.mem_cons.1 ht' with rfl | ht'
            · exact ⟨a :: t', by simp, by simp [h']⟩
            · exact ⟨t', by simp [ht'], h'⟩

theorem digitsVal_letter : ∀ {s : Str} {acc : Nat}, 'F' ∈ s → digitsVal acc s = none := by
  intro s
  induction s with
  | nil => intro acc h; cases h
  | cons c s ih =>
    intro acc h
    rw [digitsVal]
    rcases List.mem_cons.1 h with rfl | h
    · rfl
    · cases digitVal c with
      | none => rfl
      | some d => exact ih h

theorem readIndex_letter {s : Str} (h : 'F' ∈ s) : readIndex s = .throw := by
  have : parseNat (dropPlus s) = none := by
    have hd : 'F' ∈ dropPlus s := by
      cases s with
      | nil => cases h
      | cons c r =>
        unfold dropPlus
        rcases List.mem_cons.1 h with rfl | h
        · simp
        · simp only
          split
          · exact h
          · simp [h]
    cases hs : dropPlus s with
    | nil => rw [hs] at hd; cases hd
    | cons c r => rw [hs] at hd; exact digitsVal_letter hd
  unfold readIndex parseIndex
  rw [this]
  rfl

/-- **The dimensions are never read beyond the end of their line**: the line has the letter `F`, so that a line of less than three words has a
word that is not a number. -/
theorem never_ub (f : File) : readDims f ≠ .ub := by
  have loop : ∀ g : File, readDimsLoop g ≠ .ub := by
    intro g
    induction g with
    | nil => simp [readDimsLoop]
    | cons l ls ih =>
      rw [readDimsLoop]
      split
      · rename_i hF
        obtain ⟨t, ht, hm⟩ := mem_split (contains_char.1 hF) (by decide)
        have idx : ∀ s : Str, readIndex s = .throw ∨ ∃ n, readIndex s = .ok n := by
          intro s
          unfold readIndex
          cases parseIndex s with
          | none => exact Or.inl rfl
          | some n => exact Or.inr ⟨n, rfl⟩
        have one : ∀ {x : Str}, t ∈ [x] → readIndex x = .throw := by
          intro x h; rw [← List.mem_singleton.1 h]; exact readIndex_letter hm
        cases hs : split l with
        | nil => rw [hs] at ht; cases ht
        | cons x r =>
          rw [hs] at ht
          simp only [Res.index_cons_zero, Res.ok_bind]
          rcases idx x with e | ⟨n, e⟩
          · rw [e]; simp
          · cases r with
            | nil => rw [one ht] at e; cases e
            | cons y r =>
              simp only [e, Res.ok_bind, Res.index_cons_succ, Res.index_cons_zero]
              rcases idx y with e' | ⟨n', e'⟩
              · rw [e']; simp
              · cases r with
                | nil =>
                  rcases List.mem_cons.1 ht with h | h
                  · rw [← h, readIndex_letter hm] at e; cases e
                  · rw [one h] at e'; cases e'
                | cons z r =>
                  simp only [e', Res.ok_bind, Res.index_cons_succ, Res.index_cons_zero]
                  rcases idx z with e'' | ⟨n'', e''⟩ <;> rw [e''] <;> simp
      · exact ih
  unfold readDims gotoKeyword
  cases gotoKeyword? cs!"SPECGRID" f with
  | none => simp
  | some p => exact loop _

theorem dimensions_not_read : ¬DimensionsRead := by
  intro h
  have := h [cs!"SPECGRID", cs!"-- NUMBER OF CELLS", cs!"3 4 5 1 F /"] [cs!"-- NUMBER OF CELLS"] [] cs!"3 4 5 1 F /" (3, 4, 5)
    ⟨⟨[], rfl, by simp⟩, by
      intro l hl
      rw [List.mem_singleton] at hl
      rw [hl]
      exact Or.inr ⟨cs!"--", [cs!"NUMBER", cs!"OF", cs!"CELLS"], by decide +kernel, rfl⟩⟩
    ⟨cs!"3", cs!"4", cs!"5", [cs!"1", cs!"F", cs!"/"], by decide +kernel, by decide +kernel, by decide +kernel, by decide +kernel⟩
  rw [comment_refused] at this
  cases this

/-- A section with a comment and a good line. -/
example : Section [cs!"RUNSPEC", cs!"SPECGRID", cs!"-- cells", cs!"3 4 5 1 F /", cs!"COORD"] [cs!"-- cells"] cs!"3 4 5 1 F /" [cs!"COORD"] ∧
    ThreeNumbers cs!"3 4 5 1 F /" (3, 4, 5) ∧ 'F' ∉ cs!"-- cells" ∧ 'F' ∈ cs!"3 4 5 1 F /" := by
  refine ⟨⟨⟨[cs!"RUNSPEC"], rfl, by decide⟩, ?_⟩, ⟨cs!"3", cs!"4", cs!"5", [cs!"1", cs!"F", cs!"/"], by decide +kernel, by decide +kernel,
    by decide +kernel, by decide +kernel⟩, by decide, by decide⟩
  intro l hl
  rw [List.mem_singleton] at hl
  rw [hl]
  exact Or.inr ⟨cs!"--", [cs!"cells"], by decide +kernel, rfl⟩

end Verif.Props.GrdeclDims
