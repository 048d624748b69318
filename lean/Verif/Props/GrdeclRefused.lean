import Verif.Props.GrdeclIncludes
import Verif.Props.GrdeclDims
import Verif.Props.LsoRefused

/-!
# C174: which corner point grids load, and which are refused

For every file whose lines end with a line feed, with any included files: when it loads, when reading it never ends and when it has undefined
behaviour; the others are refused.  Theorems about `Model.Grdecl`.
-/

namespace Verif.Props.GrdeclRefused

open Verif Verif.Grdecl Res
open Verif.Props.WlOutcomes (First first_iff goto_iff)
open Verif.Props.LsoRefused (Short short_step IsReal readDouble_ne)
open Verif.Props.GrdeclText (IsPt IsEnd cells_full cells_few)
open Verif.Props.GrdeclIncludes (Includes NamedFor source included contains_char)
open Verif.Props.GrdeclDims (ThreeNumbers)

variable {D : Type} [Num D]

/-! ## Dimensions -/

/-- From the line of the keyword on, the first line with the letter `F` has the dimensions. -/
def Dims (f : File) (d : Nat × Nat × Nat) (rest : File) : Prop :=
  ∃ l f1 mid line, First cs!"SPECGRID" f l f1 ∧ l :: f1 = mid ++ line :: rest ∧ (∀ x ∈ mid, 'F' ∉ x) ∧ 'F' ∈ line ∧ ThreeNumbers line d

/-- There is no such line. -/
def NoDims (f : File) : Prop := ∃ l f1, First cs!"SPECGRID" f l f1 ∧ ∀ x ∈ l :: f1, 'F' ∉ x

theorem readIndex_iff {w : Str} {n : Nat} : readIndex w = .ok n ↔ parseIndex w = some n := by
  unfold readIndex
  cases parseIndex w <;> simp

theorem threeNumbers_of {l : Str} {d : Nat × Nat × Nat} {rest r : File} (hF : 'F' ∈ l) (h : readDimsLoop (l :: rest) = .ok (d, r)) : ThreeNumbers l d ∧ r = rest := by
  rw [readDimsLoop, if_pos (contains_char.2 hF)] at h
  dsimp only at h
  obtain ⟨a, h1, h⟩ := bind_eq_ok.1 h
  obtain ⟨x, h2, h⟩ := bind_eq_ok.1 h
  obtain ⟨b, h3, h⟩ := bind_eq_ok.1 h
  obtain ⟨y, h4, h⟩ := bind_eq_ok.1 h
  obtain ⟨c, h5, h⟩ := bind_eq_ok.1 h
  obtain ⟨z, h6, h⟩ := bind_eq_ok.1 h
  have e := Prod.mk.inj (Res.ok.inj h)
  rw [index_eq_ok] at h1 h3 h5
  rw [readIndex_iff] at h2 h4 h6
  match hs : split l with
  | [] => rw [hs] at h1; cases h1
  | [_] => rw [hs] at h3; cases h3
  | [_, _] => rw [hs] at h5; cases h5
  | a' :: b' :: c' :: ts =>
    rw [hs] at h1 h3 h5
    have e1 : a' = a := Option.some.inj h1
    have e2 : b' = b := Option.some.inj h3
    have e3 : c' = c := Option.some.inj h5
    rw [← e1] at h2
    rw [← e2] at h4
    rw [← e3] at h6
    exact ⟨⟨a', b', c', ts, hs, by rw [← e.1]; exact h2, by rw [← e.1]; exact h4, by rw [← e.1]; exact h6⟩, e.2.symm⟩

theorem dimsLoop_iff {g : File} {d : Nat × Nat × Nat} {rest : File} : readDimsLoop g = .ok (d, rest) ↔
    ∃ mid line, g = mid ++ line :: rest ∧ (∀ x ∈ mid, 'F' ∉ x) ∧ 'F' ∈ line ∧ ThreeNumbers line d := by
  constructor
  · intro h
    induction g with
    | nil => simp [readDimsLoop] at h
    | cons l ls ih =>
      by_cases hF : 'F' ∈ l
      · obtain ⟨h1, rfl⟩ := threeNumbers_of hF h
        exact ⟨[], l, rfl, by simp, hF, h1⟩
      · rw [readDimsLoop, if_neg (fun hc => hF (contains_char.1 hc))] at h
        obtain ⟨mid, line, e, h1, h2, h3⟩ := ih h
        refine ⟨l :: mid, line, by rw [e]; rfl, ?_, h2, h3⟩
        intro x hx
        rcases List.mem_cons.1 hx with rfl | hx
        exacts [hF, h1 x hx]
  · rintro ⟨mid, line, rfl, h1, h2, h3⟩
    rw [GrdeclDims.readDimsLoop_skip h1]
    exact GrdeclDims.readDimsLoop_line h2 h3 rest

theorem dims_iff {f : File} {d : Nat × Nat × Nat} {rest : File} : readDims f = .ok (d, rest) ↔ Dims f d rest := by
  unfold readDims Dims
  constructor
  · intro h
    obtain ⟨⟨l, f1⟩, h1, h⟩ := bind_eq_ok.1 h
    obtain ⟨mid, line, h2, h3⟩ := dimsLoop_iff.1 h
    exact ⟨l, f1, mid, line, goto_iff.1 h1, h2, h3⟩
  · rintro ⟨l, f1, mid, line, h1, h2, h3⟩
    rw [goto_iff.2 h1, ok_bind]
    exact dimsLoop_iff.2 ⟨mid, line, h2, h3⟩

theorem dimsLoop_diverge {g : File} : readDimsLoop g = .diverge ↔ ∀ x ∈ g, 'F' ∉ x := by
  induction g with
  | nil => simp [readDimsLoop]
  | cons l ls ih =>
    rw [readDimsLoop]
    by_cases hF : 'F' ∈ l
    · rw [if_pos (contains_char.2 hF)]
      constructor
      · intro h
        exfalso
        dsimp only at h
        rcases bind_diverge.1 h with h | ⟨_, _, h⟩
        · exact index_ne_diverge h
        rcases bind_diverge.1 h with h | ⟨_, _, h⟩
        · exact LsoRefused.readIndex_ne.2 h
        rcases bind_diverge.1 h with h | ⟨_, _, h⟩
        · exact index_ne_diverge h
        rcases bind_diverge.1 h with h | ⟨_, _, h⟩
        · exact LsoRefused.readIndex_ne.2 h
        rcases bind_diverge.1 h with h | ⟨_, _, h⟩
        · exact index_ne_diverge h
        rcases bind_diverge.1 h with h | ⟨_, _, h⟩
        · exact LsoRefused.readIndex_ne.2 h
        · cases h
      · intro h
        exact absurd hF (h l List.mem_cons_self)
    · rw [if_neg (fun hc => hF (contains_char.1 hc)), ih]
      simp [hF]

theorem dims_diverge {f : File} : readDims f = .diverge ↔ NoDims f := by
  unfold readDims NoDims
  rw [bind_diverge]
  constructor
  · rintro (h | ⟨⟨l, f1⟩, h1, h⟩)
    · exact absurd h (LsoRefused.gotoKeyword_ne _ _).2
    · exact ⟨l, f1, goto_iff.1 h1, dimsLoop_diverge.1 h⟩
  · rintro ⟨l, f1, h1, h⟩
    exact .inr ⟨_, goto_iff.2 h1, dimsLoop_diverge.2 h⟩

/-! ## Pillars -/

/-- The lines describe the pillars, each on one line of six numbers or on two lines of three numbers, with blank lines between them. -/
inductive Pillars : List (Pillar D) → File → Prop
  | nil : Pillars [] []
  | blank {ps ls l} (h : ¬ IsEnd l) (hs : split l = []) (hr : Pillars ps ls) : Pillars ps (l :: ls)
  | one {ps ls l p a b c d e f} (h : ¬ IsEnd l) (hs : split l = [a, b, c, d, e, f]) (ht : IsPt [a, b, c] p.top) (hb : IsPt [d, e, f] p.bottom) (hr : Pillars ps ls) :
      Pillars (p :: ps) (l :: ls)
  | two {ps ls l l' p a b c} (h : ¬ IsEnd l) (hs : split l = [a, b, c]) (ht : IsPt [a, b, c] p.top) (hb : IsPt (split l') p.bottom) (hr : Pillars ps ls) :
      Pillars (p :: ps) (l :: l' :: ls)

/-- The pillars of a section, up to its end. -/
def PillarSection (f : File) (ps : List (Pillar D)) (rest : File) : Prop := ∃ ls e, f = ls ++ e :: rest ∧ Pillars ps ls ∧ IsEnd e

/-- The next pillar is one too many, or its second line (empty at the end of the file) has too few numbers. -/
inductive BadPillar (D : Type) [Num D] (full : Prop) : File → Prop
  | many {p : Pillar D} {ls rest} (h : full) (hp : Pillars [p] ls) : BadPillar D full (ls ++ rest)
  | short {l a b c rest} {top : Pt D} (h : ¬ IsEnd l) (hs : split l = [a, b, c]) (ht : IsPt [a, b, c] top) (hb : Short (IsReal D) (split (rest.headD [])) 0 3) :
      BadPillar D full (l :: rest)

/-- At most `n` pillars are read, and then such a pillar. -/
def BadPillars (D : Type) [Num D] (n : Nat) (f : File) : Prop :=
  ∃ (ps : List (Pillar D)) (ls rest : File), f = ls ++ rest ∧ Pillars ps ls ∧ ps.length ≤ n ∧ BadPillar D (ps.length = n) rest

theorem readDouble_iff {w : Str} {v : D} : readDouble w = .ok v ↔ Num.parse w = some v := by
  unfold readDouble
  cases (Num.parse w : Option D) <;> simp

theorem readPt_iff {ts : List Str} {p : Pt D} : readPt ts 0 = .ok p ↔ IsPt ts p := by
  constructor
  · intro h
    unfold readPt at h
    obtain ⟨a, h1, h⟩ := bind_eq_ok.1 h
    obtain ⟨x, h2, h⟩ := bind_eq_ok.1 h
    obtain ⟨b, h3, h⟩ := bind_eq_ok.1 h
    obtain ⟨y, h4, h⟩ := bind_eq_ok.1 h
    obtain ⟨c, h5, h⟩ := bind_eq_ok.1 h
    obtain ⟨z, h6, h7⟩ := bind_eq_ok.1 h
    rw [index_eq_ok] at h1 h3 h5
    rw [readDouble_iff] at h2 h4 h6
    match ts with
    | [] => cases h1
    | [_] => cases h3
    | [_, _] => cases h5
    | a' :: b' :: c' :: r =>
      have e1 : a' = a := Option.some.inj h1
      have e2 : b' = b := Option.some.inj h3
      have e3 : c' = c := Option.some.inj h5
      have e := Res.ok.inj h7
      subst e1 e2 e3
      rw [← e]
      exact ⟨a', b', c', r, rfl, h2, h4, h6⟩
  · exact GrdeclText.readPt_zero

theorem readPt_ne {ts : List Str} {i : Nat} : (readPt ts i : Res (Pt D)) ≠ .diverge := by
  intro h
  unfold readPt at h
  rcases bind_diverge.1 h with h | ⟨_, _, h⟩
  · exact index_ne_diverge h
  rcases bind_diverge.1 h with h | ⟨_, _, h⟩
  · exact readDouble_ne.2 h
  rcases bind_diverge.1 h with h | ⟨_, _, h⟩
  · exact index_ne_diverge h
  rcases bind_diverge.1 h with h | ⟨_, _, h⟩
  · exact readDouble_ne.2 h
  rcases bind_diverge.1 h with h | ⟨_, _, h⟩
  · exact index_ne_diverge h
  rcases bind_diverge.1 h with h | ⟨_, _, h⟩
  · exact readDouble_ne.2 h
  · cases h

theorem readPt_ub {ts : List Str} {i : Nat} : (readPt ts i : Res (Pt D)) = .ub ↔ Short (IsReal D) ts i 3 := by
  have one : ∀ (k n : Nat) (r : D → Res (Pt D)), (∀ x, k < ts.length → (r x = .ub ↔ Short (IsReal D) ts (k + 1) n)) →
      ((Res.index ts k >>= fun w => (readDouble w : Res D) >>= r) = .ub ↔ Short (IsReal D) ts k (n + 1)) := by
    intro k n r hr
    rw [short_step, bind_ub, index_ub_iff]
    refine or_congr Iff.rfl ?_
    constructor
    · rintro ⟨w, h1, h⟩
      have hl := (List.getElem?_eq_some_iff.1 (index_eq_ok.1 h1)).1
      rcases bind_ub.1 h with h | ⟨x, h2, h⟩
      · exact absurd h readDouble_ne.1
      · exact ⟨w, index_eq_ok.1 h1, ⟨x, readDouble_iff.1 h2⟩, (hr x hl).1 h⟩
    · rintro ⟨w, h1, ⟨x, h2⟩, h3⟩
      have hl := (List.getElem?_eq_some_iff.1 h1).1
      exact ⟨w, index_eq_ok.2 h1, bind_ub.2 (.inr ⟨x, readDouble_iff.2 h2, (hr x hl).2 h3⟩)⟩
  unfold readPt
  refine one i 2 _ fun x _ => one (i + 1) 1 _ fun y _ => one (i + 2) 0 _ fun z hl => ?_
  exact ⟨fun h => (by cases h), fun h => absurd h.1 (by omega)⟩

theorem isEnd_neg {l : Str} : ¬ IsEnd l ↔ startsWith l cs!"/" = false := by
  unfold IsEnd
  cases startsWith l cs!"/" <;> simp

/-- A line of a section, given its words. -/
def lineStep (size : Nat) (ps : List (Pillar D)) (tokens : List Str) (ls : File) : Res (List (Pillar D) × File) :=
  if tokens.isEmpty then pillarsLoop size ps none ls
  else if tokens.length = 6 then do
    let top ← readPt tokens 0
    let bottom ← readPt tokens 3
    if ps.length < size then pillarsLoop size (ps ++ [⟨top, bottom⟩]) none ls else .ub
  else if tokens.length = 3 then do
    let top ← readPt tokens 0
    pillarsLoop size ps (some top) ls
  else .throw

theorem loop_line {size : Nat} {ps : List (Pillar D)} {l : Str} {ls : File} (h : ¬ IsEnd l) : pillarsLoop size ps none (l :: ls) = lineStep size ps (split l) ls := by
  rw [pillarsLoop, if_neg (show ¬ startsWith l cs!"/" = true from h)]
  rfl

theorem step_nil {size : Nat} {ps : List (Pillar D)} {ls : File} : lineStep size ps [] ls = pillarsLoop size ps none ls := rfl

theorem step_six {size : Nat} {ps : List (Pillar D)} {a b c d e f : Str} {ls : File} : lineStep size ps [a, b, c, d, e, f] ls = (do
    let top ← readPt [a, b, c, d, e, f] 0
    let bottom ← readPt [a, b, c, d, e, f] 3
    if ps.length < size then pillarsLoop size (ps ++ [⟨top, bottom⟩]) none ls else .ub) := rfl

theorem step_three {size : Nat} {ps : List (Pillar D)} {a b c : Str} {ls : File} : lineStep size ps [a, b, c] ls = (do
    let top ← readPt [a, b, c] 0
    pillarsLoop size ps (some top) ls) := rfl

/-- Reading the lines of some pillars, then the others. -/
theorem pillars_read (size : Nat) {ps : List (Pillar D)} {ls : File} (h : Pillars ps ls) (acc : List (Pillar D)) (hacc : acc.length + ps.length ≤ size) (rest : File) :
    pillarsLoop size acc none (ls ++ rest) = pillarsLoop size (acc ++ ps) none rest := by
  induction h generalizing acc with
  | nil => simp
  | blank h hs hr ih =>
    rw [List.cons_append, loop_line h, hs, step_nil]
    exact ih acc hacc
  | @one ps ls l p a b c d e f h hs ht hb hr ih =>
    rw [List.length_cons] at hacc
    rw [List.cons_append, loop_line h, hs, step_six]
    have e1 : readPt [a, b, c, d, e, f] 0 = .ok p.top := GrdeclText.readPt_zero (ht.append (r := [d, e, f]))
    have e2 : readPt [a, b, c, d, e, f] 3 = .ok p.bottom := GrdeclText.readPt_ok (pre := [a, b, c]) hb
    rw [e1, ok_bind, e2, ok_bind, if_pos (by omega), ih _ (by simp; omega), List.append_assoc]
    rfl
  | @two ps ls l l' p a b c h hs ht hb hr ih =>
    rw [List.length_cons] at hacc
    rw [List.cons_append, List.cons_append, loop_line h, hs, step_three, readPt_iff.2 ht, ok_bind, pillarsLoop, readPt_iff.2 hb, ok_bind, if_pos (by omega),
      ih _ (by simp; omega), List.append_assoc]
    rfl

theorem bad_read (size : Nat) {f : File} (acc : List (Pillar D)) (h : BadPillar D (acc.length = size) f) : pillarsLoop size acc none f = .ub := by
  cases h with
  | @many p ls rest h hp =>
    generalize hg : [p] = qs at hp
    induction hp with
    | nil => cases hg
    | blank h1 hs hr ih =>
      rw [List.cons_append, loop_line h1, hs, step_nil]
      exact ih hg
    | @one ps ls l p' a b c d e f h1 hs ht hb hr ih =>
      rw [List.cons_append, loop_line h1, hs, step_six]
      have e1 : readPt [a, b, c, d, e, f] 0 = .ok p'.top := GrdeclText.readPt_zero (ht.append (r := [d, e, f]))
      have e2 : readPt [a, b, c, d, e, f] 3 = .ok p'.bottom := GrdeclText.readPt_ok (pre := [a, b, c]) hb
      rw [e1, ok_bind, e2, ok_bind, if_neg (by omega)]
    | @two ps ls l l' p' a b c h1 hs ht hb hr ih =>
      rw [List.cons_append, List.cons_append, loop_line h1, hs, step_three, readPt_iff.2 ht, ok_bind, pillarsLoop, readPt_iff.2 hb, ok_bind, if_neg (by omega)]
  | @short l a b c rest top h1 hs ht hb =>
    rw [loop_line h1, hs, step_three, readPt_iff.2 ht, ok_bind]
    cases rest with
    | nil => rw [pillarsLoop]
    | cons l' rest =>
      rw [pillarsLoop, readPt_ub.2 (show Short (IsReal D) (split l') 0 3 from hb), ub_bind]

/-- What happens to the lines of a section. -/
theorem pillars_cases (size : Nat) : ∀ (n : Nat) (f : File) (acc : List (Pillar D)), f.length ≤ n → acc.length ≤ size →
    (∃ ps rest, PillarSection f ps rest ∧ acc.length + ps.length ≤ size ∧ pillarsLoop size acc none f = .ok (acc ++ ps, rest)) ∨
    (∃ ps : List (Pillar D), Pillars ps f ∧ acc.length + ps.length ≤ size ∧ pillarsLoop size acc none f = .diverge) ∨
    (BadPillars D (size - acc.length) f ∧ pillarsLoop size acc none f = .ub) ∨ pillarsLoop size acc none f = .throw := by
  intro n
  induction n with
  | zero =>
    intro f acc hn ha
    rw [List.length_eq_zero_iff.1 (by omega : f.length = 0)]
    exact .inr (.inl ⟨[], .nil, by simpa using ha, by rw [pillarsLoop]⟩)
  | succ n ih =>
    intro f acc hn ha
    -- the lines `ls` are read, and what remains falls in one of the cases
    have step : ∀ (ps : List (Pillar D)) (ls rest : File), Pillars ps ls → f = ls ++ rest → 0 < ls.length → acc.length + ps.length ≤ size →
        (∀ {qs : List (Pillar D)} {ms : File}, Pillars qs ms → Pillars (ps ++ qs) (ls ++ ms)) →
        (∃ ps rest, PillarSection f ps rest ∧ acc.length + ps.length ≤ size ∧ pillarsLoop size acc none f = .ok (acc ++ ps, rest)) ∨
        (∃ ps : List (Pillar D), Pillars ps f ∧ acc.length + ps.length ≤ size ∧ pillarsLoop size acc none f = .diverge) ∨
        (BadPillars D (size - acc.length) f ∧ pillarsLoop size acc none f = .ub) ∨ pillarsLoop size acc none f = .throw := by
      rintro ps ls rest hp rfl hl hle app
      rw [pillars_read size hp acc hle]
      rw [List.length_append] at hn
      rcases ih rest (acc ++ ps) (by omega) (by simpa using hle) with ⟨qs, r, ⟨ms, e, rfl, h1, h2⟩, h3, h4⟩ | ⟨qs, h1, h2, h3⟩ | ⟨⟨qs, ms, r, rfl, h1, h2, h3⟩, h4⟩ | h
      · rw [List.length_append] at h3
        refine .inl ⟨ps ++ qs, r, ⟨ls ++ ms, e, by simp, app h1, h2⟩, by simp; omega, by rw [h4]; simp⟩
      · rw [List.length_append] at h2
        exact .inr (.inl ⟨ps ++ qs, app h1, by simp; omega, h3⟩)
      · rw [List.length_append] at h2 h3
        refine .inr (.inr (.inl ⟨⟨ps ++ qs, ls ++ ms, r, by simp, app h1, by simp; omega, ?_⟩, h4⟩))
        have : (qs.length = size - (acc.length + ps.length)) = ((ps ++ qs).length = size - acc.length) := by
          rw [List.length_append]
          exact propext (by omega)
        rw [← this]
        exact h3
      · exact .inr (.inr (.inr h))
    cases f with
    | nil => exact .inr (.inl ⟨[], .nil, by simpa using ha, by rw [pillarsLoop]⟩)
    | cons l ls =>
      by_cases hE : IsEnd l
      · exact .inl ⟨[], ls, ⟨[], l, rfl, .nil, hE⟩, by simpa using ha, by rw [pillarsLoop, if_pos (show startsWith l cs!"/" = true from hE), List.append_nil]⟩
      have full : ∀ {P : Pillar D} {ms rest : File}, l :: ls = ms ++ rest → Pillars [P] ms → ¬ acc.length < size → BadPillars D (size - acc.length) (l :: ls) := by
        intro P ms rest e hp hf
        exact ⟨[], [], l :: ls, rfl, .nil, by simp, e ▸ .many (by simp; omega) hp⟩
      match hs : split l with
      | [] => exact step [] [l] ls (.blank hE hs .nil) rfl (by simp) (by simpa using ha) fun h => .blank hE hs h
      | [a, b, c, d, e, f] =>
        cases h1 : (readPt [a, b, c, d, e, f] 0 : Res (Pt D)) with
        | ok top =>
          cases h2 : (readPt [a, b, c, d, e, f] 3 : Res (Pt D)) with
          | ok bottom =>
            have ht : IsPt [a, b, c] top := by
              obtain ⟨_, _, _, _, e0, k1, k2, k3⟩ := readPt_iff.1 h1
              simp only [List.cons.injEq] at e0
              obtain ⟨rfl, rfl, rfl, -⟩ := e0
              exact ⟨a, b, c, [], rfl, k1, k2, k3⟩
            have hb : IsPt [d, e, f] bottom := readPt_iff.1 (by
              rw [← h2]
              rfl)
            by_cases hf : acc.length < size
            · exact step [⟨top, bottom⟩] [l] ls (.one hE hs ht hb .nil) rfl (by simp) (by simp; omega) fun h => .one hE hs ht hb h
            · have hp : Pillars [(⟨top, bottom⟩ : Pillar D)] [l] := .one hE hs ht hb .nil
              have hB := full (rest := ls) rfl hp hf
              exact .inr (.inr (.inl ⟨hB, bad_read size acc (.many (ls := [l]) (rest := ls) (by omega) hp)⟩))
          | throw =>
            right; right; right
            rw [loop_line hE, hs, step_six, h1, ok_bind, h2, throw_bind]
          | ub => exact absurd (readPt_ub.1 h2).1 (by simp)
          | diverge => exact absurd h2 readPt_ne
        | throw =>
          right; right; right
          rw [loop_line hE, hs, step_six, h1, throw_bind]
        | ub => exact absurd (readPt_ub.1 h1).1 (by simp)
        | diverge => exact absurd h1 readPt_ne
      | [a, b, c] =>
        cases h1 : (readPt [a, b, c] 0 : Res (Pt D)) with
        | ok top =>
          have ht := readPt_iff.1 h1
          cases ls with
          | nil =>
            have hB : BadPillar D (acc.length = size) [l] := .short hE hs ht ⟨by simp, by simp⟩
            refine .inr (.inr (.inl ⟨⟨[], [], [l], rfl, .nil, by simp, ?_⟩, bad_read size acc hB⟩))
            exact .short hE hs ht ⟨by simp, by simp⟩
          | cons l' ls =>
            cases h2 : (readPt (split l') 0 : Res (Pt D)) with
            | ok bottom =>
              have hb := readPt_iff.1 h2
              by_cases hf : acc.length < size
              · exact step [⟨top, bottom⟩] [l, l'] ls (.two hE hs ht hb .nil) rfl (by simp) (by simp; omega) fun h => .two hE hs ht hb h
              · have hp : Pillars [(⟨top, bottom⟩ : Pillar D)] [l, l'] := .two hE hs ht hb .nil
                have hB := full (rest := ls) rfl hp hf
                exact .inr (.inr (.inl ⟨hB, bad_read size acc (.many (ls := [l, l']) (rest := ls) (by omega) hp)⟩))
            | throw =>
              right; right; right
              rw [loop_line hE, hs, step_three, h1, ok_bind, pillarsLoop, h2, throw_bind]
            | ub =>
              have hsh := readPt_ub.1 h2
              exact .inr (.inr (.inl ⟨⟨[], [], l :: l' :: ls, rfl, .nil, by simp, .short hE hs ht hsh⟩, bad_read size acc (.short hE hs ht hsh)⟩))
            | diverge => exact absurd h2 readPt_ne
        | throw =>
          right; right; right
          rw [loop_line hE, hs, step_three, h1, throw_bind]
        | ub => exact absurd (readPt_ub.1 h1).1 (by simp)
        | diverge => exact absurd h1 readPt_ne
      | [_] | [_, _] | [_, _, _, _] | [_, _, _, _, _] | _ :: _ :: _ :: _ :: _ :: _ :: _ :: _ =>
        right; right; right
        rw [loop_line hE, hs, lineStep, if_neg (by simp), if_neg (by simp), if_neg (by simp)]

theorem pillars_ok {size : Nat} {f : File} {ps : List (Pillar D)} {rest : File} : pillarsLoop size [] none f = .ok (ps, rest) ↔ PillarSection f ps rest ∧ ps.length ≤ size := by
  constructor
  · intro h
    rcases pillars_cases size f.length f ([] : List (Pillar D)) (Nat.le_refl _) (by simp) with ⟨qs, r, h1, h2, h3⟩ | ⟨_, _, _, h3⟩ | ⟨_, h3⟩ | h3
    · rw [h] at h3
      obtain ⟨rfl, rfl⟩ := Prod.mk.inj (Res.ok.inj h3)
      exact ⟨h1, by simpa using h2⟩
    all_goals rw [h] at h3; cases h3
  · rintro ⟨⟨ls, e, rfl, h1, h2⟩, h3⟩
    rw [pillars_read size h1 [] (by simpa using h3), pillarsLoop, if_pos (show startsWith e cs!"/" = true from h2)]
    rfl

theorem pillars_diverge {size : Nat} {f : File} : pillarsLoop size ([] : List (Pillar D)) none f = .diverge ↔ ∃ ps : List (Pillar D), Pillars ps f ∧ ps.length ≤ size := by
  constructor
  · intro h
    rcases pillars_cases size f.length f ([] : List (Pillar D)) (Nat.le_refl _) (by simp) with ⟨_, _, _, _, h3⟩ | ⟨ps, h1, h2, h3⟩ | ⟨_, h3⟩ | h3
    · rw [h] at h3; cases h3
    · exact ⟨ps, h1, by simpa using h2⟩
    all_goals rw [h] at h3; cases h3
  · rintro ⟨ps, h1, h2⟩
    have := pillars_read size h1 [] (by simpa using h2) []
    rw [List.append_nil] at this
    rw [this, pillarsLoop]

theorem pillars_ub {size : Nat} {f : File} : pillarsLoop size ([] : List (Pillar D)) none f = .ub ↔ BadPillars D size f := by
  constructor
  · intro h
    rcases pillars_cases size f.length f ([] : List (Pillar D)) (Nat.le_refl _) (by simp) with ⟨_, _, _, _, h3⟩ | ⟨_, _, _, h3⟩ | ⟨h1, _⟩ | h3
    · rw [h] at h3; cases h3
    · rw [h] at h3; cases h3
    · exact h1
    · rw [h] at h3; cases h3
  · rintro ⟨ps, ls, rest, rfl, h1, h2, h3⟩
    rw [pillars_read size h1 [] (by simpa using h2)]
    exact bad_read size _ h3

/-! ## Depths -/

/-- The words of a section: those of the lines before its end. -/
def words (f : File) : List Str := (f.takeWhile fun l => !startsWith l cs!"/").flatMap split

/-- The words are the depths. -/
def AreDepths (ws : List Str) (ds : List D) : Prop := List.Forall₂ (fun t d => Num.parse t = some d) ws ds

/-- More than `n` words, and all the first ones, up to the next one after `n`, are numbers. -/
def Over (D : Type) [Num D] (n : Nat) (ws : List Str) : Prop := n < ws.length ∧ ∀ w ∈ ws.take (n + 1), IsReal D w

/-- The section ends. -/
def Ended (f : File) : Prop := ∃ l ∈ f, IsEnd l

theorem tokens_cases (size : Nat) : ∀ (ts : List Str) (acc : List D), acc.length ≤ size →
    (∃ ds, AreDepths ts ds ∧ acc.length + ds.length ≤ size ∧ depthTokens size acc ts = .ok (acc ++ ds)) ∨
    (Over D (size - acc.length) ts ∧ depthTokens size acc ts = .ub) ∨
    (depthTokens size acc ts = .throw ∧ (¬ ∃ ds : List D, AreDepths ts ds) ∧ ¬ Over D (size - acc.length) ts) := by
  intro ts
  induction ts with
  | nil => exact fun acc h => .inl ⟨[], .nil, by simpa using h, by rw [depthTokens, List.append_nil]⟩
  | cons t ts ih =>
    intro acc h
    rw [depthTokens]
    cases hd : (readDouble t : Res D) with
    | throw =>
      have hn : ¬ IsReal D t := by
        rintro ⟨v, hv⟩
        rw [readDouble_iff.2 hv] at hd
        cases hd
      refine .inr (.inr ⟨by rw [throw_bind], ?_, ?_⟩)
      · rintro ⟨ds, h⟩
        cases h with
        | cons h _ => exact hn ⟨_, h⟩
      · rintro ⟨-, h⟩
        exact hn (h t (by simp))
    | ub => exact absurd hd readDouble_ne.1
    | diverge => exact absurd hd readDouble_ne.2
    | ok d =>
      have hp := readDouble_iff.1 hd
      rw [ok_bind]
      by_cases hl : acc.length < size
      · rw [if_pos hl]
        have hsub : size - acc.length = (size - (acc ++ [d]).length) + 1 := by simp; omega
        have hover : Over D (size - acc.length) (t :: ts) ↔ Over D (size - (acc ++ [d]).length) ts := by
          rw [hsub]
          unfold Over
          rw [List.take_succ_cons, List.length_cons]
          constructor
          · rintro ⟨h1, h2⟩
            exact ⟨by omega, fun w hw => h2 w (List.mem_cons_of_mem _ hw)⟩
          · rintro ⟨h1, h2⟩
            refine ⟨by omega, fun w hw => ?_⟩
            rcases List.mem_cons.1 hw with rfl | hw
            exacts [⟨d, hp⟩, h2 w hw]
        rw [hover]
        rcases ih (acc ++ [d]) (by simp; omega) with ⟨ds, h1, h2, h3⟩ | ⟨h1, h2⟩ | ⟨h1, h2, h3⟩
        · rw [List.length_append, List.length_singleton] at h2
          exact .inl ⟨d :: ds, .cons hp h1, by simp; omega, by rw [h3]; simp⟩
        · exact .inr (.inl ⟨h1, h2⟩)
        · refine .inr (.inr ⟨h1, ?_, h3⟩)
          rintro ⟨ds, h⟩
          cases h with
          | cons _ h => exact h2 ⟨_, h⟩
      · rw [if_neg hl]
        refine .inr (.inl ⟨⟨by simp; omega, ?_⟩, rfl⟩)
        rw [show size - acc.length = 0 by omega]
        intro w hw
        rw [List.take_succ_cons, List.take_zero, List.mem_singleton] at hw
        exact hw ▸ ⟨d, hp⟩

theorem over_append {n : Nat} {a b : List Str} : Over D n (a ++ b) ↔ Over D n a ∨ (a.length ≤ n ∧ (∀ w ∈ a, IsReal D w) ∧ Over D (n - a.length) b) := by
  unfold Over
  rw [List.length_append, List.take_append]
  constructor
  · rintro ⟨h1, h2⟩
    by_cases h : n < a.length
    · exact .inl ⟨h, fun w hw => h2 w (List.mem_append_left _ hw)⟩
    · rw [List.take_of_length_le (by omega : a.length ≤ n + 1), show n + 1 - a.length = n - a.length + 1 by omega] at h2
      exact .inr ⟨by omega, fun w hw => h2 w (List.mem_append_left _ hw), by omega, fun w hw => h2 w (List.mem_append_right _ hw)⟩
  · rintro (⟨h1, h2⟩ | ⟨h1, h2, h3, h4⟩)
    · refine ⟨by omega, fun w hw => ?_⟩
      rcases List.mem_append.1 hw with hw | hw
      · exact h2 w hw
      · rw [show n + 1 - a.length = 0 by omega] at hw
        cases hw
    · refine ⟨by omega, fun w hw => ?_⟩
      rcases List.mem_append.1 hw with hw | hw
      · exact h2 w (List.mem_of_mem_take hw)
      · rw [show n + 1 - a.length = n - a.length + 1 by omega] at hw
        exact h4 w hw

theorem areDepths_real {ws : List Str} {ds : List D} (h : AreDepths ws ds) : ∀ w ∈ ws, IsReal D w := by
  induction h with
  | nil => simp
  | cons h _ ih =>
    intro w hw
    rcases List.mem_cons.1 hw with rfl | hw
    exacts [⟨_, h⟩, ih w hw]

theorem areDepths_append {a b : List Str} {ds : List D} (h : AreDepths (a ++ b) ds) : ∃ ds1 ds2, ds = ds1 ++ ds2 ∧ AreDepths a ds1 ∧ AreDepths b ds2 := by
  obtain ⟨c1, c2, h1, h2, e⟩ := GrdeclText.forall₂_append_left h
  exact ⟨c1, c2, e, h1, h2⟩

theorem areDepths_unique {ws : List Str} {ds es : List D} (h : AreDepths ws ds) (h' : AreDepths ws es) : ds = es := by
  induction h generalizing es with
  | nil => cases h'; rfl
  | cons h _ ih =>
    cases h' with
    | cons k1 k2 =>
      rw [h] at k1
      rw [Option.some.inj k1, ih k2]

/-- What happens to the lines of a section. -/
theorem depths_cases (size : Nat) : ∀ (f : File) (acc : List D), acc.length ≤ size →
    (∃ ds, AreDepths (words f) ds ∧ acc.length + ds.length ≤ size ∧
      ((Ended f ∧ ∃ rest, depthsLoop size acc f = .ok (acc ++ ds, rest)) ∨ (¬ Ended f ∧ depthsLoop size acc f = .diverge))) ∨
    (Over D (size - acc.length) (words f) ∧ depthsLoop size acc f = .ub) ∨
    (depthsLoop size acc f = .throw ∧ (¬ ∃ ds : List D, AreDepths (words f) ds) ∧ ¬ Over D (size - acc.length) (words f)) := by
  intro f
  induction f with
  | nil => exact fun acc h => .inl ⟨[], .nil, by simpa using h, .inr ⟨by simp [Ended], by rw [depthsLoop]⟩⟩
  | cons l ls ih =>
    intro acc h
    rw [depthsLoop]
    by_cases hE : IsEnd l
    · have hw : words (l :: ls) = [] := by
        unfold words
        rw [List.takeWhile_cons_of_neg (by rw [show startsWith l cs!"/" = true from hE]; simp)]
        rfl
      rw [if_pos (show startsWith l cs!"/" = true from hE), hw]
      exact .inl ⟨[], .nil, by simpa using h, .inl ⟨⟨l, List.mem_cons_self, hE⟩, ls, by rw [List.append_nil]⟩⟩
    · have hw : words (l :: ls) = split l ++ words ls := by
        unfold words
        rw [List.takeWhile_cons_of_pos (by rw [isEnd_neg.1 hE]; rfl), List.flatMap_cons]
      have hend : Ended (l :: ls) ↔ Ended ls := by
        unfold Ended
        simp [hE]
      rw [if_neg (show ¬ startsWith l cs!"/" = true from hE), hw, hend]
      rcases tokens_cases size (split l) acc h with ⟨ds, h1, h2, h3⟩ | ⟨h1, h2⟩ | ⟨h1, h2, h3⟩
      · rw [h3, ok_bind]
        have hlen : (split l).length = ds.length := h1.length_eq
        have hov : Over D (size - acc.length) (split l ++ words ls) ↔ Over D (size - (acc ++ ds).length) (words ls) := by
          rw [over_append, List.length_append, hlen, Nat.sub_sub]
          constructor
          · rintro (⟨k, -⟩ | ⟨-, -, k⟩)
            · omega
            · exact k
          · exact fun k => .inr ⟨by omega, areDepths_real h1, k⟩
        rw [hov]
        rcases ih (acc ++ ds) (by simpa using h2) with ⟨es, k1, k2, k3⟩ | ⟨k1, k2⟩ | ⟨k1, k2, k3⟩
        · rw [List.length_append] at k2
          refine .inl ⟨ds ++ es, List.rel_append h1 k1, by simp; omega, ?_⟩
          rw [← List.append_assoc]
          exact k3
        · exact .inr (.inl ⟨k1, k2⟩)
        · refine .inr (.inr ⟨k1, ?_, k3⟩)
          rintro ⟨es, e⟩
          obtain ⟨_, es2, _, _, e2⟩ := areDepths_append e
          exact k2 ⟨es2, e2⟩
      · exact .inr (.inl ⟨over_append.2 (.inl h1), by rw [h2, ub_bind]⟩)
      · refine .inr (.inr ⟨by rw [h1, throw_bind], ?_, ?_⟩)
        · rintro ⟨es, e⟩
          obtain ⟨es1, _, _, e1, _⟩ := areDepths_append e
          exact h2 ⟨es1, e1⟩
        · intro k
          rcases over_append.1 k with k | ⟨_, k, _⟩
          · exact h3 k
          · refine h2 ?_
            have : ∀ ws : List Str, (∀ w ∈ ws, IsReal D w) → ∃ ds : List D, AreDepths ws ds := by
              intro ws hws
              induction ws with
              | nil => exact ⟨[], .nil⟩
              | cons w ws ihw =>
                obtain ⟨v, hv⟩ := hws w List.mem_cons_self
                obtain ⟨ds, hds⟩ := ihw fun x hx => hws x (List.mem_cons_of_mem _ hx)
                exact ⟨v :: ds, .cons hv hds⟩
            exact this _ k

/-! ## Whole files -/

section

variable [Add D] [Sub D] [Mul D] [Div D] [One D]

/-- The file of the pillars (`f` itself or an included one), from the line after the keyword on. -/
def Coord (fs : Str → Option File) (f : File) (o : Option Str) (body : File) : Prop := ∃ l, First cs!"COORD" (source fs f o) l body

/-- The file of the depths, from the line after the keyword on; `after` are the lines after the pillars. -/
def Zcorn (fs : Str → Option File) (f : File) (o1 o2 : Option Str) (after body : File) : Prop :=
  ∃ l, First cs!"ZCORN" (source fs (if o1.isSome then f else after) o2) l body

/-- The file has dimensions, and `o1` and `o2` are the included files of the pillars and depths. -/
def Start (f : File) (n : Nat × Nat × Nat) (o1 o2 : Option Str) : Prop :=
  ∃ after ls, Dims f n after ∧ Includes after ls ∧ NamedFor ls cs!"COORD" o1 ∧ NamedFor ls cs!"ZCORN" o2

/-- The pillars are read, no more than the grid has. -/
def PillarsRead (fs : Str → Option File) (f : File) (n : Nat × Nat × Nat) (o1 o2 : Option Str) (ps : List (Pillar D)) (after : File) : Prop :=
  Start f n o1 o2 ∧ ∃ body, Coord fs f o1 body ∧ PillarSection body ps after ∧ ps.length ≤ (n.1 + 1) * (n.2.1 + 1)

/-- The words of the section of the depths. -/
def DepthWords (D : Type) [Num D] (fs : Str → Option File) (f : File) (n : Nat × Nat × Nat) (ws : List Str) (ended : Prop) : Prop :=
  ∃ o1 o2, ∃ (ps : List (Pillar D)) (after body : File), PillarsRead fs f n o1 o2 ps after ∧ Zcorn fs f o1 o2 after body ∧ ws = words body ∧ (ended ↔ Ended body)

/-- The number of depths of a grid. -/
def total (n : Nat × Nat × Nat) : Nat := 8 * n.1 * n.2.1 * n.2.2

/-- The grids have less than 2^32 depths and pillars. -/
def Small (f : File) : Prop := ∀ n rest, Dims f n rest → total n < W ∧ (n.1 + 1) * (n.2.1 + 1) < W

/-- The files with which loading has undefined behaviour: a pillar too many or an incomplete one, a depth too many or too few. -/
def Bad (D : Type) [Num D] (fs : Str → Option File) (f : File) : Prop :=
  (∃ n o1 o2 body, Start f n o1 o2 ∧ Coord fs f o1 body ∧ BadPillars D ((n.1 + 1) * (n.2.1 + 1)) body) ∨
  ∃ n ws ended, DepthWords D fs f n ws ended ∧ (Over D (total n) ws ∨ (ended ∧ ∃ ds : List D, AreDepths ws ds ∧ ds.length < total n))

/-- The files that are read for ever: no line with the letter of the dimensions, or a section of pillars or depths without an end. -/
def Endless (D : Type) [Num D] (fs : Str → Option File) (f : File) : Prop :=
  NoDims f ∨ (∃ n o1 o2 body, ∃ ps : List (Pillar D), Start f n o1 o2 ∧ Coord fs f o1 body ∧ Pillars ps body ∧ ps.length ≤ (n.1 + 1) * (n.2.1 + 1)) ∨
  ∃ n ws ended, ∃ ds : List D, DepthWords D fs f n ws ended ∧ ¬ ended ∧ AreDepths ws ds ∧ ds.length ≤ total n

/-- The files that load: complete sections with the right number of depths, and no more pillars than needed. -/
def Complete (D : Type) [Num D] (fs : Str → Option File) (f : File) : Prop :=
  ∃ n ws ended, ∃ ds : List D, DepthWords D fs f n ws ended ∧ ended ∧ AreDepths ws ds ∧ ds.length = total n

theorem start_of {f : File} {n : Nat × Nat × Nat} {after : File} (h : Dims f n after) : ∃ o1 o2, Start f n o1 o2 := by
  obtain ⟨ls, hl⟩ := GrdeclIncludes.includes_exist after.length after (Nat.le_refl _)
  obtain ⟨rs, -, he⟩ := GrdeclIncludes.includesLoop_ok hl
  have named : ∀ key, ∃ o, NamedFor ls key o := by
    intro key
    rcases GrdeclIncludes.fileOf_entries he key with ⟨n, -, h⟩ | ⟨-, h⟩
    · exact ⟨some n, h⟩
    · exact ⟨none, h⟩
  obtain ⟨o1, h1⟩ := named cs!"COORD"
  obtain ⟨o2, h2⟩ := named cs!"ZCORN"
  exact ⟨o1, o2, after, ls, h, hl, h1, h2⟩

theorem load_start {merge : List (Pt D) → List (Pt D) × List Nat} {fs : Str → Option File} {f : File} {n : Nat × Nat × Nat} {o1 o2 : Option Str} (h : Start f n o1 o2) :
    (load merge fs f : Res (Solid D)) = (readPillars n.1 n.2.1 (source fs f o1) : Res (List (Pillar D) × File)) >>= fun r =>
      readDepths n.1 n.2.1 n.2.2 (source fs (if o1.isSome then f else r.2) o2) >>= fun ds => createCells merge n.1 n.2.1 n.2.2 r.1 ds := by
  obtain ⟨after, ls, h1, h2, h3, h4⟩ := h
  exact included (dims_iff.2 h1) h2 h3 h4

/-- The outcome of a file, and why. -/
theorem load_cases {merge : List (Pt D) → List (Pt D) × List Nat} (hm : ∀ pts, (merge pts).2.length = pts.length) (fs : Str → Option File) {f : File} (hs : Small f) :
    ((∃ s, (load merge fs f : Res (Solid D)) = .ok s) ∧ Complete D fs f) ∨ ((load merge fs f : Res (Solid D)) = .diverge ∧ Endless D fs f) ∨
    ((load merge fs f : Res (Solid D)) = .ub ∧ Bad D fs f) ∨ (load merge fs f : Res (Solid D)) = .throw := by
  cases hd : readDims f with
  | throw => exact .inr (.inr (.inr (by unfold load; rw [hd, throw_bind])))
  | ub => exact absurd hd (GrdeclDims.never_ub f)
  | diverge => exact .inr (.inl ⟨by unfold load; rw [hd]; rfl, .inl (dims_diverge.1 hd)⟩)
  | ok r =>
    obtain ⟨n, after⟩ := r
    have hD := dims_iff.1 hd
    obtain ⟨hW, hP⟩ := hs n after hD
    obtain ⟨o1, o2, hS⟩ := start_of hD
    rw [load_start hS, readPillars]
    dsimp only
    rw [Nat.mod_eq_of_lt hP]
    rcases WlOutcomes.goto_cases cs!"COORD" (source fs f o1) with ⟨l1, body, hg, hf⟩ | ⟨hg, -⟩
    swap
    · exact .inr (.inr (.inr (by rw [hg]; rfl)))
    rw [hg, ok_bind]
    have hC : Coord fs f o1 body := ⟨l1, hf⟩
    dsimp only
    cases hp : pillarsLoop ((n.1 + 1) * (n.2.1 + 1)) ([] : List (Pillar D)) none body with
    | throw => exact .inr (.inr (.inr rfl))
    | ub => exact .inr (.inr (.inl ⟨rfl, .inl ⟨n, o1, o2, body, hS, hC, pillars_ub.1 hp⟩⟩))
    | diverge =>
      obtain ⟨ps, h1, h2⟩ := pillars_diverge.1 hp
      exact .inr (.inl ⟨rfl, .inr (.inl ⟨n, o1, o2, body, ps, hS, hC, h1, h2⟩)⟩)
    | ok r =>
      obtain ⟨ps, rest⟩ := r
      obtain ⟨h1, h2⟩ := pillars_ok.1 hp
      have hR : PillarsRead fs f n o1 o2 ps rest := ⟨hS, body, hC, h1, h2⟩
      rw [ok_bind, pure_eq, ok_bind, readDepths]
      dsimp only
      rw [show 8 * n.1 * n.2.1 * n.2.2 % W = total n from Nat.mod_eq_of_lt hW]
      rcases WlOutcomes.goto_cases cs!"ZCORN" (source fs (if o1.isSome then f else rest) o2) with ⟨l2, body2, hg2, hf2⟩ | ⟨hg2, -⟩
      swap
      · exact .inr (.inr (.inr (by rw [hg2]; rfl)))
      rw [hg2, ok_bind]
      have hZ : DepthWords D fs f n (words body2) (Ended body2) := ⟨o1, o2, ps, rest, body2, hR, ⟨l2, hf2⟩, rfl, Iff.rfl⟩
      dsimp only
      rcases depths_cases (D := D) (total n) body2 [] (by simp) with ⟨ds, k1, k2, ⟨k3, r2, k4⟩ | ⟨k3, k4⟩⟩ | ⟨k1, k2⟩ | ⟨k1, k2, k3⟩
      · rw [k4, ok_bind]
        dsimp only
        rw [List.nil_append, pure_eq, ok_bind]
        have hq : (ps ++ List.replicate ((n.1 + 1) * (n.2.1 + 1) - ps.length) Pillar.zero).length = (n.1 + 1) * (n.2.1 + 1) := by simp; omega
        by_cases hl : ds.length = total n
        · rw [hl, Nat.sub_self, List.replicate_zero, List.append_nil]
          exact .inl ⟨cells_full hW hP hq hl hm, n, _, _, ds, hZ, k3, k1, hl⟩
        · have hl : ds.length < total n := by simp only [List.length_nil] at k2; omega
          exact .inr (.inr (.inl ⟨cells_few hW hP hq hl, .inr ⟨n, _, _, hZ, .inr ⟨k3, ds, k1, hl⟩⟩⟩))
      · rw [k4]
        exact .inr (.inl ⟨rfl, .inr (.inr ⟨n, _, _, ds, hZ, k3, k1, by simpa using k2⟩)⟩)
      · rw [k2]
        exact .inr (.inr (.inl ⟨rfl, .inr ⟨n, _, _, hZ, .inl (by simpa using k1)⟩⟩))
      · rw [k1]
        exact .inr (.inr (.inr rfl))

theorem load_pillars {merge : List (Pt D) → List (Pt D) × List Nat} {fs : Str → Option File} {f : File} (hs : Small f) {n : Nat × Nat × Nat} {o1 o2 : Option Str}
    (hS : Start f n o1 o2) {body : File} (hC : Coord fs f o1 body) : (load merge fs f : Res (Solid D)) =
      (pillarsLoop ((n.1 + 1) * (n.2.1 + 1)) [] none body : Res (List (Pillar D) × File)) >>= fun r =>
      readDepths n.1 n.2.1 n.2.2 (source fs (if o1.isSome then f else r.2) o2) >>= fun ds =>
        createCells merge n.1 n.2.1 n.2.2 (r.1 ++ List.replicate ((n.1 + 1) * (n.2.1 + 1) - r.1.length) Pillar.zero) ds := by
  obtain ⟨l, hl⟩ := hC
  have hP : (n.1 + 1) * (n.2.1 + 1) < W := by
    obtain ⟨after, _, hD, _⟩ := hS
    exact (hs n after hD).2
  rw [load_start hS, readPillars]
  dsimp only
  rw [Nat.mod_eq_of_lt hP, goto_iff.2 hl, ok_bind]
  cases pillarsLoop ((n.1 + 1) * (n.2.1 + 1)) ([] : List (Pillar D)) none body <;> rfl

theorem load_depths {merge : List (Pt D) → List (Pt D) × List Nat} {fs : Str → Option File} {f : File} (hs : Small f) {n : Nat × Nat × Nat} {ws : List Str} {ended : Prop}
    (h : DepthWords D fs f n ws ended) : ∃ (body : File) (qs : List (Pillar D)), ws = words body ∧ (ended ↔ Ended body) ∧ qs.length = (n.1 + 1) * (n.2.1 + 1) ∧
      total n < W ∧ (n.1 + 1) * (n.2.1 + 1) < W ∧
      (load merge fs f : Res (Solid D)) = (depthsLoop (total n) [] body : Res (List D × File)) >>= fun r =>
        createCells merge n.1 n.2.1 n.2.2 qs (r.1.map some ++ List.replicate (total n - r.1.length) none) := by
  obtain ⟨o1, o2, ps, after, body2, ⟨hS, body, hC, h1, h2⟩, ⟨l, hl⟩, hw, he⟩ := h
  obtain ⟨a, _, hD, _⟩ := id hS
  obtain ⟨hW, hP⟩ := hs n a hD
  refine ⟨body2, ps ++ List.replicate ((n.1 + 1) * (n.2.1 + 1) - ps.length) Pillar.zero, hw, he, by simp; omega, hW, hP, ?_⟩
  rw [load_pillars hs hS hC, pillars_ok.2 ⟨h1, h2⟩, ok_bind]
  dsimp only
  rw [readDepths]
  dsimp only
  rw [show 8 * n.1 * n.2.1 * n.2.2 % W = total n from Nat.mod_eq_of_lt hW, goto_iff.2 hl, ok_bind]
  cases depthsLoop (total n) ([] : List D) body2 <;> rfl

/-- **C174, the files that load.** -/
theorem grid_loads_iff {merge : List (Pt D) → List (Pt D) × List Nat} (hm : ∀ pts, (merge pts).2.length = pts.length) (fs : Str → Option File) {f : File} (hs : Small f) :
    (∃ s, (load merge fs f : Res (Solid D)) = .ok s) ↔ Complete D fs f := by
  constructor
  · rintro ⟨s, h⟩
    rcases load_cases hm fs hs with ⟨-, hc⟩ | ⟨h', -⟩ | ⟨h', -⟩ | h'
    · exact hc
    all_goals rw [h] at h'; cases h'
  · rintro ⟨n, ws, ended, ds, h, he, hd, hl⟩
    obtain ⟨body, qs, rfl, h2, h3, hW, hP, e⟩ := load_depths (merge := merge) hs h
    rw [e]
    rcases depths_cases (D := D) (total n) body [] (by simp) with ⟨es, k1, k2, ⟨k3, r2, k4⟩ | ⟨k3, k4⟩⟩ | ⟨k1, k2⟩ | ⟨k1, k2, k3⟩
    · rw [k4, ok_bind]
      dsimp only
      rw [List.nil_append, areDepths_unique k1 hd, hl, Nat.sub_self, List.replicate_zero, List.append_nil]
      exact cells_full hW hP h3 hl hm
    · exact absurd (h2.1 he) k3
    · have := hd.length_eq
      simp only [List.length_nil, Nat.sub_zero] at k1
      exact absurd k1.1 (by omega)
    · exact absurd ⟨ds, hd⟩ k2

/-- **C174, the files that are read for ever.** -/
theorem grid_diverge_iff {merge : List (Pt D) → List (Pt D) × List Nat} (hm : ∀ pts, (merge pts).2.length = pts.length) (fs : Str → Option File) {f : File} (hs : Small f) :
    (load merge fs f : Res (Solid D)) = .diverge ↔ Endless D fs f := by
  constructor
  · intro h
    rcases load_cases (D := D) hm fs hs with ⟨⟨s, h'⟩, -⟩ | ⟨-, he⟩ | ⟨h', -⟩ | h'
    · rw [h] at h'; cases h'
    · exact he
    all_goals rw [h] at h'; cases h'
  · rintro (h | ⟨n, o1, o2, body, ps, hS, hC, h1, h2⟩ | ⟨n, ws, ended, ds, h, he, hd, hl⟩)
    · unfold load
      rw [dims_diverge.2 h]
      rfl
    · rw [load_pillars hs hS hC, pillars_diverge.2 ⟨ps, h1, h2⟩]
      rfl
    · obtain ⟨body, qs, rfl, h2, -, -, -, e⟩ := load_depths (merge := merge) hs h
      rw [e]
      rcases depths_cases (D := D) (total n) body [] (by simp) with ⟨es, k1, k2, ⟨k3, r2, k4⟩ | ⟨k3, k4⟩⟩ | ⟨k1, k2⟩ | ⟨k1, k2, k3⟩
      · exact absurd (h2.2 k3) he
      · rw [k4]
        rfl
      · have := hd.length_eq
        simp only [List.length_nil, Nat.sub_zero] at k1
        exact absurd k1.1 (by omega)
      · exact absurd ⟨ds, hd⟩ k2

/-- **C174, undefined behaviour.** -/
theorem grid_ub_iff {merge : List (Pt D) → List (Pt D) × List Nat} (hm : ∀ pts, (merge pts).2.length = pts.length) (fs : Str → Option File) {f : File} (hs : Small f) :
    (load merge fs f : Res (Solid D)) = .ub ↔ Bad D fs f := by
  constructor
  · intro h
    rcases load_cases (D := D) hm fs hs with ⟨⟨s, h'⟩, -⟩ | ⟨h', -⟩ | ⟨-, hb⟩ | h'
    · rw [h] at h'; cases h'
    · rw [h] at h'; cases h'
    · exact hb
    · rw [h] at h'; cases h'
  · rintro (⟨n, o1, o2, body, hS, hC, hb⟩ | ⟨n, ws, ended, h, hb⟩)
    · rw [load_pillars hs hS hC, pillars_ub.2 hb]
      rfl
    · obtain ⟨body, qs, rfl, h2, h3, hW, hP, e⟩ := load_depths (merge := merge) hs h
      rw [e]
      rcases depths_cases (D := D) (total n) body [] (by simp) with ⟨es, k1, k2, k⟩ | ⟨k1, k2⟩ | ⟨k1, k2, k3⟩
      · have hlen := k1.length_eq
        simp only [List.length_nil, Nat.zero_add] at k2
        rcases hb with hb | ⟨he, ds, hd, hl⟩
        · exact absurd hb.1 (by omega)
        · rcases k with ⟨k3, r2, k4⟩ | ⟨k3, k4⟩
          · rw [k4, ok_bind]
            dsimp only
            rw [List.nil_append, areDepths_unique k1 hd]
            exact cells_few hW hP h3 hl
          · exact absurd (h2.1 he) k3
      · rw [k2]
        rfl
      · rcases hb with hb | ⟨he, ds, hd, hl⟩
        · exact absurd hb k3
        · exact absurd ⟨ds, hd⟩ k2

/-- A corner point grid that does not load is refused. -/
def Refused : Prop := ∀ (merge : List (Pt D) → List (Pt D) × List Nat), (∀ pts, (merge pts).2.length = pts.length) → ∀ (fs : Str → Option File) (f : File), Small f →
  (∃ s, (load merge fs f : Res (Solid D)) = .ok s) ∨ (load merge fs f : Res (Solid D)) = .throw

/-- **C174**: the other files that do not load are refused. -/
theorem refused_partial {merge : List (Pt D) → List (Pt D) × List Nat} (hm : ∀ pts, (merge pts).2.length = pts.length) (fs : Str → Option File) {f : File} (hs : Small f)
    (he : ¬ Endless D fs f) (hb : ¬ Bad D fs f) : (∃ s, (load merge fs f : Res (Solid D)) = .ok s) ∨ (load merge fs f : Res (Solid D)) = .throw := by
  rcases load_cases (D := D) hm fs hs with ⟨h, -⟩ | ⟨-, h⟩ | ⟨-, h⟩ | h
  exacts [.inl h, absurd h he, absurd h hb, .inr h]

end

/-! ## Files -/

open Verif.Props.GrdeclText (parts1)

/-- A merging that keeps the points. -/
def keep (pts : List (Pt Int)) : List (Pt Int) × List Nat := (pts, List.range pts.length)

theorem small_parts1 : Small parts1.file := by
  intro n rest h
  have h := dims_iff.2 h
  have e : ∃ r, readDims parts1.file = .ok ((1, 1, 1), r) := ⟨parts1.file.drop 2, by decide +kernel⟩
  obtain ⟨r, e⟩ := e
  rw [e] at h
  rw [← (Prod.mk.inj (Res.ok.inj h)).1]
  decide

theorem keep_length (pts : List (Pt Int)) : (keep pts).2.length = pts.length := by simp [keep]

/-- **C174 fails**: a file without the letter of the dimensions is read for ever, and one with seven depths for one cell has undefined
behaviour. -/
theorem refused_fails : ¬ Refused (D := Int) ∧ (load keep (fun _ => none) [cs!"SPECGRID", cs!"3 4 5 1 T /"] : Res (Solid Int)) = .diverge ∧
    (load keep (fun _ => none) { parts1 with depths := [cs!"1 1 1 1", cs!"2 2 2"] }.file : Res (Solid Int)) = .ub := by
  have e : (load keep (fun _ => none) [cs!"SPECGRID", cs!"3 4 5 1 T /"] : Res (Solid Int)) = .diverge := by decide +kernel
  refine ⟨fun h => ?_, e, by decide +kernel⟩
  rcases h keep keep_length (fun _ => none) [cs!"SPECGRID", cs!"3 4 5 1 T /"] (by
    intro n rest h
    have h := dims_iff.2 h
    rw [Verif.Props.GrdeclDims.other_type.1] at h
    cases h) with ⟨s, e'⟩ | e' <;> rw [e] at e' <;> cases e'

/-- The conditions of `grid_loads_iff` hold for the example. -/
example : Complete Int (fun _ => none) parts1.file :=
  (grid_loads_iff (merge := keep) keep_length _ small_parts1).1
    (Verif.Props.GrdeclText.too_few_pillars Verif.Props.GrdeclText.parts1_good (by decide) (by decide) (by decide) (by decide) keep_length)

/-- The example is not read for ever and has no undefined behaviour. -/
example : ¬ Endless Int (fun _ => none) parts1.file ∧ ¬ Bad Int (fun _ => none) parts1.file := by
  obtain ⟨s, h⟩ := Verif.Props.GrdeclText.too_few_pillars (merge := keep) (fs := fun _ => none) Verif.Props.GrdeclText.parts1_good (by decide) (by decide) (by decide) (by decide) keep_length
  constructor
  · intro he
    rw [(grid_diverge_iff keep_length _ small_parts1).2 he] at h
    cases h
  · intro hb
    rw [(grid_ub_iff keep_length _ small_parts1).2 hb] at h
    cases h

end Verif.Props.GrdeclRefused
