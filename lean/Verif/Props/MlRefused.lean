import Verif.Props.MlOutcomes
import Verif.Props.MlFile

/-!
# The `.ml` files that do not load

For every file, when loading has undefined behaviour, when it never ends, and that all other files that do not load are refused with an exception.
-/

set_option linter.unusedSectionVars false

namespace Verif.Props.MlRefused

open Verif Verif.Gocad Verif.GocadMesh Verif.Ml Res
open Verif.Props.MlFile (Good Complete missing_words good_step good_empty index_ub)
open Verif.Props.MlOutcomes
open Verif.Props.WlOutcomes (First goto_iff first_iff)

variable {D : Type} [Num D]

/-! ## Lists of numbers -/

/-- The words before the first one that is not taken. -/
theorem untilZero_ub {g : Str → Res (Option Nat)} {acc : List Nat} {ws : List Str} : untilZero g acc ws = .ub ↔
    ∃ a t b, ws = a ++ t :: b ∧ (∀ w ∈ a, ∃ n, g w = .ok (some n)) ∧ g t = .ub := by
  induction ws generalizing acc with
  | nil => simp [untilZero]
  | cons t ts ih =>
    rw [untilZero]
    cases ht : g t with
    | ub => exact ⟨fun _ => ⟨[], t, ts, rfl, by simp, ht⟩, fun _ => rfl⟩
    | throw =>
      simp only [throw_bind, reduceCtorEq, false_iff]
      rintro ⟨_ | ⟨x, a⟩, u, b, e, h1, h2⟩
      · cases e; rw [ht] at h2; cases h2
      · cases e
        obtain ⟨n, hn⟩ := h1 t (by simp)
        rw [ht] at hn; cases hn
    | diverge =>
      constructor
      · intro h; cases h
      · rintro ⟨_ | ⟨x, a⟩, u, b, e, h1, h2⟩
        · cases e; rw [ht] at h2; cases h2
        · cases e
          obtain ⟨n, hn⟩ := h1 t (by simp)
          rw [ht] at hn; cases hn
    | ok o =>
      rw [ok_bind]
      cases o with
      | none =>
        constructor
        · intro h; cases h
        · rintro ⟨_ | ⟨x, a⟩, u, b, e, h1, h2⟩
          · cases e; rw [ht] at h2; cases h2
          · cases e
            obtain ⟨n, hn⟩ := h1 t (by simp)
            rw [ht] at hn; cases hn
      | some n =>
        dsimp only
        rw [ih]
        constructor
        · rintro ⟨a, u, b, rfl, h1, h2⟩
          refine ⟨t :: a, u, b, rfl, ?_, h2⟩
          intro w hw
          rcases List.mem_cons.1 hw with rfl | hw
          · exact ⟨n, ht⟩
          · exact h1 w hw
        · rintro ⟨_ | ⟨x, a⟩, u, b, e, h1, h2⟩
          · cases e; rw [ht] at h2; cases h2
          · cases e
            exact ⟨a, u, b, rfl, fun w hw => h1 w (by simp [hw]), h2⟩

theorem untilZero_closed {g : Str → Res (Option Nat)} {acc r : List Nat} {ws : List Str} : untilZero g acc ws = .ok (r, true) ↔
    ∃ a z b ns, ws = a ++ z :: b ∧ List.Forall₂ (fun w n => g w = .ok (some n)) a ns ∧ g z = .ok none ∧ r = acc ++ ns := by
  induction ws generalizing acc with
  | nil => simp [untilZero]
  | cons t ts ih =>
    rw [untilZero]
    have hbad : (∀ o, g t ≠ .ok o) → ¬∃ a z b ns, t :: ts = a ++ z :: b ∧ List.Forall₂ (fun w n => g w = .ok (some n)) a ns ∧ g z = .ok none ∧ r = acc ++ ns := by
      intro hno
      rintro ⟨_ | ⟨x, a⟩, u, b, ns, e, h1, h2, _⟩
      · cases e; exact hno _ h2
      · cases e
        cases h1 with
        | cons h1 _ => exact hno _ h1
    cases ht : g t with
    | ub =>
      refine ⟨fun h => ?_, fun h => absurd h (hbad (by simp [ht]))⟩
      cases h
    | throw =>
      refine ⟨fun h => ?_, fun h => absurd h (hbad (by simp [ht]))⟩
      cases h
    | diverge =>
      refine ⟨fun h => ?_, fun h => absurd h (hbad (by simp [ht]))⟩
      cases h
    | ok o =>
      rw [ok_bind]
      cases o with
      | none =>
        constructor
        · intro h
          cases h
          exact ⟨[], t, ts, [], rfl, .nil, ht, by simp⟩
        · rintro ⟨_ | ⟨x, a⟩, u, b, ns, e, h1, h2, rfl⟩
          · cases e
            cases h1
            simp
          · cases e
            cases h1 with
            | cons h1 _ => rw [ht] at h1; cases h1
      | some n =>
        dsimp only
        rw [ih]
        constructor
        · rintro ⟨a, u, b, ns, rfl, h1, h2, rfl⟩
          exact ⟨t :: a, u, b, n :: ns, rfl, .cons ht h1, h2, by simp⟩
        · rintro ⟨_ | ⟨x, a⟩, u, b, ns, e, h1, h2, rfl⟩
          · cases e; rw [ht] at h2; cases h2
          · cases e
            cases h1 with
            | @cons _ m _ ms h1 h3 =>
              rw [ht] at h1
              cases h1
              exact ⟨a, u, b, ms, rfl, h3, h2, by simp⟩

theorem untilZero_ends {g : Str → Res (Option Nat)} (hg : ∀ w, g w ≠ .diverge) {acc : List Nat} {ws : List Str} : untilZero g acc ws ≠ .diverge := by
  induction ws generalizing acc with
  | nil => simp [untilZero]
  | cons t ts ih =>
    rw [untilZero]
    cases ht : g t with
    | ok o => cases o with
      | none => simp
      | some n => rw [ok_bind]; exact ih
    | ub => simp
    | throw => simp
    | diverge => exact absurd ht (hg t)

/-- The smallest of the numbers that are read. -/
def smallest : Int := -2147483648

/-- A word that is a number of a list, other than 0 and the smallest number, whose absolute value does not exist. -/
def IsNumber (w : Str) (z : Int) : Prop := parseInt w = some z ∧ z ≠ 0 ∧ z ≠ smallest

theorem surfaceToken_some {w : Str} {n : Nat} : surfaceToken w = .ok (some n) ↔ ∃ z, IsNumber w z ∧ place z = n := by
  unfold surfaceToken IsNumber
  cases hp : parseInt w with
  | none => simp [Res.ofParse]
  | some z =>
    rw [ofParse_some, ok_bind]
    by_cases h0 : z = 0
    · subst h0; simp
    · rw [if_neg h0]
      by_cases h1 : z = -2147483648
      · rw [if_pos h1]
        simp [smallest, h1]
      · rw [if_neg h1]
        simp [smallest, h0, h1, place]

theorem surfaceToken_none {w : Str} : surfaceToken w = .ok none ↔ parseInt w = some 0 := by
  unfold surfaceToken
  cases hp : parseInt w with
  | none => simp [Res.ofParse]
  | some z =>
    rw [ofParse_some, ok_bind]
    by_cases h0 : z = 0
    · subst h0; simp
    · rw [if_neg h0]
      by_cases h1 : z = -2147483648 <;> simp [h0, h1]

theorem surfaceToken_ub {w : Str} : surfaceToken w = .ub ↔ parseInt w = some smallest := by
  unfold surfaceToken
  cases hp : parseInt w with
  | none => simp [Res.ofParse]
  | some z =>
    rw [ofParse_some, ok_bind]
    by_cases h0 : z = 0
    · subst h0; simp [smallest]
    · rw [if_neg h0]
      by_cases h1 : z = -2147483648 <;> simp [h1, smallest]

theorem surfaceToken_ends (w : Str) : surfaceToken w ≠ .diverge := by
  unfold surfaceToken
  cases hp : parseInt w with
  | none => simp [Res.ofParse]
  | some z =>
    rw [ofParse_some, ok_bind]
    split
    · simp
    · split <;> simp

theorem universeToken_some {st : RState} {w : Str} : (∃ n, universeToken st w = .ok (some n)) ↔ ∃ z, IsNumber w z ∧ place z < st.surfaces.length := by
  unfold universeToken
  constructor
  · rintro ⟨n, h⟩
    obtain ⟨o, h1, h⟩ := bind_eq_ok.1 h
    cases o with
    | none => cases h
    | some i =>
      obtain ⟨_, h2, h⟩ := bind_eq_ok.1 h
      obtain ⟨z, hz, rfl⟩ := surfaceToken_some.1 h1
      exact ⟨z, hz, (List.getElem?_eq_some_iff.1 (at_eq_ok.1 h2)).1⟩
  · rintro ⟨z, hz, hl⟩
    refine ⟨place z, ?_⟩
    rw [surfaceToken_some.2 ⟨z, hz, rfl⟩, ok_bind]
    dsimp only
    rw [at_eq_ok.2 (List.getElem?_eq_getElem hl)]
    rfl

theorem universeToken_ub {st : RState} {w : Str} : universeToken st w = .ub ↔ parseInt w = some smallest := by
  rw [← surfaceToken_ub]
  unfold universeToken
  cases surfaceToken w with
  | ub => simp
  | throw => simp
  | diverge => constructor <;> (intro h; cases h)
  | ok o =>
    rw [ok_bind]
    cases o with
    | none => simp
    | some i =>
      dsimp only
      unfold Res.at_
      cases st.surfaces[i]? <;> simp

theorem universeToken_ends (st : RState) (w : Str) : universeToken st w ≠ .diverge := by
  unfold universeToken
  cases h : surfaceToken w with
  | ub => simp
  | throw => simp
  | diverge => exact absurd h (surfaceToken_ends w)
  | ok o =>
    rw [ok_bind]
    cases o with
    | none => simp
    | some i =>
      dsimp only
      unfold Res.at_
      cases st.surfaces[i]? <;> simp

theorem layerToken_defined (st : RState) (w : Str) : layerToken st w ≠ .ub ∧ layerToken st w ≠ .diverge := by
  unfold layerToken readIndex Res.ofParse
  split
  · rw [ok_bind]
    split <;> simp
  · simp

/-! ## A line of the components -/

/-- A list of numbers of a region that cannot be used: it has less than two numbers, or one that is not of a surface read before. -/
def BadList (st : RState) (ns : List Nat) : Prop := ns.length < 2 ∨ ∃ n ∈ ns, st.surfaces.length ≤ n

theorem mapM'_index {A : Type} {l : List A} : ∀ {rel : List (Bool × Nat)}, (∀ r ∈ rel, r.2 < l.length) → ∃ xs, Res.mapM' (fun r : Bool × Nat => Res.index l r.2) rel = .ok xs
  | [], _ => ⟨[], rfl⟩
  | r :: rel, h => by
    obtain ⟨xs, hxs⟩ := mapM'_index (rel := rel) fun r hr => h r (by simp [hr])
    exact ⟨l[r.2]'(h r (by simp)) :: xs, by rw [mapM'_cons, index_of_lt (h r (by simp)), ok_bind, hxs]; rfl⟩

theorem mapM'_index_ub {A : Type} {l : List A} : ∀ {rel : List (Bool × Nat)}, (∃ r ∈ rel, l.length ≤ r.2) → Res.mapM' (fun r : Bool × Nat => Res.index l r.2) rel = .ub
  | [], h => by obtain ⟨r, hr, _⟩ := h; cases hr
  | q :: rel, h => by
    obtain ⟨r, hr, hl⟩ := h
    rw [mapM'_cons]
    by_cases hq : l.length ≤ q.2
    · rw [index_ub hq]; rfl
    · rcases List.mem_cons.1 hr with rfl | hr
      · exact absurd hl hq
      · rw [index_of_lt (by omega), ok_bind, mapM'_index_ub ⟨r, hr, hl⟩]; rfl

/-- Closing the list of a region. -/
theorem closeBlock_cases (st : RState) (name : Str) (ns : List Nat) :
    (BadList st ns ∧ closeBlock st name ns = .ub) ∨ (¬BadList st ns ∧ ∃ st', closeBlock st name ns = .ok st') := by
  unfold closeBlock BadList
  by_cases h2 : ns.length < 2
  · have : relations ns = .ub := by
      unfold relations
      dsimp only
      rw [if_pos (by rw [(sortNat_perm ns).length_eq]; exact h2)]
    exact .inl ⟨.inl h2, by rw [this]; rfl⟩
  · obtain ⟨rel, h3, _, h4⟩ := relations_bounds (ns := ns) (by omega)
    rw [h3, ok_bind]
    by_cases hb : ∃ n ∈ ns, st.surfaces.length ≤ n
    · refine .inl ⟨.inr hb, ?_⟩
      obtain ⟨n, hn, hl⟩ := hb
      obtain ⟨r, hr, rfl⟩ := List.mem_map.1 ((h4 n).2 hn)
      rw [mapM'_index_ub ⟨r, hr, hl⟩]
      rfl
    · refine .inr ⟨fun h => h.elim h2 hb, ?_⟩
      obtain ⟨xs, hx⟩ := mapM'_index (l := st.surfaces) (rel := rel) fun r hr =>
        Nat.lt_of_not_le fun hl => hb ⟨r.2, (h4 _).1 (List.mem_map_of_mem hr), hl⟩
      rw [hx]
      exact ⟨_, rfl⟩

theorem closeBlock_ub {st : RState} {name : Str} {ns : List Nat} : closeBlock st name ns = .ub ↔ BadList st ns := by
  rcases closeBlock_cases st name ns with ⟨h1, h2⟩ | ⟨h1, st', h2⟩
  · exact ⟨fun _ => h1, fun _ => h2⟩
  · rw [h2]
    exact ⟨fun h => by simp at h, fun h => absurd h h1⟩

/-- A line of the components with which reading has undefined behaviour, after components that gave `st` and in the given list. -/
def Wrong (st : RState) : Mode → Str → Prop
  | .top, l => ¬Complete l
  | .outside, l => ∃ a t b, split l = a ++ t :: b ∧ (∀ w ∈ a, ∃ z, IsNumber w z ∧ place z < st.surfaces.length) ∧ parseInt t = some smallest
  | .block _ acc, l => ∃ a t b zs, split l = a ++ t :: b ∧ List.Forall₂ IsNumber a zs ∧
      (parseInt t = some smallest ∨ (parseInt t = some 0 ∧ BadList st (acc ++ zs.map place)))
  | .layer _ _, _ => False
  | .faultBlock _ _, _ => False

theorem bind_ub {A B : Type} {r : Res A} {k : A → Res B} : (r >>= k) = .ub ↔ r = .ub ∨ ∃ a, r = .ok a ∧ k a = .ub := by
  cases r <;> simp

theorem bind_diverge {A B : Type} {r : Res A} {k : A → Res B} : (r >>= k) = .diverge ↔ r = .diverge ∨ ∃ a, r = .ok a ∧ k a = .diverge := by
  cases r <;> simp

theorem forall₂_numbers {a : List Str} {ns : List Nat} : List.Forall₂ (fun w n => surfaceToken w = .ok (some n)) a ns ↔
    ∃ zs, List.Forall₂ IsNumber a zs ∧ ns = zs.map place := by
  induction a generalizing ns with
  | nil =>
    constructor
    · intro h; cases h; exact ⟨[], .nil, rfl⟩
    · rintro ⟨zs, h, rfl⟩; cases h; exact .nil
  | cons w a ih =>
    constructor
    · intro h
      cases h with
      | cons h1 h2 =>
        obtain ⟨z, hz, rfl⟩ := surfaceToken_some.1 h1
        obtain ⟨zs, hzs, rfl⟩ := ih.1 h2
        exact ⟨z :: zs, .cons hz hzs, rfl⟩
    · rintro ⟨zs, h, rfl⟩
      cases h with
      | cons h1 h2 => exact .cons (surfaceToken_some.2 ⟨_, h1, rfl⟩) (ih.2 ⟨_, h2, rfl⟩)

theorem numbers_of {a : List Str} (h : ∀ w ∈ a, ∃ n, surfaceToken w = .ok (some n)) : ∃ zs, List.Forall₂ IsNumber a zs := by
  induction a with
  | nil => exact ⟨[], .nil⟩
  | cons w a ih =>
    obtain ⟨n, hn⟩ := h w (by simp)
    obtain ⟨z, hz, _⟩ := surfaceToken_some.1 hn
    obtain ⟨zs, hzs⟩ := ih fun w hw => h w (by simp [hw])
    exact ⟨z :: zs, .cons hz hzs⟩

theorem numbers_mem {a : List Str} {zs : List Int} (h : List.Forall₂ IsNumber a zs) : ∀ w ∈ a, ∃ n, surfaceToken w = .ok (some n) := by
  induction h with
  | nil => intro w hw; cases hw
  | cons h1 _ ih =>
    intro w hw
    rcases List.mem_cons.1 hw with rfl | hw
    · exact ⟨_, surfaceToken_some.2 ⟨_, h1, rfl⟩⟩
    · exact ih w hw

/-- **When a line of the components has undefined behaviour.** -/
theorem step_ub {st : RState} (hg : Good st) (mode : Mode) (l : Str) : step (st, mode) l = .ub ↔ Wrong st mode l := by
  cases mode with
  | top => exact missing_words hg l
  | outside =>
    rw [step, bind_ub]
    constructor
    · rintro (h | ⟨⟨acc, c⟩, _, h⟩)
      · obtain ⟨a, t, b, e, h1, h2⟩ := untilZero_ub.1 h
        exact ⟨a, t, b, e, fun w hw => universeToken_some.1 (h1 w hw), universeToken_ub.1 h2⟩
      · simp at h
    · rintro ⟨a, t, b, e, h1, h2⟩
      exact .inl (untilZero_ub.2 ⟨a, t, b, e, fun w hw => universeToken_some.2 (h1 w hw), universeToken_ub.2 h2⟩)
  | block name acc =>
    rw [step, bind_ub]
    constructor
    · rintro (h | ⟨⟨r, c⟩, h, h'⟩)
      · obtain ⟨a, t, b, e, h1, h2⟩ := untilZero_ub.1 h
        obtain ⟨zs, hz⟩ := numbers_of h1
        exact ⟨a, t, b, zs, e, hz, .inl (surfaceToken_ub.1 h2)⟩
      · cases c with
        | false => simp at h'
        | true =>
          obtain ⟨a, z, b, ns, e, h1, h2, rfl⟩ := untilZero_closed.1 h
          obtain ⟨zs, hz, rfl⟩ := forall₂_numbers.1 h1
          dsimp only at h'
          rw [if_pos rfl, bind_ub] at h'
          rcases h' with h' | ⟨_, _, h'⟩
          · exact ⟨a, z, b, zs, e, hz, .inr ⟨surfaceToken_none.1 h2, closeBlock_ub.1 h'⟩⟩
          · simp at h'
    · rintro ⟨a, t, b, zs, e, hz, h | ⟨h1, h2⟩⟩
      · exact .inl (untilZero_ub.2 ⟨a, t, b, e, numbers_mem hz, surfaceToken_ub.2 h⟩)
      · refine .inr ⟨(acc ++ zs.map place, true), untilZero_closed.2 ⟨a, t, b, _, e, forall₂_numbers.2 ⟨zs, hz, rfl⟩, surfaceToken_none.2 h1, rfl⟩, ?_⟩
        dsimp only
        rw [if_pos rfl, closeBlock_ub.2 h2]
        rfl
  | layer name acc =>
    rw [step, bind_ub]
    simp only [Wrong, iff_false, not_or]
    refine ⟨fun h => ?_, ?_⟩
    · obtain ⟨a, t, b, _, _, h2⟩ := untilZero_ub.1 h
      exact (layerToken_defined st t).1 h2
    · rintro ⟨⟨r, c⟩, _, h⟩
      cases c <;> simp at h
  | faultBlock name acc =>
    rw [step, bind_ub]
    simp only [Wrong, iff_false, not_or]
    refine ⟨fun h => ?_, ?_⟩
    · obtain ⟨a, t, b, _, _, h2⟩ := untilZero_ub.1 h
      exact (layerToken_defined st t).1 h2
    · rintro ⟨⟨r, c⟩, _, h⟩
      cases c <;> simp at h

theorem index_ends {A : Type} {l : List A} {i : Nat} : Res.index l i ≠ .diverge := by
  unfold Res.index
  split <;> simp

/-- A line of the components is read in finite time. -/
theorem step_ends (s : RState × Mode) (l : Str) : step s l ≠ .diverge := by
  obtain ⟨st, mode⟩ := s
  cases mode with
  | top =>
    rw [step]
    unfold topLine
    split
    · simp
    · simp
    · split
      · simp
      · split
        · intro h
          rcases bind_diverge.1 h with h | ⟨_, _, h⟩
          · unfold readTfaceKeyword at h
            rcases bind_diverge.1 h with h | ⟨_, _, h⟩
            · exact index_ends h
            · rcases bind_diverge.1 h with h | ⟨_, _, h⟩
              · exact index_ends h
              · rcases bind_diverge.1 h with h | ⟨_, _, h⟩
                · unfold atKey Res.ofParse at h
                  split at h <;> cases h
                · rcases bind_diverge.1 h with h | ⟨_, _, h⟩
                  · exact index_ends h
                  · simp at h
          · simp at h
        · split
          · intro h
            rcases bind_diverge.1 h with h | ⟨_, _, h⟩
            · unfold readRegionKeyword at h
              rcases bind_diverge.1 h with h | ⟨_, _, h⟩
              · exact index_ends h
              · simp at h
            · simp at h
          · split
            · simp
            · split <;> simp
  | outside =>
    rw [step]
    intro h
    rcases bind_diverge.1 h with h | ⟨⟨acc, c⟩, _, h⟩
    · exact untilZero_ends (universeToken_ends st) h
    · simp at h
  | block name acc =>
    rw [step]
    intro h
    rcases bind_diverge.1 h with h | ⟨⟨r, c⟩, _, h⟩
    · exact untilZero_ends surfaceToken_ends h
    · cases c with
      | false => simp at h
      | true =>
        dsimp only at h
        rw [if_pos rfl] at h
        rcases closeBlock_cases st name r with ⟨_, e⟩ | ⟨_, st', e⟩
        · rw [e] at h; simp at h
        · rw [e] at h; simp at h
  | layer name acc =>
    rw [step]
    intro h
    rcases bind_diverge.1 h with h | ⟨⟨r, c⟩, _, h⟩
    · exact untilZero_ends (fun w => (layerToken_defined st w).2) h
    · cases c <;> simp at h
  | faultBlock name acc =>
    rw [step]
    intro h
    rcases bind_diverge.1 h with h | ⟨⟨r, c⟩, _, h⟩
    · exact untilZero_ends (fun w => (layerToken_defined st w).2) h
    · cases c <;> simp at h

/-! ## The components -/

/-- The line ends the components: it is outside of the lists and starts with `END`. -/
def Ends (mode : Mode) (l : Str) : Prop := mode = .top ∧ startsWith l cs!"END" = true

/-- The lines `ls` are read after what gave `s`, and give `s'`; none of them ends the components. -/
inductive Reads : RState × Mode → File → RState × Mode → Prop
  | nil {s} : Reads s [] s
  | cons {s s1 s2 l ls} (h1 : ¬Ends s.2 l) (h2 : step s l = .ok s1) (h3 : Reads s1 ls s2) : Reads s (l :: ls) s2

theorem reads_good {s s' : RState × Mode} {ls : File} (h : Reads s ls s') (hg : Good s.1) : Good s'.1 := by
  induction h with
  | nil => exact hg
  | @cons s s1 s2 l ls h1 h2 h3 ih => exact ih (good_step (mode := s.2) (mode' := s1.2) hg h2)

/-- Reading the components never ends exactly when the file ends inside a list. -/
theorem components_diverge {s : RState × Mode} {f : File} : readLines s f = .diverge ↔ ∃ s', Reads s f s' ∧ s'.2 ≠ .top := by
  induction f generalizing s with
  | nil =>
    obtain ⟨st, mode⟩ := s
    constructor
    · intro h
      refine ⟨_, .nil, ?_⟩
      intro hm
      dsimp only at hm
      subst hm
      cases h
    · rintro ⟨s', h, hm⟩
      cases h
      cases mode <;> first | exact absurd rfl hm | rfl
  | cons l ls ih =>
    obtain ⟨st, mode⟩ := s
    rw [readLines]
    by_cases he : Ends mode l
    · rw [if_pos (show mode = .top ∧ startsWith l cs!"END" = true from he)]
      constructor
      · intro h; cases h
      · rintro ⟨s', h, _⟩
        cases h with
        | cons h1 _ _ => exact absurd he h1
    · rw [if_neg (show ¬(mode = .top ∧ startsWith l cs!"END" = true) from he), bind_diverge]
      constructor
      · rintro (h | ⟨s1, h1, h2⟩)
        · exact absurd h (step_ends _ _)
        · obtain ⟨s', h3, h4⟩ := ih.1 h2
          exact ⟨s', .cons he h1 h3, h4⟩
      · rintro ⟨s', h, h4⟩
        cases h with
        | cons _ h1 h2 => exact .inr ⟨_, h1, ih.2 ⟨s', h2, h4⟩⟩

/-- Reading the components has undefined behaviour exactly when one of their lines has. -/
theorem components_ub {s : RState × Mode} (hg : Good s.1) {f : File} : readLines s f = .ub ↔
    ∃ pre l post st mode, f = pre ++ l :: post ∧ Reads s pre (st, mode) ∧ ¬Ends mode l ∧ Wrong st mode l := by
  induction f generalizing s with
  | nil =>
    obtain ⟨st, mode⟩ := s
    constructor
    · intro h
      cases mode <;> cases h
    · rintro ⟨pre, l, post, _, _, e, _⟩
      simp at e
  | cons l ls ih =>
    obtain ⟨st, mode⟩ := s
    rw [readLines]
    by_cases he : Ends mode l
    · rw [if_pos (show mode = .top ∧ startsWith l cs!"END" = true from he)]
      constructor
      · intro h; cases h
      · rintro ⟨_ | ⟨x, pre⟩, l', post, st', mode', e, h1, h2, h3⟩
        · cases e
          cases h1
          exact absurd he h2
        · cases e
          cases h1 with
          | cons h1 _ _ => exact absurd he h1
    · rw [if_neg (show ¬(mode = .top ∧ startsWith l cs!"END" = true) from he), bind_ub]
      constructor
      · rintro (h | ⟨⟨st1, mode1⟩, h1, h2⟩)
        · exact ⟨[], l, ls, st, mode, rfl, .nil, he, (step_ub hg mode l).1 h⟩
        · obtain ⟨pre, l', post, st', mode', rfl, h3, h4, h5⟩ := (ih (good_step (mode := mode) (mode' := mode1) hg h1)).1 h2
          exact ⟨l :: pre, l', post, st', mode', rfl, .cons he h1 h3, h4, h5⟩
      · rintro ⟨_ | ⟨x, pre⟩, l', post, st', mode', e, h1, h2, h3⟩
        · cases e
          cases h1
          exact .inl ((step_ub hg mode l).2 h3)
        · cases e
          cases h1 with
          | @cons _ s1 _ _ _ h4 h5 h6 =>
            exact .inr ⟨s1, h5, (ih (good_step (mode := mode) (mode' := s1.2) hg h5)).2 ⟨pre, l', post, st', mode', rfl, h6, h2, h3⟩⟩

/-! ## The collections and the objects -/

/-- Making the collections succeeds or is refused. -/
theorem create_defined (name : Option Str) (st : RState) : (∃ m : Ml.Loaded D, createTsurfs name st = .ok m) ∨ (createTsurfs name st : Res (Ml.Loaded D)) = .throw := by
  have h1 : ∀ (ts : List RTsurf) (m : Ml.Loaded D), (∃ m', Res.foldM' addTsurf m ts = .ok m') ∨ Res.foldM' addTsurf m ts = .throw := by
    intro ts
    induction ts with
    | nil => intro m; exact .inl ⟨m, rfl⟩
    | cons t ts ih =>
      intro m
      rw [foldM'_cons]
      have : (∃ m', addTsurf m t = .ok m') ∨ addTsurf m t = .throw := by
        unfold addTsurf faultOf contactOf
        split
        · split
          · exact .inl ⟨_, rfl⟩
          · split
            · exact .inl ⟨_, rfl⟩
            · split
              · exact .inl ⟨_, rfl⟩
              · exact .inr rfl
        · split
          · exact .inl ⟨_, rfl⟩
          · split
            · exact .inl ⟨_, rfl⟩
            · split
              · exact .inl ⟨_, rfl⟩
              · split
                · exact .inl ⟨_, rfl⟩
                · split
                  · exact .inl ⟨_, rfl⟩
                  · split
                    · exact .inl ⟨_, rfl⟩
                    · exact .inr rfl
      rcases this with ⟨m', h⟩ | h
      · rw [h, ok_bind]
        exact ih m'
      · rw [h]
        exact .inr rfl
  unfold createTsurfs
  rcases h1 st.tsurfs { name, surfaces := st.surfaces, blocks := st.blocks, units := st.units, faultBlocks := st.faultBlocks } with ⟨m', h⟩ | h
  · rw [h]
    exact .inl ⟨_, rfl⟩
  · rw [h]
    exact .inr rfl

theorem buildFaces_cases (ts : TSurf D) (ids : List Nat) (k : Nat) : (∃ xs, buildFaces ts k ids = .ok xs) ∨ buildFaces ts k ids = .ub := by
  induction ids generalizing k with
  | nil => exact .inl ⟨[], rfl⟩
  | cons s ids ih =>
    rw [buildFaces]
    have : (∃ x, buildFace ts k s = .ok x) ∨ buildFace ts k s = .ub := by
      have hi : ∀ (l : List Nat) (i : Nat), (∃ x, Res.index l i = .ok x) ∨ Res.index l i = .ub := by
        intro l i
        unfold Res.index
        split
        · exact .inl ⟨_, rfl⟩
        · exact .inr rfl
      have hm : ∀ (n c : Nat) (l : List Tri), (∃ x, Res.mapM' (fun t : Tri => createTriangle n (sub32 t.1 c, sub32 t.2.1 c, sub32 t.2.2 c)) l = .ok x) ∨
          Res.mapM' (fun t : Tri => createTriangle n (sub32 t.1 c, sub32 t.2.1 c, sub32 t.2.2 c)) l = .ub := by
        intro n c l
        induction l with
        | nil => exact .inl ⟨[], rfl⟩
        | cons t l ih =>
          rw [mapM'_cons]
          unfold createTriangle at ih ⊢
          split
          · rw [ok_bind]
            rcases ih with ⟨x, h⟩ | h
            · rw [h]; exact .inl ⟨_, rfl⟩
            · rw [h]; exact .inr rfl
          · exact .inr rfl
      unfold buildFace
      rcases hi ts.tfaceVertices k with ⟨a, h⟩ | h
      · rw [h, ok_bind]
        rcases hi ts.tfaceVertices (k + 1) with ⟨b, h⟩ | h
        · rw [h, ok_bind]
          rcases hi ts.tfaceTriangles k with ⟨c, h⟩ | h
          · rw [h, ok_bind]
            rcases hi ts.tfaceTriangles (k + 1) with ⟨d, h⟩ | h
            · rw [h, ok_bind]
              dsimp only
              rcases hm (slice ts.points a b).length a (slice ts.triangles c d) with ⟨x, h⟩ | h
              · rw [h]; exact .inl ⟨_, rfl⟩
              · rw [h]; exact .inr rfl
            · rw [h]; exact .inr rfl
          · rw [h]; exact .inr rfl
        · rw [h]; exact .inr rfl
      · rw [h]; exact .inr rfl
    rcases this with ⟨x, h⟩ | h
    · rw [h, ok_bind]
      rcases ih (k + 1) with ⟨xs, h⟩ | h
      · rw [h]; exact .inl ⟨_, rfl⟩
      · rw [h]; exact .inr rfl
    · rw [h]
      exact .inr rfl

/-- The faces of an object are those of the surfaces `ids`: there are enough of them, and their triangles are between their own points. -/
def Suits (o : Object D) (ids : List Nat) : Prop :=
  ∃ xs : List (Nat × List (Pt D) × List Tri), List.Forall₂ (fun (i : Nat × Nat) x => x.1 = i.1 ∧ Face o.body o.points o.triangles i.2 x.2.1 x.2.2) ids.zipIdx xs

/-- One of the objects cannot be used: reading it has undefined behaviour, or it does not suit its group. -/
inductive BadObject (D : Type) [Num D] : List (List Nat) → File → Prop
  | read {ids idss f} (h : (readTSurf f : Res (Option (TSurf D × File))) = .ub) : BadObject D (ids :: idss) f
  | here {ids idss f rest} {o : Object D} (h1 : First1 f o rest) (h2 : ¬Suits o ids) : BadObject D (ids :: idss) f
  | later {ids idss f rest} {o : Object D} (h1 : First1 f o rest) (h2 : Suits o ids) (h3 : BadObject D idss rest) : BadObject D (ids :: idss) f

theorem faces_suit {f rest : File} {ts : TSurf D} {o : Object D} (h : First1 f o rest) (hm : Marked ts o) (ids : List Nat) :
    (∃ xs, buildFaces ts 0 ids = .ok xs) ↔ Suits o ids := by
  have hb := h
  obtain ⟨_, _, _, _, _, _, _, _, _, _, _, _, _, _, _, _, hb⟩ := hb
  obtain ⟨l1, l2⟩ := body_lengths hb
  exact exists_congr fun xs => buildFaces_iff hm l1 l2

theorem objects_ub {gs : List RTsurf} {f : File} : (readSurfaces gs f : Res (List (Nat × List (Pt D) × List Tri))) = .ub ↔ BadObject D (gs.map RTsurf.tfaces) f := by
  induction gs generalizing f with
  | nil =>
    constructor
    · intro h; cases h
    · intro h; cases h
  | cons t gs ih =>
    rw [readSurfaces, List.map_cons, bind_ub]
    constructor
    · rintro (h | ⟨o, h1, h⟩)
      · exact .read h
      · cases o with
        | none => cases h
        | some x =>
          obtain ⟨ts, rest⟩ := x
          dsimp only at h
          obtain ⟨o, k1, k2⟩ := object_fwd h1
          rcases bind_ub.1 h with h | ⟨fs, h2, h⟩
          · refine .here k1 fun hs => ?_
            obtain ⟨xs, hx⟩ := (faces_suit k1 k2 _).2 hs
            rw [hx] at h
            cases h
          · rcases bind_ub.1 h with h | ⟨r, _, h⟩
            · exact .later k1 ((faces_suit k1 k2 _).1 ⟨fs, h2⟩) (ih.1 h)
            · simp at h
    · intro h
      cases h with
      | read h => exact .inl h
      | @here _ _ _ rest o h1 h2 =>
        right
        obtain ⟨ts, k1, k2⟩ := object_bwd h1
        refine ⟨_, k1, ?_⟩
        dsimp only
        rcases buildFaces_cases ts t.tfaces 0 with h | h
        · exact absurd ((faces_suit h1 k2 _).1 h) h2
        · rw [h]; rfl
      | @later _ _ _ rest o h1 h2 h3 =>
        right
        obtain ⟨ts, k1, k2⟩ := object_bwd h1
        refine ⟨_, k1, ?_⟩
        dsimp only
        obtain ⟨fs, hf⟩ := (faces_suit h1 k2 _).2 h2
        rw [hf, ok_bind, ih.2 h3]
        rfl

theorem objects_end {gs : List RTsurf} {f : File} : (readSurfaces gs f : Res (List (Nat × List (Pt D) × List Tri))) ≠ .diverge := by
  induction gs generalizing f with
  | nil => simp [readSurfaces]
  | cons t gs ih =>
    rw [readSurfaces]
    intro h
    rcases bind_diverge.1 h with h | ⟨o, h1, h⟩
    · exact (readTSurf_fwd f).1 h
    · cases o with
      | none => cases h
      | some x =>
        obtain ⟨ts, rest⟩ := x
        dsimp only at h
        rcases bind_diverge.1 h with h | ⟨fs, h2, h⟩
        · rcases buildFaces_cases ts t.tfaces 0 with ⟨_, e⟩ | e
          · rw [e] at h; cases h
          · rw [e] at h; cases h
        · rcases bind_diverge.1 h with h | ⟨r, _, h⟩
          · exact ih h
          · simp at h

/-! ## Whole files -/

/-- The file has a title, a header and a coordinate system, and the components start with the lines `f`. -/
def Headed (f : File) (name : Option Str) (crs : Crs) (body : File) : Prop :=
  ∃ title f1 f2, First cs!"GOCAD Model3d" f title f1 ∧ readHeader f1 = .ok (name, f2) ∧ readCrs f2 = .ok (crs, body)

/-- Reading the coordinate system has undefined behaviour (C148 says when). -/
def BadSystem (f : File) : Prop :=
  ∃ title f1 name f2, First cs!"GOCAD Model3d" f title f1 ∧ readHeader f1 = .ok (name, f2) ∧ readCrs f2 = .ub

/-- A line of the components has undefined behaviour. -/
def BadLine (f : File) : Prop :=
  ∃ name crs pre l post st mode, Headed f name crs (pre ++ l :: post) ∧ Reads ({}, .top) pre (st, mode) ∧ ¬Ends mode l ∧ Wrong st mode l

/-- The components are read, each group has one or more surfaces and a known feature, and one of the objects cannot be used. -/
def BadObjects (D : Type) [Num D] (f : File) : Prop :=
  ∃ name crs body st rest, Headed f name crs body ∧ readLines ({}, .top) body = .ok (st, rest) ∧ (∃ m : Ml.Loaded D, createTsurfs name st = .ok m) ∧
    BadObject D (st.tsurfs.map RTsurf.tfaces) rest

theorem title_cases (f : File) : (∃ title f1, First cs!"GOCAD Model3d" f title f1 ∧ gotoKeyword cs!"GOCAD Model3d" f = .ok (title, f1)) ∨
    gotoKeyword cs!"GOCAD Model3d" f = .throw := by
  cases h : gotoKeyword cs!"GOCAD Model3d" f with
  | ok r => exact .inl ⟨r.1, r.2, goto_iff.1 h, rfl⟩
  | throw => exact .inr rfl
  | ub =>
    unfold gotoKeyword Res.ofParse at h
    split at h <;> cases h
  | diverge =>
    unfold gotoKeyword Res.ofParse at h
    split at h <;> cases h

/-- **C168, undefined behaviour**: exactly the files with such a coordinate system, line or object. -/
theorem ml_ub_iff (f : File) : (loadMl f : Res (Ml.Loaded D)) = .ub ↔ BadSystem f ∨ BadLine f ∨ BadObjects D f := by
  unfold loadMl
  constructor
  · intro h
    rcases title_cases f with ⟨title, f1, hf, e⟩ | e
    · rw [e, ok_bind] at h
      dsimp only at h
      rcases bind_ub.1 h with h | ⟨⟨name, f2⟩, h1, h⟩
      · exact absurd h (GocadUb.readHeader_ne_ub f1)
      · dsimp only at h
        rcases bind_ub.1 h with h | ⟨⟨crs, f3⟩, h2, h⟩
        · exact .inl ⟨title, f1, name, f2, hf, h1, h⟩
        · have hh : Headed f name crs f3 := ⟨title, f1, f2, hf, h1, h2⟩
          dsimp only at h
          rcases bind_ub.1 h with h | ⟨⟨st, f4⟩, h3, h⟩
          · obtain ⟨pre, l, post, st, mode, rfl, k⟩ := (components_ub good_empty).1 h
            exact .inr (.inl ⟨name, crs, pre, l, post, st, mode, hh, k⟩)
          · dsimp only at h
            rcases bind_ub.1 h with h | ⟨m, h4, h⟩
            · rcases create_defined (D := D) name st with ⟨m, e⟩ | e
              · rw [e] at h; cases h
              · rw [e] at h; cases h
            · rcases bind_ub.1 h with h | ⟨_, _, h⟩
              · exact .inr (.inr ⟨name, crs, f3, st, f4, hh, h3, ⟨m, h4⟩, objects_ub.1 h⟩)
              · simp at h
    · rw [e] at h
      cases h
  · rintro (⟨title, f1, name, f2, hf, h1, h2⟩ | ⟨name, crs, pre, l, post, st, mode, ⟨title, f1, f2, hf, h1, h2⟩, k⟩ |
      ⟨name, crs, body, st, rest, ⟨title, f1, f2, hf, h1, h2⟩, h3, ⟨m, h4⟩, h5⟩)
    · rw [goto_iff.2 hf, ok_bind]
      dsimp only
      rw [h1, ok_bind]
      dsimp only
      rw [h2]
      rfl
    · rw [goto_iff.2 hf, ok_bind]
      dsimp only
      rw [h1, ok_bind]
      dsimp only
      rw [h2, ok_bind]
      dsimp only
      rw [(components_ub good_empty).2 ⟨pre, l, post, st, mode, rfl, k⟩]
      rfl
    · rw [goto_iff.2 hf, ok_bind]
      dsimp only
      rw [h1, ok_bind]
      dsimp only
      rw [h2, ok_bind]
      dsimp only
      rw [h3, ok_bind]
      dsimp only
      rw [h4, ok_bind, objects_ub.2 h5]
      rfl

/-- **C168, endless loops**: exactly the files that end inside a list of their components. -/
theorem ml_diverge_iff (f : File) : (loadMl f : Res (Ml.Loaded D)) = .diverge ↔
    ∃ name crs body s, Headed f name crs body ∧ Reads ({}, .top) body s ∧ s.2 ≠ .top := by
  unfold loadMl
  constructor
  · intro h
    rcases title_cases f with ⟨title, f1, hf, e⟩ | e
    · rw [e, ok_bind] at h
      dsimp only at h
      rcases bind_diverge.1 h with h | ⟨⟨name, f2⟩, h1, h⟩
      · exact absurd h (readHeader_fwd f1).1
      · dsimp only at h
        rcases bind_diverge.1 h with h | ⟨⟨crs, f3⟩, h2, h⟩
        · exact absurd h (readCrs_fwd f2).1
        · have hh : Headed f name crs f3 := ⟨title, f1, f2, hf, h1, h2⟩
          dsimp only at h
          rcases bind_diverge.1 h with h | ⟨⟨st, f4⟩, h3, h⟩
          · obtain ⟨s, k⟩ := components_diverge.1 h
            exact ⟨name, crs, f3, s, hh, k⟩
          · dsimp only at h
            rcases bind_diverge.1 h with h | ⟨m, h4, h⟩
            · rcases create_defined (D := D) name st with ⟨m, e⟩ | e
              · rw [e] at h; cases h
              · rw [e] at h; cases h
            · rcases bind_diverge.1 h with h | ⟨_, _, h⟩
              · exact absurd h objects_end
              · simp at h
    · rw [e] at h
      cases h
  · rintro ⟨name, crs, body, s, ⟨title, f1, f2, hf, h1, h2⟩, k⟩
    rw [goto_iff.2 hf, ok_bind]
    dsimp only
    rw [h1, ok_bind]
    dsimp only
    rw [h2, ok_bind]
    dsimp only
    rw [components_diverge.2 ⟨s, k⟩]
    rfl

/-- The property: a file that does not load is refused with an exception. -/
def Refused (D : Type) [Num D] : Prop := ∀ f : File, (∃ m : Ml.Loaded D, loadMl f = .ok m) ∨ (loadMl f : Res (Ml.Loaded D)) = .throw

/-- **C168 in part**: the property holds for the files with no such coordinate system, line or object that do not end inside a list. -/
theorem refused_partial (f : File) (h1 : ¬BadSystem f) (h2 : ¬BadLine f) (h3 : ¬BadObjects D f)
    (h4 : ¬∃ name crs body s, Headed f name crs body ∧ Reads ({}, .top) body s ∧ s.2 ≠ .top) :
    (∃ m : Ml.Loaded D, loadMl f = .ok m) ∨ (loadMl f : Res (Ml.Loaded D)) = .throw := by
  cases h : (loadMl f : Res (Ml.Loaded D)) with
  | ok m => exact .inl ⟨m, rfl⟩
  | throw => exact .inr rfl
  | ub => exact absurd ((ml_ub_iff f).1 h) (by rintro (h | h | h) <;> contradiction)
  | diverge => exact absurd ((ml_diverge_iff f).1 h) h4

/-! ## Tests -/

/-- A file with the given components and objects. -/
def file (components objects : File) : File := [cs!"GOCAD Model3d 1"] ++ writeHeader none ++ writeCrs {} ++ components ++ [cs!"END"] ++ objects

/-- A group of one or two surfaces. -/
def one : File := [cs!"TSURF a", cs!"TFACE 1 fault a"]
def two : File := one ++ [cs!"TFACE 2 fault a"]

/-- What loading a file does. -/
def outcome (f : File) : Nat :=
  match (loadMl f : Res (Ml.Loaded Int)) with
  | .ok _ => 0
  | .throw => 1
  | .ub => 2
  | .diverge => 3

/-- The property fails: the object has one face and its group two surfaces. -/
theorem refused_fails : ¬Refused Int := by
  intro h
  have e : outcome (file two (triangle cs!"a" cs!"1")) = 2 := by decide +kernel
  unfold outcome at e
  rcases h (file two (triangle cs!"a" cs!"1")) with ⟨m, hm⟩ | hm <;> rw [hm] at e <;> cases e

/-- A file that loads. -/
example : outcome (file one (triangle cs!"a" cs!"1")) = 0 := by decide +kernel

/-- A region with one number, one with a number that is not of a surface, the smallest number in a region and in the universe, a line of one word. -/
example : [[cs!"REGION 2 x", cs!"1 0"], [cs!"REGION 2 x", cs!"1 2 0"], [cs!"REGION 2 x", cs!"-2147483648"], [cs!"REGION 2 Universe", cs!"1 -2147483648"], [cs!"0"]].map
    (fun c => outcome (file (one ++ c) (triangle cs!"a" cs!"1"))) = [2, 2, 2, 2, 2] := by decide +kernel

/-- A triangle with a vertex of another face. -/
example : outcome (file one [cs!"GOCAD TSurf 1", cs!"HEADER {", cs!"}", cs!"TFACE", cs!"VRTX 1 0 0 0", cs!"VRTX 2 1 0 0", cs!"TRGL 1 2 3", cs!"TFACE", cs!"VRTX 3 0 1 0", cs!"END"]) = 2 := by
  decide +kernel

/-- Lists that are not closed. -/
example : [[cs!"REGION 2 x", cs!"1"], [cs!"REGION 2 Universe", cs!"1"], [cs!"LAYER u", cs!"3"], [cs!"FAULT_BLOCK v"]].map
    (fun c => outcome ([cs!"GOCAD Model3d 1"] ++ writeHeader none ++ writeCrs {} ++ one ++ c)) = [3, 3, 3, 3] := by decide +kernel

/-- Files that are refused: a surface of no group, a group without surface, an unknown feature, two groups with one name, a number of the universe that is not of a
surface, a word that is not a number, no object. -/
example : [outcome (file [cs!"TFACE 1 fault a"] []), outcome (file [cs!"TSURF a"] []), outcome (file [cs!"TSURF a", cs!"TFACE 1 default a"] []),
    outcome (file [cs!"TSURF a", cs!"TSURF a", cs!"TFACE 1 fault a"] []), outcome (file (one ++ [cs!"REGION 2 Universe", cs!"2 0"]) []),
    outcome (file (one ++ [cs!"REGION 2 x", cs!"y"]) []), outcome (file one [])] = [1, 1, 1, 1, 1, 1, 1] := by decide +kernel

/-- Some faulty features are not known either. -/
example : outcome (file [cs!"TSURF a", cs!"TFACE 1 default a"] []) = 1 ∧ contains cs!"fault" cs!"default" = true := by decide +kernel

end Verif.Props.MlRefused
