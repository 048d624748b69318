import Verif.Model.GocadMesh
import Verif.Lemmas.GocadVSet
import Verif.Props.GocadEnds
import Verif.Props.MlGroups

/-!
# Lemmas on lines of comment

The readers of GOCAD objects are run on a file and on the same file with lines of comment.
-/

namespace Verif.Comments

open Verif Verif.Gocad Verif.GocadMesh

variable {D : Type} [Num D]

/-! ## Two runs -/

/-- Two runs end in the same way, with results related by `R`. -/
inductive Both {A B : Type} (R : A → B → Prop) : Res A → Res B → Prop
  | ok {a : A} {b : B} : R a b → Both R (.ok a) (.ok b)
  | throw : Both R .throw .throw
  | ub : Both R .ub .ub
  | diverge : Both R .diverge .diverge

theorem Both.bind {A B C E : Type} {R : A → B → Prop} {S : C → E → Prop} {r : Res A} {r' : Res B} {k : A → Res C} {k' : B → Res E} (h : Both R r r')
    (hk : ∀ a b, R a b → Both S (k a) (k' b)) : Both S (r >>= k) (r' >>= k') := by
  cases h with
  | ok h => exact hk _ _ h
  | throw => exact .throw
  | ub => exact .ub
  | diverge => exact .diverge

theorem Both.after {A C E : Type} {S : C → E → Prop} {r : Res A} {k : A → Res C} {k' : A → Res E} (hk : ∀ a, Both S (k a) (k' a)) : Both S (r >>= k) (r >>= k') := by
  cases r with
  | ok a => exact hk a
  | throw => exact .throw
  | ub => exact .ub
  | diverge => exact .diverge

theorem Both.mono {A B : Type} {R S : A → B → Prop} {r : Res A} {r' : Res B} (h : Both R r r') (hi : ∀ a b, R a b → S a b) : Both S r r' := by
  cases h with
  | ok h => exact .ok (hi _ _ h)
  | throw => exact .throw
  | ub => exact .ub
  | diverge => exact .diverge

/-! ## Lines of comment -/

/-- A line of comment without `name:` and without quotes. -/
def Comment (c : Str) : Prop := startsWith c ['#'] = true ∧ contains cs!"name:" c = false ∧ '"' ∉ c

instance (c : Str) : Decidable (Comment c) := by unfold Comment; infer_instance

/-- The second file is the first one with lines of comment, none of them after a line `bad`; the first argument tells whether the files may start with
one. -/
inductive Noted (bad : Str → Bool) : Bool → File → File → Prop
  | nil {b : Bool} : Noted bad b [] []
  | keep {b : Bool} {f g : File} (l : Str) : Noted bad (!bad l) f g → Noted bad b (l :: f) (l :: g)
  | note {f g : File} {c : Str} : Comment c → Noted bad true f g → Noted bad true f (c :: g)

variable {bad : Str → Bool}

theorem Noted.more {b : Bool} {f g : File} (h : Noted bad b f g) : Noted bad true f g := by
  cases h with
  | nil => exact .nil
  | keep l h => exact .keep l h
  | note hc h => exact .note hc h

theorem Noted.length {b : Bool} {f g : File} (h : Noted bad b f g) : f.length ≤ g.length := by
  induction h with
  | nil => exact Nat.le_refl _
  | keep l h ih => exact Nat.succ_le_succ ih
  | note hc h ih => exact Nat.le_succ_of_le ih

/-- The same result, and rests of the two files. -/
def Rest (bad : Str → Bool) (b : Bool) {A : Type} (x y : A × File) : Prop := x.1 = y.1 ∧ Noted bad b x.2 y.2

/-- A keyword that no comment starts with. -/
def Plain (k : Str) : Prop := k ≠ [] ∧ k.head? ≠ some '#'

instance (k : Str) : Decidable (Plain k) := by unfold Plain; infer_instance

theorem Comment.not_starts {c k : Str} (h : Comment c) (hk : Plain k) : startsWith c k = false := by
  obtain ⟨h, -, -⟩ := h
  cases c with
  | nil => exact absurd h (by decide)
  | cons a c =>
    cases k with
    | nil => exact absurd rfl hk.1
    | cons b k =>
      have ha : '#' = a := by simpa [startsWith, List.isPrefixOf] using h
      have hb : b ≠ '#' := by
        intro e
        exact hk.2 (by rw [e]; rfl)
      unfold startsWith
      rw [List.isPrefixOf, ← ha]
      simp [hb]

theorem Comment.tokens {c : Str} (h : Comment c) : ∃ t ts, split c = t :: ts ∧ t.head? = some '#' := by
  obtain ⟨h, -, -⟩ := h
  cases c with
  | nil => exact absurd h (by decide)
  | cons a c =>
    have ha : '#' = a := by simpa [startsWith, List.isPrefixOf] using h
    subst ha
    cases c with
    | nil => exact ⟨['#'], [], by decide, rfl⟩
    | cons d c =>
      cases hd : isWs d with
      | true => exact ⟨['#'], _, split_cons_then_ws (by decide) hd c, rfl⟩
      | false =>
        obtain ⟨t, ts, e⟩ : ∃ t ts, split (d :: c) = t :: ts := by
          cases e : split (d :: c) with
          | nil => exact absurd e (split_ne_nil hd c)
          | cons t ts => exact ⟨t, ts, rfl⟩
        refine ⟨'#' :: t, ts, ?_, rfl⟩
        rw [split, if_neg (by decide), e]
        simp [hd]

theorem merge_plain : ∀ ts : List Str, (∀ t ∈ ts, t ≠ ['"']) → mergeQuoted none ts = .ok ts
  | [], _ => rfl
  | t :: ts, h => by
    rw [mergeQuoted, if_neg (h t (List.mem_cons_self ..)), merge_plain ts fun u hu => h u (List.mem_cons_of_mem _ hu)]
    rfl

theorem Comment.crs {c : Str} (h : Comment c) (x : Crs) : crsLine x c = .ok x := by
  obtain ⟨t, ts, e, ht⟩ := h.tokens
  unfold crsLine splitQuoted
  rw [merge_plain _ fun u hu e => h.2.2 (Props.MlGroups.mem_of_split hu '"' (by rw [e]; simp)), e]
  have : ∀ k : Str, k.head? ≠ some '#' → t ≠ k := fun k hk e => hk (e ▸ ht)
  simp only [Res.ok_bind, Res.index, List.getElem?_cons_zero]
  rw [if_neg (this _ (by decide)), if_neg (this _ (by decide)), if_neg (this _ (by decide)), if_neg (this _ (by decide))]
  rfl

theorem afterFirst_none {k : Str} : ∀ {l : Str}, contains k l = false → afterFirst k l = none
  | [], h => by
    unfold contains at h
    unfold afterFirst
    rw [h]
    rfl
  | c :: l, h => by
    unfold contains at h
    rw [Bool.or_eq_false_iff] at h
    unfold afterFirst
    rw [h.1]
    simpa using afterFirst_none h.2

/-! ## Looking for keywords -/

/-- The same line, that starts with the keyword, and rests of the two files. -/
def Found (bad : Str → Bool) (k : Str) (x y : Str × File) : Prop := x.1 = y.1 ∧ startsWith x.1 k = true ∧ Noted bad (!bad x.1) x.2 y.2

theorem goto?_noted {k : Str} (hk : Plain k) {b : Bool} {f g : File} (h : Noted bad b f g) :
    (gotoKeyword? k f = none ∧ gotoKeyword? k g = none) ∨ ∃ x y, gotoKeyword? k f = some x ∧ gotoKeyword? k g = some y ∧ Found bad k x y := by
  induction h with
  | nil => exact Or.inl ⟨rfl, rfl⟩
  | @keep b f g l h ih =>
    simp only [gotoKeyword?]
    split
    · rename_i hs
      exact Or.inr ⟨_, _, rfl, rfl, rfl, hs, h⟩
    · exact ih
  | note hc h ih =>
    simp only [gotoKeyword?, hc.not_starts hk]
    exact ih

theorem goto_noted {k : Str} (hk : Plain k) {b : Bool} {f g : File} (h : Noted bad b f g) : Both (Found bad k) (gotoKeyword k f) (gotoKeyword k g) := by
  unfold gotoKeyword
  rcases goto?_noted hk h with ⟨e, e'⟩ | ⟨x, y, e, e', r⟩ <;> rw [e, e']
  · exact .throw
  · exact .ok r

theorem gotos_noted {ks : List Str} (hk : ∀ k ∈ ks, Plain k) {b : Bool} {f g : File} (h : Noted bad b f g) :
    Both (fun x y : Str × File => x.1 = y.1 ∧ ks.any (startsWith x.1) = true ∧ Noted bad (!bad x.1) x.2 y.2) (gotoKeywords ks f) (gotoKeywords ks g) := by
  induction h with
  | nil => exact .throw
  | @keep b f g l h ih =>
    simp only [gotoKeywords]
    split
    · rename_i hs
      exact .ok ⟨rfl, hs, h⟩
    · exact ih
  | @note f g c hc h ih =>
    have : ks.any (startsWith c) = false := by
      rw [List.any_eq_false]
      intro k hm
      rw [hc.not_starts (hk k hm)]
      decide
    simp only [gotoKeywords, this]
    exact ih

/-! ## Headers -/

/-- What the lines of comment must not follow: the title, the end of a header and the end of a coordinate system. -/
def heads (title : Str) (l : Str) : Bool := startsWith l title || startsWith l cs!"}" || startsWith l cs!"END_ORIGINAL_COORDINATE_SYSTEM"

/-- No line of comment follows these lines. -/
def Kept (title : Str) (bad : Str → Bool) : Prop := ∀ l, heads title l = true → bad l = true

variable {title : Str}

theorem headerLoop_noted (hb : Kept title bad) : ∀ {b : Bool} {f g : File}, Noted bad b f g → ∀ name : Option Str,
    Both (Rest bad false) (readHeaderLoop name f) (readHeaderLoop name g) := by
  intro b f g h
  induction h with
  | nil => exact fun _ => .throw
  | @keep b f g l h ih =>
    intro name
    simp only [readHeaderLoop]
    split
    · rename_i hs
      have : bad l = true := hb l (by unfold heads; rw [hs]; simp)
      rw [this] at h
      exact .ok ⟨rfl, h⟩
    · split <;> exact ih _
  | @note f g c hc h ih =>
    intro name
    simp only [readHeaderLoop, hc.not_starts (show Plain cs!"}" by decide), afterFirst_none hc.2.1]
    exact ih name

theorem header_noted (hb : Kept title bad) {f g : File} (h : Noted bad false f g) : Both (Rest bad false) (readHeader f) (readHeader g) := by
  unfold readHeader
  cases h with
  | nil => exact .throw
  | @keep _ f g l h =>
    simp only [checkKeyword]
    split
    · exact headerLoop_noted hb h none
    · exact .throw

theorem crsLoop_noted (hb : Kept title bad) : ∀ {b : Bool} {f g : File}, Noted bad b f g → ∀ c : Crs,
    Both (Rest bad false) (readCrsLoop c f) (readCrsLoop c g) := by
  intro b f g h
  induction h with
  | nil => exact fun _ => .throw
  | @keep b f g l h ih =>
    intro c
    simp only [readCrsLoop]
    split
    · rename_i hs
      have : bad l = true := hb l (by unfold heads; rw [hs]; simp)
      rw [this] at h
      exact .ok ⟨rfl, h⟩
    · exact Both.after fun c => ih c
  | @note f g c hc h ih =>
    intro x
    simp only [readCrsLoop, hc.not_starts (show Plain cs!"END_ORIGINAL_COORDINATE_SYSTEM" by decide), hc.crs, Res.ok_bind]
    exact ih x

theorem crs_noted (hb : Kept title bad) {f g : File} (h : Noted bad false f g) : Both (Rest bad false) (readCrs f) (readCrs g) := by
  unfold readCrs
  cases h with
  | nil => exact .ok ⟨rfl, .nil⟩
  | @keep _ f g l h =>
    by_cases hs : startsWith l cs!"GOCAD_ORIGINAL_COORDINATE_SYSTEM" = true
    · have e : ∀ f, nextKeyword? cs!"GOCAD_ORIGINAL_COORDINATE_SYSTEM" (l :: f) = (some l, f) := fun f => if_pos hs
      rw [e, e]
      exact crsLoop_noted hb h {}
    · have e : ∀ f, nextKeyword? cs!"GOCAD_ORIGINAL_COORDINATE_SYSTEM" (l :: f) = (none, l :: f) := fun f => if_neg hs
      rw [e, e]
      exact .ok ⟨rfl, .keep l h⟩

/-! ## Property headers -/

theorem oneString_noted {k : Str} (hk : Plain k) (n : Nat) {b : Bool} {f g : File} (h : Noted bad b f g) :
    Both (Rest bad true) (readOneString k n f) (readOneString k n g) := by
  unfold readOneString
  refine (goto_noted hk h).bind fun ⟨l, f⟩ ⟨m, g⟩ ⟨e, _, h⟩ => ?_
  simp only at e h
  subst e
  exact Both.after fun ts => Both.after fun r => .ok ⟨rfl, h.more⟩

theorem twoStrings_noted {k : Str} (hk : Plain k) (n : Nat) {b : Bool} {f g : File} (h : Noted bad b f g) :
    Both (Rest bad true) (readTwoStrings k n f) (readTwoStrings k n g) := by
  unfold readTwoStrings
  refine (goto_noted hk h).bind fun ⟨l, f⟩ ⟨m, g⟩ ⟨e, _, h⟩ => ?_
  simp only at e h
  subst e
  exact Both.after fun r => .ok ⟨rfl, h.more⟩

theorem oneDouble_noted {k : Str} (hk : Plain k) (n : Nat) {b : Bool} {f g : File} (h : Noted bad b f g) :
    Both (Rest bad true) (readOneDouble k n f : Res (List D × File)) (readOneDouble k n g) := by
  unfold readOneDouble
  refine (goto_noted hk h).bind fun ⟨l, f⟩ ⟨m, g⟩ ⟨e, _, h⟩ => ?_
  simp only at e h
  subst e
  exact Both.after fun ts => Both.after fun r => .ok ⟨rfl, h.more⟩

theorem oneIndex_noted {k : Str} (hk : Plain k) (n : Nat) {b : Bool} {f g : File} (h : Noted bad b f g) :
    Both (Rest bad true) (readOneIndex k n f) (readOneIndex k n g) := by
  unfold readOneIndex
  refine (goto_noted hk h).bind fun ⟨l, f⟩ ⟨m, g⟩ ⟨e, _, h⟩ => ?_
  simp only at e h
  subst e
  exact Both.after fun ts => Both.after fun r => .ok ⟨rfl, h.more⟩

theorem props_noted {f g : File} (h : Noted bad false f g) :
    Both (Rest bad true) (readPropHeader [] f : Res (PropHeader D × File)) (readPropHeader [] g) := by
  have main : ∀ {l : Str} {f g : File}, Noted bad true f g → Both (Rest bad true)
      (do let names := (← splitQuoted l).tail
          let n := names.length
          if n = 0 then pure ({}, f)
          else
            let (ranges, f) ← readTwoStrings ([] ++ cs!"PROP_LEGAL_RANGES") n f
            let (noData, f) ← readOneDouble ([] ++ cs!"NO_DATA_VALUES") n f
            let (classes, f) ← readOneString ([] ++ cs!"PROPERTY_CLASSES") n f
            let (kinds, f) ← readOneString ([] ++ cs!"PROPERTY_KINDS") n f
            let (subclasses, f) ← readTwoStrings ([] ++ cs!"PROPERTY_SUBCLASSES") n f
            let (esizes, f) ← readOneIndex ([] ++ cs!"ESIZES") n f
            let (units, f) ← readOneString ([] ++ cs!"UNITS") n f
            pure ({ names, ranges, noData, classes, kinds, subclasses, esizes, units }, f) : Res (PropHeader D × File))
      (do let names := (← splitQuoted l).tail
          let n := names.length
          if n = 0 then pure ({}, g)
          else
            let (ranges, f) ← readTwoStrings ([] ++ cs!"PROP_LEGAL_RANGES") n g
            let (noData, f) ← readOneDouble ([] ++ cs!"NO_DATA_VALUES") n f
            let (classes, f) ← readOneString ([] ++ cs!"PROPERTY_CLASSES") n f
            let (kinds, f) ← readOneString ([] ++ cs!"PROPERTY_KINDS") n f
            let (subclasses, f) ← readTwoStrings ([] ++ cs!"PROPERTY_SUBCLASSES") n f
            let (esizes, f) ← readOneIndex ([] ++ cs!"ESIZES") n f
            let (units, f) ← readOneString ([] ++ cs!"UNITS") n f
            pure ({ names, ranges, noData, classes, kinds, subclasses, esizes, units }, f) : Res (PropHeader D × File)) := by
    intro l f g h
    refine Both.after fun ts => ?_
    simp only
    split
    · exact .ok ⟨rfl, h⟩
    · refine (twoStrings_noted (by decide) _ h).bind fun ⟨a1, f⟩ ⟨b1, g⟩ ⟨e1, h⟩ => ?_
      simp only at e1 h
      refine (oneDouble_noted (by decide) _ h).bind fun ⟨a2, f⟩ ⟨b2, g⟩ ⟨e2, h⟩ => ?_
      simp only at e2 h
      refine (oneString_noted (by decide) _ h).bind fun ⟨a3, f⟩ ⟨b3, g⟩ ⟨e3, h⟩ => ?_
      simp only at e3 h
      refine (oneString_noted (by decide) _ h).bind fun ⟨a4, f⟩ ⟨b4, g⟩ ⟨e4, h⟩ => ?_
      simp only at e4 h
      refine (twoStrings_noted (by decide) _ h).bind fun ⟨a5, f⟩ ⟨b5, g⟩ ⟨e5, h⟩ => ?_
      simp only at e5 h
      refine (oneIndex_noted (by decide) _ h).bind fun ⟨a6, f⟩ ⟨b6, g⟩ ⟨e6, h⟩ => ?_
      simp only at e6 h
      refine (oneString_noted (by decide) _ h).bind fun ⟨a7, f⟩ ⟨b7, g⟩ ⟨e7, h⟩ => ?_
      simp only at e7 h
      subst e1 e2 e3 e4 e5 e6 e7
      exact .ok ⟨rfl, h⟩
  unfold readPropHeader
  cases h with
  | nil => exact .ok ⟨rfl, .nil⟩
  | @keep _ f g l h =>
    by_cases hs : startsWith l ([] ++ cs!"PROPERTIES") = true
    · have e : ∀ f, nextKeyword? ([] ++ cs!"PROPERTIES") (l :: f) = (some l, f) := fun f => if_pos hs
      rw [e, e]
      exact main h.more
    · have e : ∀ f, nextKeyword? ([] ++ cs!"PROPERTIES") (l :: f) = (none, l :: f) := fun f => if_neg hs
      rw [e, e]
      exact .ok ⟨rfl, .keep l h⟩

/-! ## Bodies -/

theorem Comment.ts {c : Str} (h : Comment c) (ts : TSurf D) (f : File) : readTfacesLoop ts (c :: f) = readTfacesLoop ts f := by
  obtain ⟨t, us, e, ht⟩ := h.tokens
  have hn : ∀ k : Str, k.head? ≠ some '#' → t ≠ k := fun k hk e => hk (e ▸ ht)
  rw [readTfacesLoop, e]
  simp only [tsLine]
  rw [if_neg (hn _ (by decide)), if_neg (by rintro (e | e) <;> exact hn _ (by decide) e), if_neg (by rintro (e | e) <;> exact hn _ (by decide) e),
    if_neg (hn _ (by decide)), if_neg (hn _ (by decide)), if_neg (hn _ (by decide)), if_neg (hn _ (by decide))]
  rfl

theorem Comment.pl {c : Str} (h : Comment c) (ec : ECurve D) (f : File) : readIlinesLoop ec (c :: f) = readIlinesLoop ec f := by
  obtain ⟨t, us, e, ht⟩ := h.tokens
  have hn : ∀ k : Str, k.head? ≠ some '#' → t ≠ k := fun k hk e => hk (e ▸ ht)
  rw [readIlinesLoop, e]
  simp only [plLine]
  rw [if_neg (hn _ (by decide)), if_neg (by rintro (e | e) <;> exact hn _ (by decide) e), if_neg (hn _ (by decide))]
  rfl

theorem Comment.vs {c : Str} (h : Comment c) (vs : VSet D) (f : File) : readVSetLoop vs (c :: f) = readVSetLoop vs f := by
  obtain ⟨t, us, e, ht⟩ := h.tokens
  have hn : ∀ k : Str, k.head? ≠ some '#' → t ≠ k := fun k hk e => hk (e ▸ ht)
  rw [readVSetLoop, e]
  simp only [vsLine]
  rw [if_neg (hn _ (by decide)), if_pos ⟨hn _ (by decide), hn _ (by decide)⟩]
  rfl

theorem tfacesLoop_noted {b : Bool} {f g : File} (h : Noted bad b f g) : ∀ ts : TSurf D, Both (Rest bad true) (readTfacesLoop ts f) (readTfacesLoop ts g) := by
  induction h with
  | nil => exact fun _ => .throw
  | @keep b f g l h ih =>
    intro ts
    simp only [readTfacesLoop]
    split
    · exact .ub
    · split
      · exact .ok ⟨rfl, h.more⟩
      · exact Both.after fun ts => ih ts
  | @note f g c hc h ih =>
    intro ts
    rw [hc.ts]
    exact ih ts

theorem ilinesLoop_noted {b : Bool} {f g : File} (h : Noted bad b f g) : ∀ ec : ECurve D, Both (Rest bad true) (readIlinesLoop ec f) (readIlinesLoop ec g) := by
  induction h with
  | nil => exact fun _ => .ok ⟨rfl, .nil⟩
  | @keep b f g l h ih =>
    intro ec
    simp only [readIlinesLoop]
    split
    · exact .ub
    · split
      · exact .ok ⟨rfl, h.more⟩
      · exact Both.after fun ec => ih ec
  | @note f g c hc h ih =>
    intro ec
    rw [hc.pl]
    exact ih ec

theorem vsetLoop_noted {b : Bool} {f g : File} (h : Noted bad b f g) : ∀ vs : VSet D, Both (Rest bad true) (readVSetLoop vs f) (readVSetLoop vs g) := by
  induction h with
  | nil => exact fun _ => .throw
  | @keep b f g l h ih =>
    intro vs
    simp only [readVSetLoop]
    split
    · exact .ub
    · split
      · exact .ok ⟨rfl, h.more⟩
      · exact Both.after fun vs => ih vs
  | @note f g c hc h ih =>
    intro vs
    rw [hc.vs]
    exact ih vs

/-! ## Objects -/

/-- No object in both files, or the same one and rests of the files. -/
def Next (bad : Str → Bool) {A : Type} : Option (A × File) → Option (A × File) → Prop
  | none, none => True
  | some x, some y => Rest bad true x y
  | _, _ => False

theorem heads_title {l : Str} (h : startsWith l title = true) : heads title l = true := by unfold heads; rw [h]; rfl

theorem tsurf_noted {b : Bool} {f g : File} (h : Noted (heads cs!"GOCAD TSurf") b f g) :
    Both (Next (heads cs!"GOCAD TSurf")) (readTSurf f : Res (Option (TSurf D × File))) (readTSurf g) := by
  unfold readTSurf
  rcases goto?_noted (show Plain cs!"GOCAD TSurf" by decide) h with ⟨e, e'⟩ | ⟨x, y, e, e', r⟩ <;> rw [e, e']
  · exact .ok trivial
  · obtain ⟨l, f⟩ := x
    obtain ⟨m, g⟩ := y
    obtain ⟨-, hl, h⟩ := r
    simp only at hl h
    rw [heads_title hl] at h
    refine (header_noted (title := cs!"GOCAD TSurf") (fun _ h => h) h).bind fun ⟨n, f⟩ ⟨n', g⟩ ⟨e1, h⟩ => ?_
    simp only at e1 h
    refine (crs_noted (title := cs!"GOCAD TSurf") (fun _ h => h) h).bind fun ⟨c, f⟩ ⟨c', g⟩ ⟨e2, h⟩ => ?_
    simp only at e2 h
    refine (props_noted h).bind fun ⟨p, f⟩ ⟨p', g⟩ ⟨e3, h⟩ => ?_
    simp only at e3 h
    subst e1 e2 e3
    unfold readTfaces
    simp only [Res.bind_assoc']
    refine (goto_noted (by decide) h).bind fun ⟨l, f⟩ ⟨m, g⟩ ⟨_, _, h⟩ => ?_
    simp only at h ⊢
    refine (tfacesLoop_noted h _).bind fun ⟨t, f⟩ ⟨t', g⟩ ⟨e, h⟩ => ?_
    exact .ok ⟨e, h⟩

theorem curve_noted {b : Bool} {f g : File} (h : Noted (heads cs!"GOCAD PLine") b f g) :
    Both (Next (heads cs!"GOCAD PLine")) (readECurve f : Res (Option (ECurve D × File))) (readECurve g) := by
  unfold readECurve
  rcases goto?_noted (show Plain cs!"GOCAD PLine" by decide) h with ⟨e, e'⟩ | ⟨x, y, e, e', r⟩ <;> rw [e, e']
  · exact .ok trivial
  · obtain ⟨l, f⟩ := x
    obtain ⟨m, g⟩ := y
    obtain ⟨-, hl, h⟩ := r
    simp only at hl h
    rw [heads_title hl] at h
    refine (header_noted (title := cs!"GOCAD PLine") (fun _ h => h) h).bind fun ⟨n, f⟩ ⟨n', g⟩ ⟨e1, h⟩ => ?_
    simp only at e1 h
    refine (crs_noted (title := cs!"GOCAD PLine") (fun _ h => h) h).bind fun ⟨c, f⟩ ⟨c', g⟩ ⟨e2, h⟩ => ?_
    simp only at e2 h
    subst e1 e2
    unfold readIlines
    simp only [Res.bind_assoc']
    refine (goto_noted (by decide) h).bind fun ⟨l, f⟩ ⟨m, g⟩ ⟨_, _, h⟩ => ?_
    simp only at h ⊢
    refine (ilinesLoop_noted h _).bind fun ⟨t, f⟩ ⟨t', g⟩ ⟨e, h⟩ => ?_
    exact .ok ⟨e, h⟩

theorem vset_noted {b : Bool} {f g : File} (h : Noted (heads cs!"GOCAD VSet") b f g) :
    Both (Next (heads cs!"GOCAD VSet")) (readVSet f : Res (Option (VSet D × File))) (readVSet g) := by
  unfold readVSet
  rcases goto?_noted (show Plain cs!"GOCAD VSet" by decide) h with ⟨e, e'⟩ | ⟨x, y, e, e', r⟩ <;> rw [e, e']
  · exact .ok trivial
  · obtain ⟨l, f⟩ := x
    obtain ⟨m, g⟩ := y
    obtain ⟨-, hl, h⟩ := r
    simp only at hl h
    rw [heads_title hl] at h
    refine (header_noted (title := cs!"GOCAD VSet") (fun _ h => h) h).bind fun ⟨n, f⟩ ⟨n', g⟩ ⟨e1, h⟩ => ?_
    simp only at e1 h
    refine (crs_noted (title := cs!"GOCAD VSet") (fun _ h => h) h).bind fun ⟨c, f⟩ ⟨c', g⟩ ⟨e2, h⟩ => ?_
    simp only at e2 h
    refine (props_noted h).bind fun ⟨p, f⟩ ⟨p', g⟩ ⟨e3, h⟩ => ?_
    simp only at e3 h
    subst e1 e2 e3
    unfold readVSetVertices
    simp only [Res.bind_assoc']
    refine (gotos_noted (by decide) h).bind fun ⟨l, f⟩ ⟨m, g⟩ ⟨e, _, h⟩ => ?_
    simp only at e h ⊢
    subst e
    refine (vsetLoop_noted (b := true) (.keep l h) _).bind fun ⟨t, f⟩ ⟨t', g⟩ ⟨e, h⟩ => ?_
    exact .ok ⟨e, h⟩

end Verif.Comments
