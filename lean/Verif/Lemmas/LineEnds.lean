import Verif.Model.MlWhole
import Verif.Model.LsoWhole
import Verif.Model.StratiLso
import Verif.Model.Recognise
import Verif.Model.Wells

/-!
# Blanks at the ends of lines
-/

namespace Verif.LineEnds

open Verif Verif.Gocad Verif.GocadMesh

variable {D : Type} [Num D]

/-- A line without the blanks at its end; the carriage return of files written on Windows is one of them. -/
def trimEnd (l : Str) : Str := (l.reverse.dropWhile isWs).reverse

/-- The same for all the lines of a file. -/
def trims (f : File) : File := f.map trimEnd

theorem trimEnd_concat {l : Str} {c : Char} (h : isWs c = true) : trimEnd (l ++ [c]) = trimEnd l := by
  unfold trimEnd
  rw [List.reverse_append, List.reverse_singleton, List.singleton_append, List.dropWhile_cons_of_pos h]

theorem trimEnd_keep {l : Str} {c : Char} (h : isWs c = false) : trimEnd (l ++ [c]) = l ++ [c] := by
  unfold trimEnd
  rw [List.reverse_append, List.reverse_singleton, List.singleton_append, List.dropWhile_cons_of_neg (by simp [h]), List.reverse_cons, List.reverse_reverse]

/-- What does not change with a blank at the end of a line does not change when all of them are removed. -/
theorem trim_same {A : Type} (g : Str → A) (h : ∀ (l : Str) (c : Char), isWs c = true → g (l ++ [c]) = g l) (l : Str) : g (trimEnd l) = g l := by
  have key : ∀ r : Str, g (trimEnd r.reverse) = g r.reverse := by
    intro r
    induction r with
    | nil => rfl
    | cons c r ih =>
      rw [List.reverse_cons]
      cases hc : isWs c with
      | true => rw [trimEnd_concat hc, ih, h _ _ hc]
      | false => rw [trimEnd_keep hc]
  simpa using key l.reverse

/-- A keyword: not empty, its last character is not a blank. -/
def Ends (k : Str) : Prop := ∃ c, k.getLast? = some c ∧ isWs c = false

instance (k : Str) : Decidable (Ends k) :=
  match h : k.getLast? with
  | none => isFalse fun ⟨c, e, _⟩ => by rw [h] at e; cases e
  | some c => if hc : isWs c = false then isTrue ⟨c, h, hc⟩ else isFalse fun ⟨d, e, hd⟩ => by rw [h] at e; cases e; exact hc hd

theorem Ends.append {k k' : Str} (h : Ends k') : Ends (k ++ k') := by
  obtain ⟨c, e, hc⟩ := h
  exact ⟨c, by rw [List.getLast?_append, e]; rfl, hc⟩

theorem split_end (l : Str) {c : Char} (hc : isWs c = true) : split (l ++ [c]) = split l := by
  rw [split_append_ws l [] hc]
  simp

theorem prefix_end {k l : Str} {c : Char} (hk : Ends k) (hc : isWs c = true) : k.isPrefixOf (l ++ [c]) = k.isPrefixOf l := by
  rw [Bool.eq_iff_iff, List.isPrefixOf_iff_prefix, List.isPrefixOf_iff_prefix, List.prefix_concat_iff]
  constructor
  · rintro (h | h)
    · obtain ⟨d, e, hd⟩ := hk
      rw [h, List.getLast?_concat] at e
      cases e
      rw [hc] at hd
      cases hd
    · exact h
  · exact .inr

theorem contains_end {k : Str} (hk : Ends k) : ∀ (l : Str) {c : Char}, isWs c = true → contains k (l ++ [c]) = contains k l
  | [], c, hc => by
    have h0 : k ≠ [] := by rintro rfl; obtain ⟨d, e, _⟩ := hk; cases e
    have := prefix_end (l := []) hk hc
    rw [List.nil_append] at this ⊢
    simp only [contains, this]
    cases k <;> simp_all
  | d :: l, c, hc => by
    have := prefix_end (l := d :: l) hk hc
    rw [List.cons_append] at this ⊢
    simp only [contains, this, contains_end hk l hc]

theorem afterFirst_end {k : Str} (hk : Ends k) : ∀ (l : Str) {c : Char}, isWs c = true → afterFirst k (l ++ [c]) = (afterFirst k l).map (· ++ [c])
  | [], c, hc => by
    have h0 : k ≠ [] := by rintro rfl; obtain ⟨d, e, _⟩ := hk; cases e
    have := prefix_end (l := []) hk hc
    rw [List.nil_append] at this ⊢
    simp only [afterFirst, this]
    cases k <;> simp_all
  | d :: l, c, hc => by
    have := prefix_end (l := d :: l) hk hc
    rw [List.cons_append] at this ⊢
    simp only [afterFirst, this]
    split
    · rename_i h
      rw [Option.map_some, ← List.cons_append, List.drop_append_of_le_length]
      exact (List.isPrefixOf_iff_prefix.1 h).length_le
    · exact afterFirst_end hk l hc

@[simp] theorem split_trim (l : Str) : split (trimEnd l) = split l := trim_same split (fun l _ hc => split_end l hc) l

theorem starts_trim {k : Str} (hk : Ends k) (l : Str) : startsWith (trimEnd l) k = startsWith l k :=
  trim_same (fun l => startsWith l k) (fun _ _ hc => prefix_end hk hc) l

theorem contains_trim {k : Str} (hk : Ends k) (l : Str) : contains k (trimEnd l) = contains k l :=
  trim_same (contains k) (fun l _ hc => contains_end hk l hc) l

theorem after_trim {k : Str} (hk : Ends k) (l : Str) : (afterFirst k (trimEnd l)).map split = (afterFirst k l).map split :=
  trim_same (fun l => (afterFirst k l).map split) (fun l c hc => by
    simp only [afterFirst_end hk l hc, Option.map_map]
    congr 1
    funext r
    exact split_end r hc) l

/-! ## Results that have lines -/

/-- A result, with its lines trimmed. -/
def onRest {A : Type} (x : A × File) : A × File := (x.1, trims x.2)

theorem map_bind {A B C : Type} (g : B → C) (r : Res A) (k : A → Res B) : g <$> (r >>= k) = r >>= fun a => g <$> k a := by cases r <;> rfl

theorem bind_map {A B C : Type} (g : A → B) (r : Res A) (k : B → Res C) : (g <$> r) >>= k = r >>= fun a => k (g a) := by cases r <;> rfl

theorem bind_same {A B : Type} {r : Res A} {k k' : A → Res B} (h : ∀ a, k a = k' a) : r >>= k = r >>= k' := by rw [funext h]

@[simp] theorem map_throw {A B : Type} (g : A → B) : g <$> (Res.throw : Res A) = .throw := rfl
@[simp] theorem map_ub {A B : Type} (g : A → B) : g <$> (Res.ub : Res A) = .ub := rfl
@[simp] theorem map_diverge {A B : Type} (g : A → B) : g <$> (Res.diverge : Res A) = .diverge := rfl

@[simp] theorem trims_cons (l : Str) (f : File) : trims (l :: f) = trimEnd l :: trims f := rfl
@[simp] theorem trims_nil : trims [] = [] := rfl
@[simp] theorem trims_length (f : File) : (trims f).length = f.length := List.length_map _

/-- A result with a line and the lines after it. -/
def onLine (x : Str × File) : Str × File := (trimEnd x.1, trims x.2)

theorem goto?_trim {k : Str} (hk : Ends k) : ∀ f : File, gotoKeyword? k (trims f) = (gotoKeyword? k f).map onLine
  | [] => rfl
  | l :: f => by
    simp only [trims_cons, gotoKeyword?, starts_trim hk]
    split
    · rfl
    · exact goto?_trim hk f

theorem goto_trim {k : Str} (hk : Ends k) (f : File) : gotoKeyword k (trims f) = onLine <$> gotoKeyword k f := by
  unfold gotoKeyword
  rw [goto?_trim hk]
  cases gotoKeyword? k f <;> rfl

theorem gotos_trim {ks : List Str} (hk : ∀ k ∈ ks, Ends k) : ∀ f : File, gotoKeywords ks (trims f) = onLine <$> gotoKeywords ks f
  | [] => rfl
  | l :: f => by
    have e : ks.any (startsWith (trimEnd l)) = ks.any (startsWith l) := by
      rw [Bool.eq_iff_iff, List.any_eq_true, List.any_eq_true]
      constructor
      · rintro ⟨k, h, h'⟩; exact ⟨k, h, by rwa [starts_trim (hk k h)] at h'⟩
      · rintro ⟨k, h, h'⟩; exact ⟨k, h, by rwa [starts_trim (hk k h)]⟩
    simp only [trims_cons, gotoKeywords, e]
    split
    · rfl
    · exact gotos_trim hk f

theorem check_trim {k : Str} (hk : Ends k) (f : File) : checkKeyword k (trims f) = trims <$> checkKeyword k f := by
  cases f with
  | nil => rfl
  | cons l f =>
    simp only [trims_cons, checkKeyword, starts_trim hk]
    split <;> rfl

theorem next_trim {k : Str} (hk : Ends k) (f : File) : nextKeyword? k (trims f) = ((nextKeyword? k f).1.map trimEnd, trims (nextKeyword? k f).2) := by
  cases f with
  | nil => rfl
  | cons l f =>
    simp only [trims_cons, nextKeyword?, starts_trim hk]
    split <;> rfl

/-! ## GOCAD objects -/

theorem headerLoop_trim : ∀ (f : File) (name : Option Str), readHeaderLoop name (trims f) = onRest <$> readHeaderLoop name f
  | [], _ => rfl
  | l :: f, name => by
    simp only [trims_cons, readHeaderLoop, starts_trim (show Ends cs!"}" by decide)]
    split
    · rfl
    · have := after_trim (show Ends cs!"name:" by decide) l
      revert this
      cases afterFirst cs!"name:" (trimEnd l) <;> cases afterFirst cs!"name:" l <;> intro this
      · exact headerLoop_trim f _
      · cases this
      · cases this
      · simp only [Option.map_some, Option.some.injEq] at this
        simp only [this]
        exact headerLoop_trim f _

theorem header_trim (f : File) : readHeader (trims f) = onRest <$> readHeader f := by
  unfold readHeader
  rw [check_trim (by decide), bind_map, map_bind]
  exact bind_same fun f => headerLoop_trim f none

theorem crsLine_trim (c : Crs) (l : Str) : crsLine c (trimEnd l) = crsLine c l := by
  unfold crsLine splitQuoted
  rw [split_trim]

theorem crsLoop_trim : ∀ (f : File) (c : Crs), readCrsLoop c (trims f) = onRest <$> readCrsLoop c f
  | [], _ => rfl
  | l :: f, c => by
    simp only [trims_cons, readCrsLoop, starts_trim (show Ends cs!"END_ORIGINAL_COORDINATE_SYSTEM" by decide), crsLine_trim]
    split
    · rfl
    · rw [map_bind]
      exact bind_same fun c => crsLoop_trim f c

theorem crs_trim (f : File) : readCrs (trims f) = onRest <$> readCrs f := by
  unfold readCrs
  rw [next_trim (by decide)]
  cases h : nextKeyword? cs!"GOCAD_ORIGINAL_COORDINATE_SYSTEM" f with
  | mk o f => cases o with
    | none => rfl
    | some l => exact crsLoop_trim f {}

theorem splitQuoted_trim (l : Str) : splitQuoted (trimEnd l) = splitQuoted l := by unfold splitQuoted; rw [split_trim]

theorem oneString_trim {k : Str} (hk : Ends k) (n : Nat) (f : File) : readOneString k n (trims f) = onRest <$> readOneString k n f := by
  unfold readOneString
  rw [goto_trim hk, bind_map, map_bind]
  refine bind_same fun ⟨l, f⟩ => ?_
  simp only [onLine, splitQuoted_trim, map_bind]
  rfl

theorem twoStrings_trim {k : Str} (hk : Ends k) (n : Nat) (f : File) : readTwoStrings k n (trims f) = onRest <$> readTwoStrings k n f := by
  unfold readTwoStrings
  rw [goto_trim hk, bind_map, map_bind]
  refine bind_same fun ⟨l, f⟩ => ?_
  simp only [onLine, split_trim, map_bind]
  rfl

theorem oneDouble_trim {k : Str} (hk : Ends k) (n : Nat) (f : File) : (readOneDouble k n (trims f) : Res (List D × File)) = onRest <$> readOneDouble k n f := by
  unfold readOneDouble
  rw [goto_trim hk, bind_map, map_bind]
  refine bind_same fun ⟨l, f⟩ => ?_
  simp only [onLine, split_trim, map_bind]
  rfl

theorem oneIndex_trim {k : Str} (hk : Ends k) (n : Nat) (f : File) : readOneIndex k n (trims f) = onRest <$> readOneIndex k n f := by
  unfold readOneIndex
  rw [goto_trim hk, bind_map, map_bind]
  refine bind_same fun ⟨l, f⟩ => ?_
  simp only [onLine, split_trim, map_bind]
  rfl

theorem props_trim (p : Str) (f : File) : (readPropHeader p (trims f) : Res (PropHeader D × File)) = onRest <$> readPropHeader p f := by
  unfold readPropHeader
  rw [next_trim (Ends.append (by decide))]
  cases h : nextKeyword? (p ++ cs!"PROPERTIES") f with
  | mk o f => cases o with
    | none => rfl
    | some l =>
      simp only [Option.map_some, splitQuoted_trim, map_bind]
      refine bind_same fun names => ?_
      split
      · rfl
      · rw [map_bind, twoStrings_trim (Ends.append (by decide)), bind_map]
        refine bind_same fun ⟨a, f⟩ => ?_
        simp only [onRest]
        rw [map_bind, oneDouble_trim (Ends.append (by decide)), bind_map]
        refine bind_same fun ⟨b, f⟩ => ?_
        simp only [onRest]
        rw [map_bind, oneString_trim (Ends.append (by decide)), bind_map]
        refine bind_same fun ⟨b, f⟩ => ?_
        simp only [onRest]
        rw [map_bind, oneString_trim (Ends.append (by decide)), bind_map]
        refine bind_same fun ⟨b, f⟩ => ?_
        simp only [onRest]
        rw [map_bind, twoStrings_trim (Ends.append (by decide)), bind_map]
        refine bind_same fun ⟨b, f⟩ => ?_
        simp only [onRest]
        rw [map_bind, oneIndex_trim (Ends.append (by decide)), bind_map]
        refine bind_same fun ⟨b, f⟩ => ?_
        simp only [onRest]
        rw [map_bind, oneString_trim (Ends.append (by decide)), bind_map]
        rfl

theorem tfacesLoop_trim : ∀ (f : File) (ts : TSurf D), readTfacesLoop ts (trims f) = onRest <$> readTfacesLoop ts f
  | [], _ => rfl
  | l :: f, ts => by
    simp only [trims_cons, readTfacesLoop, split_trim]
    cases split l with
    | nil => rfl
    | cons kw args =>
      simp only
      split
      · rfl
      · rw [map_bind]
        exact bind_same fun ts => tfacesLoop_trim f ts

theorem ilinesLoop_trim : ∀ (f : File) (ec : ECurve D), readIlinesLoop ec (trims f) = onRest <$> readIlinesLoop ec f
  | [], _ => rfl
  | l :: f, ec => by
    simp only [trims_cons, readIlinesLoop, split_trim]
    cases split l with
    | nil => rfl
    | cons kw args =>
      simp only
      split
      · rfl
      · rw [map_bind]
        exact bind_same fun ec => ilinesLoop_trim f ec

theorem vsetLoop_trim : ∀ (f : File) (vs : VSet D), readVSetLoop vs (trims f) = onRest <$> readVSetLoop vs f
  | [], _ => rfl
  | l :: f, vs => by
    simp only [trims_cons, readVSetLoop, split_trim]
    cases split l with
    | nil => rfl
    | cons kw args =>
      simp only
      split
      · rfl
      · rw [map_bind]
        exact bind_same fun vs => vsetLoop_trim f vs

theorem tsurf_trim (f : File) : (readTSurf (trims f) : Res (Option (TSurf D × File))) = (Option.map onRest) <$> readTSurf f := by
  unfold readTSurf
  rw [goto?_trim (by decide)]
  cases gotoKeyword? cs!"GOCAD TSurf" f with
  | none => rfl
  | some x =>
    obtain ⟨l, f⟩ := x
    simp only [Option.map_some, onLine, map_bind]
    rw [header_trim, bind_map]
    refine bind_same fun ⟨name, f⟩ => ?_
    simp only [onRest]
    rw [crs_trim, bind_map]
    refine bind_same fun ⟨crs, f⟩ => ?_
    simp only [onRest]
    rw [props_trim, bind_map]
    refine bind_same fun ⟨props, f⟩ => ?_
    simp only [onRest, readTfaces]
    rw [goto_trim (by decide)]
    simp only [bind_map, Res.bind_assoc']
    refine bind_same fun ⟨l, f⟩ => ?_
    simp only [onLine, tfacesLoop_trim, bind_map]
    rfl

theorem curve_trim (f : File) : (readECurve (trims f) : Res (Option (ECurve D × File))) = (Option.map onRest) <$> readECurve f := by
  unfold readECurve
  rw [goto?_trim (by decide)]
  cases gotoKeyword? cs!"GOCAD PLine" f with
  | none => rfl
  | some x =>
    obtain ⟨l, f⟩ := x
    simp only [Option.map_some, onLine, map_bind]
    rw [header_trim, bind_map]
    refine bind_same fun ⟨name, f⟩ => ?_
    simp only [onRest]
    rw [crs_trim, bind_map]
    refine bind_same fun ⟨crs, f⟩ => ?_
    simp only [onRest, readIlines]
    rw [goto_trim (by decide)]
    simp only [bind_map, Res.bind_assoc']
    refine bind_same fun ⟨l, f⟩ => ?_
    simp only [onLine, ilinesLoop_trim, bind_map]
    rfl

theorem vset_trim (f : File) : (readVSet (trims f) : Res (Option (VSet D × File))) = (Option.map onRest) <$> readVSet f := by
  unfold readVSet
  rw [goto?_trim (by decide)]
  cases gotoKeyword? cs!"GOCAD VSet" f with
  | none => rfl
  | some x =>
    obtain ⟨l, f⟩ := x
    simp only [Option.map_some, onLine, map_bind]
    rw [header_trim, bind_map]
    refine bind_same fun ⟨name, f⟩ => ?_
    simp only [onRest]
    rw [crs_trim, bind_map]
    refine bind_same fun ⟨crs, f⟩ => ?_
    simp only [onRest]
    rw [props_trim, bind_map]
    refine bind_same fun ⟨props, f⟩ => ?_
    simp only [onRest, readVSetVertices]
    rw [gotos_trim (by decide)]
    simp only [bind_map, Res.bind_assoc']
    refine bind_same fun ⟨l, f⟩ => ?_
    simp only [onLine, ← trims_cons, vsetLoop_trim, bind_map]
    rfl

end Verif.LineEnds
