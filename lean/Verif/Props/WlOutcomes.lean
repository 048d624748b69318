import Verif.Props.Wells
import Verif.Props.GocadHeaders
import Mathlib.Data.List.Forall2

/-!
# C155: which GOCAD wells load

`Props.Wells` shows what a well as GOCAD writes it gives.  Here the file is any: the files that load are found, with what they give, and the others are
refused.  Theorems about `Model.Wells`.
-/

namespace Verif.Props.WlOutcomes

open Verif Verif.Gocad Verif.GocadMesh Verif.Wells Verif.Props.Wells Res

variable {D : Type} [Num D]

/-- `l` is the first line that starts with `kw`. -/
def First (kw : Str) (f : File) (l : Str) (rest : File) : Prop :=
  ∃ pre, f = pre ++ l :: rest ∧ startsWith l kw = true ∧ ∀ x ∈ pre, startsWith x kw = false

theorem first_iff {kw : Str} {f : File} {l : Str} {rest : File} : gotoKeyword? kw f = some (l, rest) ↔ First kw f l rest := by
  induction f with
  | nil => simp [gotoKeyword?, First]
  | cons a as ih =>
    rw [gotoKeyword?]
    by_cases h : startsWith a kw = true
    · rw [if_pos h]
      constructor
      · intro e
        obtain ⟨rfl, rfl⟩ := Prod.mk.inj (Option.some.inj e)
        exact ⟨[], rfl, h, by simp⟩
      · rintro ⟨pre, e, hl, hp⟩
        cases pre with
        | nil => obtain ⟨rfl, rfl⟩ := List.cons.inj e; rfl
        | cons p ps =>
          have := hp p (by simp)
          rw [← (List.cons.inj e).1, h] at this
          cases this
    · rw [if_neg h, ih]
      constructor
      · rintro ⟨pre, rfl, hl, hp⟩
        refine ⟨a :: pre, rfl, hl, fun x hx => ?_⟩
        rcases List.mem_cons.1 hx with rfl | hx
        · exact Bool.eq_false_iff.2 h
        · exact hp x hx
      · rintro ⟨pre, e, hl, hp⟩
        cases pre with
        | nil => rw [← (List.cons.inj e).1] at hl; exact absurd hl h
        | cons p ps => exact ⟨ps, (List.cons.inj e).2, hl, fun x hx => hp x (by simp [hx])⟩

theorem goto_iff {kw : Str} {f : File} {l : Str} {rest : File} : gotoKeyword kw f = .ok (l, rest) ↔ First kw f l rest := by
  rw [← first_iff]
  unfold gotoKeyword
  cases gotoKeyword? kw f <;> simp [Res.ofParse]

theorem goto_cases (kw : Str) (f : File) : (∃ l rest, gotoKeyword kw f = .ok (l, rest) ∧ First kw f l rest) ∨
    (gotoKeyword kw f = .throw ∧ ∀ l ∈ f, startsWith l kw = false) := by
  cases h : gotoKeyword? kw f with
  | some r => exact Or.inl ⟨r.1, r.2, by rw [gotoKeyword, h]; rfl, first_iff.1 h⟩
  | none =>
    refine Or.inr ⟨by rw [gotoKeyword, h]; rfl, fun l hl => ?_⟩
    induction f with
    | nil => cases hl
    | cons a as ih =>
      rw [gotoKeyword?] at h
      by_cases ha : startsWith a kw = true
      · rw [if_pos ha] at h; cases h
      · rw [if_neg ha] at h
        rcases List.mem_cons.1 hl with rfl | hl
        · exact Bool.eq_false_iff.2 ha
        · exact ih h hl

/-- A line of some words followed by three numbers. -/
def Three (words : Nat) (l : Str) (p : Pt D) : Prop :=
  ∃ pre a b c, split l = pre ++ [a, b, c] ∧ pre.length = words ∧ Num.parse a = some p.x ∧ Num.parse b = some p.y ∧ Num.parse c = some p.z

theorem coord_iff {l : Str} {n : Nat} {p : Pt D} : wlCoord l n = .ok p ↔ Three n l p := by
  unfold wlCoord
  constructor
  · intro e
    obtain ⟨_, e1, e⟩ := Res.bind_eq_ok.1 e
    have hlen : (split l).length = 3 + n := by
      by_contra hne
      rw [beq_eq_false_iff_ne.2 hne] at e1
      cases e1
    have hd : (split l).drop n = [(split l)[n]'(by omega), (split l)[1 + n]'(by omega), (split l)[2 + n]'(by omega)] := by
      apply List.ext_getElem
      · simp; omega
      · intro i h1 h2
        have : i = 0 ∨ i = 1 ∨ i = 2 := by simp at h2; omega
        rcases this with rfl | rfl | rfl <;> simp [Nat.add_comm]
    simp only [Res.index_of_lt (show n < (split l).length by omega), Res.index_of_lt (show 1 + n < (split l).length by omega),
      Res.index_of_lt (show 2 + n < (split l).length by omega), Res.ok_bind, readDouble] at e
    cases h1 : (Num.parse ((split l)[n]'(by omega)) : Option D) with
    | none => rw [h1] at e; cases e
    | some x =>
      rw [h1, Res.ofParse_some, Res.ok_bind] at e
      cases h2 : (Num.parse ((split l)[1 + n]'(by omega)) : Option D) with
      | none => rw [h2] at e; cases e
      | some y =>
        rw [h2, Res.ofParse_some, Res.ok_bind] at e
        cases h3 : (Num.parse ((split l)[2 + n]'(by omega)) : Option D) with
        | none => rw [h3] at e; cases e
        | some z =>
          rw [h3, Res.ofParse_some, Res.ok_bind] at e
          have e := Res.ok.inj e
          subst e
          refine ⟨(split l).take n, _, _, _, ?_, by simp; omega, h1, h2, h3⟩
          rw [← hd, List.take_append_drop]
  · rintro ⟨pre, a, b, c, hs, rfl, h1, h2, h3⟩
    rw [hs]
    have hb : ((pre ++ [a, b, c]).length == 3 + pre.length) = true := by simp [Nat.add_comm]
    have i1 : Res.index (pre ++ [a, b, c]) pre.length = .ok a := Res.index_eq_ok.2 (by simp)
    have i2 : Res.index (pre ++ [a, b, c]) (1 + pre.length) = .ok b := Res.index_eq_ok.2 (by rw [List.getElem?_append_right (by omega)]; simp)
    have i3 : Res.index (pre ++ [a, b, c]) (2 + pre.length) = .ok c := Res.index_eq_ok.2 (by rw [List.getElem?_append_right (by omega)]; simp)
    simp only [hb, Res.check_true, Res.ok_bind, i1, i2, i3, readDouble, h1, h2, h3, Res.ofParse_some, Res.pure_eq]

theorem coord_else {l : Str} {n : Nat} (h : ¬ ∃ p : Pt D, Three n l p) : (wlCoord l n : Res (Pt D)) = .throw := by
  by_cases hlen : (split l).length = 3 + n
  · cases hr : (wlCoord l n : Res (Pt D)) with
    | ok p => exact absurd ⟨p, coord_iff.1 hr⟩ h
    | throw => rfl
    | ub =>
      exfalso
      revert hr
      unfold wlCoord
      have hb : ((split l).length == 3 + n) = true := by rw [hlen]; exact beq_self_eq_true _
      simp only [hb, Res.check_true, Res.ok_bind, Res.index_of_lt (show n < (split l).length by omega),
        Res.index_of_lt (show 1 + n < (split l).length by omega), Res.index_of_lt (show 2 + n < (split l).length by omega), readDouble]
      cases (Num.parse ((split l)[n]'(by omega)) : Option D) <;> cases (Num.parse ((split l)[1 + n]'(by omega)) : Option D) <;>
        cases (Num.parse ((split l)[2 + n]'(by omega)) : Option D) <;> simp
    | diverge =>
      exfalso
      revert hr
      unfold wlCoord
      have hb : ((split l).length == 3 + n) = true := by rw [hlen]; exact beq_self_eq_true _
      simp only [hb, Res.check_true, Res.ok_bind, Res.index_of_lt (show n < (split l).length by omega),
        Res.index_of_lt (show 1 + n < (split l).length by omega), Res.index_of_lt (show 2 + n < (split l).length by omega), readDouble]
      cases (Num.parse ((split l)[n]'(by omega)) : Option D) <;> cases (Num.parse ((split l)[1 + n]'(by omega)) : Option D) <;>
        cases (Num.parse ((split l)[2 + n]'(by omega)) : Option D) <;> simp
  · unfold wlCoord
    simp only [beq_eq_false_iff_ne.2 hlen, Res.check_false, Res.throw_bind]

/-- The records that follow a line: all those up to the next line that is not a record. -/
def records (f : File) : File := f.takeWhile fun l => startsWith l cs!"PATH"

/-- The point of a record: the depth and the offsets from the reference. -/
def pointOf [Add D] (z : Bool) (ref : Pt D) (t : Pt D) : Pt D := ⟨t.y + ref.x, t.z + ref.y, signed z t.x⟩

theorem paths_iff [Add D] (z : Bool) (ref : Pt D) (f : File) (ps qs : List (Pt D)) :
    wlPaths z ref ps f = .ok qs ↔ ∃ ts : List (Pt D), List.Forall₂ (Three 2) (records f) ts ∧ qs = ps ++ ts.map (pointOf z ref) := by
  induction f generalizing ps with
  | nil =>
    rw [wlPaths]
    constructor
    · intro e; exact ⟨[], .nil, by rw [← Res.ok.inj e]; simp⟩
    · rintro ⟨ts, h, rfl⟩
      cases h
      simp
  | cons l ls ih =>
    rw [wlPaths]
    by_cases h : startsWith l cs!"PATH" = true
    · rw [if_pos h, records, List.takeWhile_cons, if_pos h]
      constructor
      · intro e
        obtain ⟨t, e1, e⟩ := Res.bind_eq_ok.1 e
        obtain ⟨ts, h1, rfl⟩ := (ih _).1 e
        exact ⟨t :: ts, .cons (coord_iff.1 e1) h1, by simp [pointOf]⟩
      · rintro ⟨ts, h1, rfl⟩
        cases h1 with
        | @cons _ t _ ts h2 h3 =>
          rw [coord_iff.2 h2, Res.ok_bind, ih]
          exact ⟨ts, h3, by simp [pointOf]⟩
    · rw [if_neg h, records, List.takeWhile_cons, if_neg h]
      constructor
      · intro e; exact ⟨[], .nil, by rw [← Res.ok.inj e]; simp⟩
      · rintro ⟨ts, h, rfl⟩
        cases h
        simp

theorem paths_cases [Add D] (z : Bool) (ref : Pt D) (f : File) (ps : List (Pt D)) :
    (∃ qs, wlPaths z ref ps f = .ok qs) ∨ wlPaths z ref ps f = .throw := by
  induction f generalizing ps with
  | nil => exact Or.inl ⟨ps, rfl⟩
  | cons l ls ih =>
    rw [wlPaths]
    by_cases h : startsWith l cs!"PATH" = true
    · rw [if_pos h]
      by_cases hc : ∃ p : Pt D, Three 2 l p
      · obtain ⟨p, hp⟩ := hc
        rw [coord_iff.2 hp, Res.ok_bind]
        exact ih _
      · rw [coord_else hc]
        exact Or.inr rfl
    · rw [if_neg h]; exact Or.inl ⟨ps, rfl⟩

/-- A file read as a well: the header and the coordinate system follow the title, the reference is the first `WREF` line after them and the first `PATH` line
after it is skipped. -/
structure Parts (f : File) where
  title : Str
  body : File
  titled : First cs!"GOCAD Well" f title body
  name : Option Str
  crs : Crs
  afterHeader : File
  header : readHeader body = .ok (name, afterHeader)
  afterCrs : File
  system : readCrs afterHeader = .ok (crs, afterCrs)
  wref : Str
  afterRef : File
  reference : First cs!"WREF" afterCrs wref afterRef
  skipped : Str
  rest : File
  path : First cs!"PATH" afterRef skipped rest

/-- The well of a reference and records. -/
def wellOf [Add D] (P : Parts f) (r : Pt D) (ts : List (Pt D)) : Well D :=
  let ref : Pt D := ⟨r.x, r.y, signed P.crs.zPos r.z⟩
  { name := P.name, points := ref :: ts.map (pointOf P.crs.zPos ref), edges := polyline (ts.length + 1) }

/-- **C155, the wells that load**: the reference has three numbers after its keyword, and the records after the first `PATH` line have three after their keyword and a word. -/
theorem wl_loads_iff [Add D] (f : File) (w : Well D) :
    loadWl f = .ok w ↔ ∃ (P : Parts f) (r : Pt D) (ts : List (Pt D)), Three 1 P.wref r ∧ List.Forall₂ (Three 2) (records P.rest) ts ∧ w = wellOf P r ts := by
  unfold loadWl
  constructor
  · intro e
    cases hg : gotoKeyword? cs!"GOCAD Well" f with
    | none => rw [hg] at e; cases e
    | some x =>
      rw [hg] at e
      dsimp only at e
      obtain ⟨⟨name, f2⟩, e1, e⟩ := Res.bind_eq_ok.1 e
      obtain ⟨⟨crs, f3⟩, e2, e⟩ := Res.bind_eq_ok.1 e
      obtain ⟨⟨wref, f4⟩, e3, e⟩ := Res.bind_eq_ok.1 e
      obtain ⟨r, e4, e⟩ := Res.bind_eq_ok.1 e
      obtain ⟨⟨p0, f5⟩, e5, e⟩ := Res.bind_eq_ok.1 e
      obtain ⟨pts, e6, e⟩ := Res.bind_eq_ok.1 e
      dsimp only at e e2 e3 e4 e5 e6
      obtain ⟨ts, h1, rfl⟩ := (paths_iff _ _ _ _ _).1 e6
      refine ⟨⟨x.1, x.2, first_iff.1 hg, name, crs, f2, e1, f3, e2, wref, f4, goto_iff.1 e3, p0, f5, goto_iff.1 e5⟩, r, ts, coord_iff.1 e4, h1, ?_⟩
      rw [← Res.ok.inj e]
      simp [wellOf, polyline]
  · rintro ⟨P, r, ts, h1, h2, rfl⟩
    rw [first_iff.2 P.titled]
    dsimp only
    rw [P.header, Res.ok_bind]
    dsimp only
    rw [P.system, Res.ok_bind]
    dsimp only
    rw [goto_iff.2 P.reference, Res.ok_bind]
    dsimp only
    rw [coord_iff.2 h1, Res.ok_bind, goto_iff.2 P.path, Res.ok_bind]
    dsimp only
    rw [(paths_iff P.crs.zPos ⟨r.x, r.y, signed P.crs.zPos r.z⟩ P.rest _ _).2 ⟨ts, h2, rfl⟩, Res.ok_bind]
    simp [wellOf, polyline]

/-! ## The other files -/

theorem merge_cases (o : Option Str) (ts : List Str) : (∃ r, mergeQuoted o ts = .ok r) ∨ mergeQuoted o ts = .ub := by
  induction ts generalizing o with
  | nil =>
    cases o with
    | none => exact Or.inl ⟨[], rfl⟩
    | some a => exact Or.inr rfl
  | cons t ts ih =>
    cases o with
    | none =>
      rw [mergeQuoted]
      split
      · exact ih _
      · rcases ih none with ⟨r, hr⟩ | hr
        · exact Or.inl ⟨t :: r, by rw [hr]; rfl⟩
        · exact Or.inr (by rw [hr]; rfl)
    | some a =>
      rw [mergeQuoted]
      split
      · rcases ih none with ⟨r, hr⟩ | hr
        · exact Or.inl ⟨_, by rw [hr]; rfl⟩
        · exact Or.inr (by rw [hr]; rfl)
      · exact ih _

/-- A line of a coordinate system that cannot be read is read out of bounds. -/
theorem crsLine_else {c : Crs} {l : Str} (h : ¬ GocadHeaders.Readable l) : crsLine c l = .ub := by
  have hno : ¬ ∃ c', crsLine c l = .ok c' := fun hc => h ((GocadHeaders.crsLine_iff c l).1 hc)
  unfold crsLine at hno ⊢
  rcases merge_cases none (split l) with ⟨toks, ht⟩ | ht
  · have ht : splitQuoted l = .ok toks := ht
    rw [ht, Res.ok_bind] at hno ⊢
    cases toks with
    | nil => rfl
    | cons t ts =>
      rw [Res.index_cons_zero, Res.ok_bind] at hno ⊢
      cases ts with
      | nil =>
        rw [show Res.index [t] 1 = .ub from rfl] at hno ⊢
        simp only [Res.ub_bind] at hno ⊢
        split
        · rfl
        · rename_i h1
          rw [if_neg h1] at hno
          split
          · rfl
          · rename_i h2
            rw [if_neg h2] at hno
            split
            · rfl
            · rename_i h3
              rw [if_neg h3] at hno
              split
              · rfl
              · rename_i h4
                rw [if_neg h4] at hno
                exact absurd ⟨_, rfl⟩ hno
      | cons u us =>
        exfalso
        apply hno
        rw [show Res.index (t :: u :: us) 1 = .ok u from rfl]
        simp only [Res.ok_bind, Res.pure_eq]
        split
        · exact ⟨_, rfl⟩
        · split
          · exact ⟨_, rfl⟩
          · split
            · exact ⟨_, rfl⟩
            · split
              · exact ⟨_, rfl⟩
              · exact ⟨_, rfl⟩
  · have ht : splitQuoted l = .ub := ht
    rw [ht]
    rfl

theorem crsLoop_cases (c : Crs) (f : File) : (∃ r, readCrsLoop c f = .ok r) ∨ readCrsLoop c f = .throw ∨
    (readCrsLoop c f = .ub ∧ ∃ l ∈ f, ¬ GocadHeaders.Readable l) := by
  induction f generalizing c with
  | nil => exact Or.inr (Or.inl rfl)
  | cons l ls ih =>
    rw [readCrsLoop]
    split
    · exact Or.inl ⟨_, rfl⟩
    · by_cases h : GocadHeaders.Readable l
      · obtain ⟨c', hc⟩ := (GocadHeaders.crsLine_iff c l).2 h
        rw [hc, Res.ok_bind]
        rcases ih c' with h | h | ⟨h, x, hx, hn⟩
        · exact Or.inl h
        · exact Or.inr (Or.inl h)
        · exact Or.inr (Or.inr ⟨h, x, by simp [hx], hn⟩)
      · rw [crsLine_else h]
        exact Or.inr (Or.inr ⟨rfl, l, by simp, h⟩)

theorem crs_cases (f : File) : (∃ r, readCrs f = .ok r) ∨ readCrs f = .throw ∨ (readCrs f = .ub ∧ ∃ l ∈ f, ¬ GocadHeaders.Readable l) := by
  unfold readCrs
  cases f with
  | nil => exact Or.inl ⟨_, rfl⟩
  | cons k ls =>
    rw [nextKeyword?]
    split
    · rename_i h
      split at h
      · cases h
      · obtain ⟨_, rfl⟩ := Prod.mk.inj h
        exact Or.inl ⟨_, rfl⟩
    · rename_i h
      split at h
      · obtain ⟨_, rfl⟩ := Prod.mk.inj h
        rcases crsLoop_cases {} ls with h | h | ⟨h, x, hx, hn⟩
        · exact Or.inl h
        · exact Or.inr (Or.inl h)
        · exact Or.inr (Or.inr ⟨h, x, by simp [hx], hn⟩)
      · cases h

/-- **C155, the other files** are refused, unless a line of the coordinate system cannot be read: the file is then read out of bounds. -/
theorem wl_outcomes_partial [Add D] (f : File) : (∃ w : Well D, loadWl f = .ok w) ∨ (loadWl f : Res (Well D)) = .throw ∨
    ((loadWl f : Res (Well D)) = .ub ∧ ∃ title body name rest, First cs!"GOCAD Well" f title body ∧ readHeader body = .ok (name, rest) ∧
      readCrs rest = .ub ∧ ∃ l ∈ rest, ¬ GocadHeaders.Readable l) := by
  unfold loadWl
  cases hg : gotoKeyword? cs!"GOCAD Well" f with
  | none => exact Or.inr (Or.inl rfl)
  | some x =>
    dsimp only
    rcases GocadHeaders.header_refused x.2 with ⟨⟨name, f2⟩, hh⟩ | hh
    · rw [hh, Res.ok_bind]
      dsimp only
      rcases crs_cases f2 with ⟨⟨crs, f3⟩, hc⟩ | hc | ⟨hc, hl⟩
      · rw [hc, Res.ok_bind]
        dsimp only
        rcases goto_cases cs!"WREF" f3 with ⟨l, f4, e, _⟩ | ⟨e, _⟩
        · rw [e, Res.ok_bind]
          dsimp only
          by_cases h3 : ∃ p : Pt D, Three 1 l p
          · obtain ⟨p, hp⟩ := h3
            rw [coord_iff.2 hp, Res.ok_bind]
            rcases goto_cases cs!"PATH" f4 with ⟨l', f5, e', _⟩ | ⟨e', _⟩
            · rw [e', Res.ok_bind]
              dsimp only
              rcases paths_cases crs.zPos (⟨p.x, p.y, signed crs.zPos p.z⟩ : Pt D) f5 [⟨p.x, p.y, signed crs.zPos p.z⟩] with ⟨qs, hq⟩ | hq
              · exact Or.inl ⟨_, by rw [hq]; rfl⟩
              · exact Or.inr (Or.inl (by rw [hq]; rfl))
            · exact Or.inr (Or.inl (by rw [e']; rfl))
          · exact Or.inr (Or.inl (by rw [coord_else h3]; rfl))
        · exact Or.inr (Or.inl (by rw [e]; rfl))
      · exact Or.inr (Or.inl (by rw [hc]; rfl))
      · exact Or.inr (Or.inr ⟨by rw [hc]; rfl, x.1, x.2, name, f2, first_iff.1 hg, hh, hc, hl⟩)
    · exact Or.inr (Or.inl (by rw [hh]; rfl))

/-- A record that is not the first one of its run and does not have a word and three numbers makes the file refused. -/
theorem wl_bad_record [Add D] (f : File) (P : Parts f) {l : Str} (hl : l ∈ records P.rest) (hbad : ¬ ∃ p : Pt D, Three 2 l p) (w : Well D) :
    loadWl f ≠ .ok w := by
  intro h
  obtain ⟨Q, r, ts, h1, h2, _⟩ := (wl_loads_iff f w).1 h
  have e1 := Option.some.inj ((first_iff.2 P.titled).symm.trans (first_iff.2 Q.titled))
  have e2 := Res.ok.inj (P.header.symm.trans ((congrArg readHeader (Prod.mk.inj e1).2).trans Q.header))
  have e3 := Res.ok.inj (P.system.symm.trans ((congrArg readCrs (Prod.mk.inj e2).2).trans Q.system))
  have e4 := Option.some.inj ((first_iff.2 P.reference).symm.trans ((congrArg (gotoKeyword? cs!"WREF") (Prod.mk.inj e3).2).trans (first_iff.2 Q.reference)))
  have e5 := Option.some.inj ((first_iff.2 P.path).symm.trans ((congrArg (gotoKeyword? cs!"PATH") (Prod.mk.inj e4).2).trans (first_iff.2 Q.path)))
  rw [(Prod.mk.inj e5).2] at hl
  obtain ⟨i, hi⟩ := List.getElem?_of_mem hl
  have hi := List.getElem?_eq_some_iff.1 hi
  have h3 := (List.forall₂_iff_get.1 h2).2 i hi.1 (by rw [← h2.length_eq]; exact hi.1)
  have e : (records Q.rest).get ⟨i, hi.1⟩ = l := hi.2
  rw [e] at h3
  exact hbad ⟨_, h3⟩

/-- Every file with a record that does not have three numbers after its keyword and a word is refused. -/
def RecordsChecked : Prop := ∀ f : File, (∃ l ∈ f, (split l).head? = some cs!"PATH" ∧ ¬ ∃ p : Pt Int, Three 2 l p) → (loadWl f : Res (Well Int)) = .throw

/-- A well with the records of `well` and other lines. -/
def other (a b : File) : File := [cs!"GOCAD Well 1", cs!"HEADER {", cs!"}", cs!"WREF 1 2 3"] ++ a ++ [cs!"PATH 10 10 1 1", cs!"PATH 20 20 2 2", cs!"END"] ++ b

theorem other_first : (loadWl (other [cs!"PATH one two"] []) : Res (Well Int)) =
    .ok { points := [⟨1, 2, 3⟩, ⟨2, 3, 10⟩, ⟨3, 4, 20⟩], edges := [(0, 1), (1, 2)] } := by decide +kernel

/-- **The full statement is false**: the first record is not read, and those after the end of the run are not either. -/
theorem records_checked_fails : ¬ RecordsChecked := by
  intro h
  have := h (other [cs!"PATH one two"] []) ⟨cs!"PATH one two", by decide, by decide, by
    rintro ⟨p, pre, a, b, c, hs, hp, _⟩
    have : (split cs!"PATH one two").length = (pre ++ [a, b, c]).length := by rw [hs]
    rw [show split cs!"PATH one two" = [cs!"PATH", cs!"one", cs!"two"] from by decide] at this
    simp [hp] at this⟩
  rw [other_first] at this
  cases this

/-! Examples. -/

/-- A line starting with the keyword and other letters counts as the first record, so that no record is lost. -/
example : (loadWl (other [cs!"PATHS"] []) : Res (Well Int)) =
    .ok { points := [⟨1, 2, 3⟩, ⟨2, 3, 10⟩, ⟨3, 4, 20⟩], edges := [(0, 1), (1, 2)] } := by decide +kernel
example : (loadWl (other [] [cs!"PATH one two"]) : Res (Well Int)) = .ok { points := [⟨1, 2, 3⟩, ⟨3, 4, 20⟩], edges := [(0, 1)] } := by decide +kernel
/-- A record without its numbers after the first one. -/
example : (loadWl (other [cs!"PATH 1 1 1 1", cs!"PATH one two"] []) : Res (Well Int)) = .throw := by decide +kernel
/-- A reference with the kelly bushing elevation only. -/
example : (loadWl [cs!"GOCAD Well 1", cs!"HEADER {", cs!"}", cs!"WREF 3", cs!"PATH 1 1 1 1"] : Res (Well Int)) = .throw := by decide +kernel
/-- A blank line in the coordinate system. -/
example : (loadWl [cs!"GOCAD Well 1", cs!"HEADER {", cs!"}", cs!"GOCAD_ORIGINAL_COORDINATE_SYSTEM", cs!"", cs!"END_ORIGINAL_COORDINATE_SYSTEM"] :
    Res (Well Int)) = .ub := by decide +kernel
example : Three 2 cs!"PATH 10 20 1 1" (⟨20, 1, 1⟩ : Pt Int) := ⟨[cs!"PATH", cs!"10"], cs!"20", cs!"1", cs!"1", by decide, by decide, by decide, by decide, by decide⟩

end Verif.Props.WlOutcomes
