import Verif.Props.GocadTruncated

/-!
# Undefined behaviour on arbitrary text (C16)
-/

namespace Verif.Props.GocadUb

open Verif Verif.Gocad Verif.GocadMesh Verif.GocadCut Verif.Props.GocadTruncated

variable {D : Type} [Num D]

/-- C16: loading any text returns a mesh or raises an exception. -/
def NoUb : Prop :=
  (∀ f : File, (loadTS f : Res (Loaded Tri Int)) ≠ .ub) ∧ (∀ f : File, (loadVS f : Res (Loaded Empty Int)) ≠ .ub) ∧
    ∀ f : File, (loadPL f : Res (Loaded Edge Int)) ≠ .ub

/-- A blank line between two records. -/
theorem blank_line_ts :
    (loadTS [cs!"GOCAD TSurf 1", cs!"HEADER {", cs!"}", cs!"TFACE", cs!"VRTX 1 0 0 0", [], cs!"END"] : Res (Loaded Tri Int)) = .ub := by
  decide +kernel

theorem blank_line_vs :
    (loadVS [cs!"GOCAD VSet 1", cs!"HEADER {", cs!"}", cs!"VRTX 1 0 0 0", [], cs!"END"] : Res (Loaded Empty Int)) = .ub := by
  decide +kernel

theorem blank_line_pl :
    (loadPL [cs!"GOCAD PLine 1", cs!"HEADER {", cs!"}", cs!"ILINE", cs!"VRTX 1 0 0 0", [], cs!"END"] : Res (Loaded Edge Int)) = .ub := by
  decide +kernel

/-- A triangle that names a vertex the object does not have. -/
theorem dangling_triangle :
    (loadTS [cs!"GOCAD TSurf 1", cs!"HEADER {", cs!"}", cs!"TFACE", cs!"VRTX 1 0 0 0", cs!"TRGL 1 2 3", cs!"END"] : Res (Loaded Tri Int)) = .ub := by
  decide +kernel

/-- **C16 fails.** -/
theorem ub_reachable : ¬ NoUb := fun h => h.1 _ blank_line_ts

/-! ## The part that holds -/

/-- Number of tokens read without a check on a line that starts with this word. -/
def need (kw : Str) : Nat :=
  if kw = cs!"VRTX" ∨ kw = cs!"PVRTX" then 5
  else if kw = cs!"ATOM" ∨ kw = cs!"PATOM" then 3
  else if kw = cs!"TRGL" ∨ kw = cs!"BORDER" then 4
  else if kw = cs!"SEG" then 3
  else if kw = cs!"BSTONE" then 2
  else 1

/-- A complete line: not blank, enough words for its keyword, every quotation closed, a value after the keywords of the coordinate
system. -/
structure Complete (l : Str) : Prop where
  words : ∀ kw, (split l).head? = some kw → need kw ≤ (split l).length
  nonblank : split l ≠ []
  quotes : splitQuoted l ≠ .ub
  value : ∀ toks, splitQuoted l = .ok toks → toks.head? = some cs!"ZPOSITIVE" ∨ toks.head? = some cs!"PROJECTION" ∨
    toks.head? = some cs!"DATUM" ∨ toks.head? = some cs!"NAME" → 2 ≤ toks.length

theorem bind_ne_ub {α β : Type} {r : Res α} {k : α → Res β} (h : r ≠ .ub) (hk : ∀ a, r = .ok a → k a ≠ .ub) : (r >>= k) ≠ .ub := by
  cases r with
  | ok a => exact hk a rfl
  | throw => simp
  | ub => exact absurd rfl h
  | diverge => simp

theorem ofParse_ne_ub {α : Type} (o : Option α) : Res.ofParse o ≠ .ub := by cases o <;> simp [Res.ofParse]
theorem readIndex_ne_ub (s : Str) : readIndex s ≠ .ub := ofParse_ne_ub _
theorem readDouble_ne_ub (s : Str) : (readDouble s : Res D) ≠ .ub := ofParse_ne_ub _

theorem index_ne_ub {α : Type} {l : List α} {i : Nat} (h : i < l.length) : Res.index l i ≠ .ub := by
  rw [Res.index_of_lt h]; simp

theorem at_ne_ub {α : Type} (l : List α) (i : Nat) : Res.at_ l i ≠ .ub := by
  unfold Res.at_; split <;> simp

theorem readHeaderLoop_ne_ub (n : Option Str) (f : File) : readHeaderLoop n f ≠ .ub := by
  induction f generalizing n with
  | nil => simp [readHeaderLoop]
  | cons l ls ih =>
    rw [readHeaderLoop]
    split
    · simp
    · split <;> exact ih _

theorem readHeader_ne_ub (f : File) : readHeader f ≠ .ub := by
  unfold readHeader
  refine bind_ne_ub ?_ fun a _ => readHeaderLoop_ne_ub _ _
  cases f with
  | nil => simp [checkKeyword]
  | cons l ls => rw [checkKeyword]; split <;> simp

theorem mergeQuoted_ne_nil {t : Str} {ts toks : List Str} {o : Option Str} (h : mergeQuoted o (t :: ts) = .ok toks) : toks ≠ [] := by
  induction ts generalizing t o with
  | nil =>
    cases o with
    | none =>
      rw [mergeQuoted] at h
      split at h
      · simp [mergeQuoted] at h
      · simp [mergeQuoted] at h; rw [← h]; simp
    | some a =>
      rw [mergeQuoted] at h
      split at h
      · simp [mergeQuoted] at h; rw [← h]; simp
      · simp [mergeQuoted] at h
  | cons t' ts ih =>
    cases o with
    | none =>
      rw [mergeQuoted] at h
      split at h
      · exact ih h
      · obtain ⟨r, _, h⟩ := Res.bind_eq_ok.1 h
        simp only [Res.pure_eq, Res.ok.injEq] at h; rw [← h]; simp
    | some a =>
      rw [mergeQuoted] at h
      split at h
      · obtain ⟨r, _, h⟩ := Res.bind_eq_ok.1 h
        simp only [Res.pure_eq, Res.ok.injEq] at h; rw [← h]; simp
      · exact ih h

theorem crsLine_ne_ub {c : Crs} {l : Str} (h : Complete l) : crsLine c l ≠ .ub := by
  unfold crsLine
  refine bind_ne_ub h.quotes fun toks ht => ?_
  have hne : toks ≠ [] := by
    unfold splitQuoted at ht
    cases hs : split l with
    | nil => exact absurd hs h.nonblank
    | cons a b => rw [hs] at ht; exact mergeQuoted_ne_nil ht
  refine bind_ne_ub (index_ne_ub (List.length_pos_iff.2 hne)) fun t0 h0 => ?_
  have hhead : toks.head? = some t0 := by
    cases toks with
    | nil => exact absurd rfl hne
    | cons a b => simp [Res.index] at h0; simp [h0]
  have hv := h.value toks ht
  rw [hhead] at hv
  simp only [Option.some.injEq] at hv
  split
  · exact bind_ne_ub (index_ne_ub (hv (by simp_all))) fun _ _ => by simp
  · split
    · exact bind_ne_ub (index_ne_ub (hv (by simp_all))) fun _ _ => by simp
    · split
      · exact bind_ne_ub (index_ne_ub (hv (by simp_all))) fun _ _ => by simp
      · split
        · exact bind_ne_ub (index_ne_ub (hv (by simp_all))) fun _ _ => by simp
        · simp

theorem readCrsLoop_ne_ub {c : Crs} {f : File} (h : ∀ l ∈ f, Complete l) : readCrsLoop c f ≠ .ub := by
  induction f generalizing c with
  | nil => simp [readCrsLoop]
  | cons l ls ih =>
    rw [readCrsLoop]
    split
    · simp
    · exact bind_ne_ub (crsLine_ne_ub (h l (by simp))) fun c' _ => ih fun x hx => h x (by simp [hx])

theorem readCrs_ne_ub {f : File} (h : ∀ l ∈ f, Complete l) : readCrs f ≠ .ub := by
  unfold readCrs
  cases f with
  | nil => simp [nextKeyword?]
  | cons l ls =>
    rw [nextKeyword?]
    split
    · rename_i heq; simp
    · rename_i heq
      split at heq
      · simp only [Prod.mk.injEq, Option.some.injEq] at heq
        rw [← heq.2]
        exact readCrsLoop_ne_ub fun x hx => h x (by simp [hx])
      · simp at heq

theorem readPropHeader_plain {f : File} (h : ∀ l ∈ f, startsWith l cs!"PROPERTIES" = false) :
    (readPropHeader [] f : Res (PropHeader D × File)) = .ok ({}, f) := by
  cases f with
  | nil => rfl
  | cons l ls =>
    unfold readPropHeader
    rw [nextKeyword?]
    have : startsWith l ([] ++ cs!"PROPERTIES") = false := h l (by simp)
    rw [this]; rfl

theorem readPoint_ne_ub {z : Bool} {toks : List Str} (h : 5 ≤ toks.length) : (readPoint z toks : Res (Pt D)) ≠ .ub := by
  unfold readPoint
  refine bind_ne_ub (index_ne_ub (by omega)) fun _ _ => bind_ne_ub (readDouble_ne_ub _) fun _ _ => ?_
  refine bind_ne_ub (index_ne_ub (by omega)) fun _ _ => bind_ne_ub (readDouble_ne_ub _) fun _ _ => ?_
  refine bind_ne_ub (index_ne_ub (by omega)) fun _ _ => bind_ne_ub (readDouble_ne_ub _) fun _ _ => ?_
  simp

theorem firstId_ne_ub {b : Bool} {toks : List Str} {o : Nat} (h : 5 ≤ toks.length) :
    (if b = true then do readIndex (← Res.index toks 1) else pure o : Res Nat) ≠ .ub := by
  split
  · exact bind_ne_ub (index_ne_ub (by omega)) fun _ _ => readIndex_ne_ub _
  · simp

/-- The tokens of a complete line. -/
theorem Complete.len {l kw : Str} {args : List Str} (h : Complete l) (hs : split l = kw :: args) : need kw ≤ (kw :: args).length := by
  have := h.words kw (by rw [hs]; rfl)
  rwa [hs] at this

theorem tsLine_ne_ub {ts : TSurf D} {kw : Str} {args : List Str} (he : ts.props.esizes = []) (h : need kw ≤ (kw :: args).length) :
    tsLine ts kw (kw :: args) ≠ .ub := by
  unfold tsLine
  by_cases h1 : kw = cs!"VRTX" ∨ kw = cs!"PVRTX"
  · rw [if_pos h1]
    rw [need, if_pos h1] at h
    unfold tsVrtx
    refine bind_ne_ub (firstId_ne_ub h) fun _ _ => bind_ne_ub (readPoint_ne_ub h) fun _ _ => ?_
    rw [he]; simp [readProperties]
  · rw [if_neg h1]
    rw [need, if_neg h1] at h
    by_cases h2 : kw = cs!"ATOM" ∨ kw = cs!"PATOM"
    · rw [if_pos h2] at h ⊢
      unfold tsAtom
      refine bind_ne_ub (index_ne_ub (by omega)) fun _ _ => bind_ne_ub (readIndex_ne_ub _) fun _ _ => bind_ne_ub (at_ne_ub _ _) fun _ _ => ?_
      rw [he]; simp [readProperties]
    · rw [if_neg h2] at h ⊢
      by_cases h3 : kw = cs!"TRGL"
      · rw [if_pos (Or.inl h3)] at h
        rw [if_pos h3]
        unfold tsTrgl
        refine bind_ne_ub (index_ne_ub (by omega)) fun _ _ => bind_ne_ub (readIndex_ne_ub _) fun _ _ => ?_
        refine bind_ne_ub (index_ne_ub (by omega)) fun _ _ => bind_ne_ub (readIndex_ne_ub _) fun _ _ => ?_
        refine bind_ne_ub (index_ne_ub (by omega)) fun _ _ => bind_ne_ub (readIndex_ne_ub _) fun _ _ => ?_
        simp
      · rw [if_neg h3]
        by_cases h4 : kw = cs!"BSTONE"
        · rw [if_pos h4]
          have : need kw = 2 := by rw [h4]; decide
          have h' : 2 ≤ (kw :: args).length := by
            subst h4
            revert h; intro h; simpa using h
          unfold tsBstone
          refine bind_ne_ub (index_ne_ub (by omega)) fun _ _ => bind_ne_ub (readIndex_ne_ub _) fun _ _ => ?_
          simp
        · rw [if_neg h4]
          by_cases h5 : kw = cs!"BORDER"
          · rw [if_pos h5]
            rw [if_pos (Or.inr h5)] at h
            unfold tsBorder
            refine bind_ne_ub (index_ne_ub (by omega)) fun _ _ => bind_ne_ub (readIndex_ne_ub _) fun _ _ => ?_
            refine bind_ne_ub (index_ne_ub (by omega)) fun _ _ => bind_ne_ub (readIndex_ne_ub _) fun _ _ => ?_
            simp
          · rw [if_neg h5]
            split <;> simp

theorem tsLine_props {ts ts' : TSurf D} {kw : Str} {toks : List Str} (h : tsLine ts kw toks = .ok ts') : ts'.props = ts.props := by
  unfold tsLine at h
  split at h
  · unfold tsVrtx at h
    simp only [Res.bind_eq_ok, Res.pure_eq, Res.ok.injEq] at h
    obtain ⟨_, _, _, _, _, _, rfl⟩ := h; rfl
  · split at h
    · unfold tsAtom at h
      simp only [Res.bind_eq_ok, Res.pure_eq, Res.ok.injEq] at h
      obtain ⟨_, _, _, _, _, _, _, _, rfl⟩ := h; rfl
    · split at h
      · unfold tsTrgl at h
        simp only [Res.bind_eq_ok, Res.pure_eq, Res.ok.injEq] at h
        obtain ⟨_, _, _, _, _, _, _, _, _, _, _, _, rfl⟩ := h; rfl
      · split at h
        · unfold tsBstone at h
          simp only [Res.bind_eq_ok, Res.pure_eq, Res.ok.injEq] at h
          obtain ⟨_, _, _, _, rfl⟩ := h; rfl
        · split at h
          · unfold tsBorder at h
            simp only [Res.bind_eq_ok, Res.pure_eq, Res.ok.injEq] at h
            obtain ⟨_, _, _, _, _, _, _, _, rfl⟩ := h; rfl
          · split at h
            · simp only [Res.ok.injEq] at h; subst h; rfl
            · simp only [Res.ok.injEq] at h; subst h; rfl

theorem readTfacesLoop_ne_ub {ts : TSurf D} {f : File} (he : ts.props.esizes = []) (h : ∀ l ∈ f, Complete l) : readTfacesLoop ts f ≠ .ub := by
  induction f generalizing ts with
  | nil => simp [readTfacesLoop]
  | cons l ls ih =>
    have hl := h l (by simp)
    rw [readTfacesLoop]
    cases hs : split l with
    | nil => exact absurd hs hl.nonblank
    | cons kw args =>
      simp only
      split
      · simp
      · refine bind_ne_ub (tsLine_ne_ub he (hl.len hs)) fun ts' hts => ?_
        exact ih (by rw [tsLine_props hts, he]) fun x hx => h x (by simp [hx])

theorem readTfacesLoop_props {ts ts' : TSurf D} {f r : File} (h : readTfacesLoop ts f = .ok (ts', r)) : ts'.props = ts.props := by
  induction f generalizing ts with
  | nil => simp [readTfacesLoop] at h
  | cons l ls ih =>
    rw [readTfacesLoop] at h
    cases hs : split l with
    | nil => simp [hs] at h
    | cons kw args =>
      simp only [hs] at h
      split at h
      · simp only [Res.ok.injEq, Prod.mk.injEq] at h
        rw [← h.1]; rfl
      · obtain ⟨t, h1, h2⟩ := Res.bind_eq_ok.1 h
        rw [ih h2, tsLine_props h1]

/-- The lines of a file that has no property header. -/
def Plain (f : File) : Prop := ∀ l ∈ f, Complete l ∧ startsWith l cs!"PROPERTIES" = false

theorem Plain.suffix {f u r : File} (h : Plain f) (e : f = u ++ r) : Plain r := fun l hl => h l (by rw [e]; simp [hl])

theorem mem_of_goto {kw : Str} {f g : File} {l : Str} (h : gotoKeyword? kw f = some (l, g)) : ∃ u, f = u ++ g := by
  obtain ⟨pre, rfl, _, _⟩ := gotoKeyword?_some h
  exact ⟨pre ++ [l], by simp⟩

theorem gotoKeyword_ne_ub (kw : Str) (f : File) : gotoKeyword kw f ≠ .ub := ofParse_ne_ub _

theorem tsurfBody_ne_ub {f : File} (h : Plain f) : (tsurfBody f : Res (TSurf D × File)) ≠ .ub := by
  unfold tsurfBody
  refine bind_ne_ub (readHeader_ne_ub f) fun a ha => ?_
  obtain ⟨u1, e1⟩ := readHeader_cut.suffix ha
  have p1 := h.suffix e1
  refine bind_ne_ub (readCrs_ne_ub fun l hl => (p1 l hl).1) fun b hb => ?_
  obtain ⟨u2, e2⟩ := readCrs_cut.suffix hb
  have p2 := p1.suffix e2
  rw [readPropHeader_plain fun l hl => (p2 l hl).2]
  simp only [Res.ok_bind]
  unfold readTfaces
  refine bind_ne_ub (gotoKeyword_ne_ub _ _) fun c hc => ?_
  obtain ⟨u3, e3⟩ := (gotoKeyword_cut _).suffix hc
  exact readTfacesLoop_ne_ub rfl fun l hl => ((p2.suffix e3) l hl).1

theorem tsurfBody_plain {f r : File} {ts : TSurf D} (h : Plain f) (hb : tsurfBody f = .ok (ts, r)) : ts.props = {} := by
  unfold tsurfBody at hb
  obtain ⟨a, ha, k1⟩ := Res.bind_eq_ok.1 hb
  obtain ⟨u1, e1⟩ := readHeader_cut.suffix ha
  obtain ⟨b, hb', k2⟩ := Res.bind_eq_ok.1 k1
  obtain ⟨u2, e2⟩ := readCrs_cut.suffix hb'
  have p2 := (h.suffix e1).suffix e2
  rw [readPropHeader_plain fun l hl => (p2 l hl).2] at k2
  simp only [Res.ok_bind] at k2
  unfold readTfaces at k2
  obtain ⟨c, _, k3⟩ := Res.bind_eq_ok.1 k2
  rw [readTfacesLoop_props k3]

/-- The triangles of an object name vertices of that object. -/
def Closed (ts : TSurf D) : Prop :=
  ∀ t ∈ ts.triangles, t.1 < ts.points.length ∧ t.2.1 < ts.points.length ∧ t.2.2 < ts.points.length

theorem mapM'_ne_ub {α β : Type} {g : α → Res β} {l : List α} (h : ∀ a ∈ l, g a ≠ .ub) : Res.mapM' g l ≠ .ub := by
  induction l with
  | nil => simp [Res.mapM']
  | cons a l ih =>
    rw [Res.mapM']
    refine bind_ne_ub (h a (by simp)) fun _ _ => bind_ne_ub (ih fun x hx => h x (by simp [hx])) fun _ _ => by simp

theorem shift32_lt {o v n : Nat} (h : v < n) : shift32 o v < o + n := by
  unfold shift32
  exact Nat.lt_of_le_of_lt (Nat.mod_le _ _) (by omega)

omit [Num D] in
theorem buildSurface_ne_ub {m : Loaded Tri D} {ts : TSurf D} (hc : Closed ts) (hp : ts.props = {}) : buildSurface m ts ≠ .ub := by
  unfold buildSurface
  refine bind_ne_ub (mapM'_ne_ub fun t ht => ?_) fun tris _ => ?_
  · obtain ⟨h1, h2, h3⟩ := hc t ht
    unfold createTriangle
    rw [if_pos]
    · simp
    · rw [List.length_append]
      split
      · exact ⟨by omega, by omega, by omega⟩
      · exact ⟨shift32_lt h1, shift32_lt h2, shift32_lt h3⟩
  · rw [hp]; simp [createAttributes]

theorem loadTSLoop_ne_ub {n : Nat} {m : Loaded Tri D} {f : File} (h : Plain f)
    (hc : ∀ u g, f = u ++ g → ∀ ts r, readTSurf g = .ok (some ((ts : TSurf D), r)) → Closed ts) : loadTSLoop n m f ≠ .ub := by
  induction n generalizing m f with
  | zero => simp [loadTSLoop]
  | succ n ih =>
    rw [loadTSLoop]
    have hrd : (readTSurf f : Res (Option (TSurf D × File))) ≠ .ub := by
      rw [readTSurf_eq]
      cases hg : gotoKeyword? cs!"GOCAD TSurf" f with
      | none => simp
      | some lg =>
        obtain ⟨u, e⟩ := mem_of_goto (l := lg.1) (g := lg.2) hg
        exact bind_ne_ub (tsurfBody_ne_ub (h.suffix e)) fun _ _ => by simp
    refine bind_ne_ub hrd fun o ho => ?_
    cases o with
    | none => simp
    | some tr =>
      obtain ⟨ts, r⟩ := tr
      simp only
      have hcl := hc [] f rfl ts r ho
      rw [readTSurf_eq] at ho
      cases hg : gotoKeyword? cs!"GOCAD TSurf" f with
      | none => simp [hg] at ho
      | some lg =>
        simp only [hg] at ho
        obtain ⟨u, e⟩ := mem_of_goto (l := lg.1) (g := lg.2) hg
        obtain ⟨b, hb, ho⟩ := Res.bind_eq_ok.1 ho
        simp only [Res.ok.injEq, Option.some.injEq] at ho
        rw [ho] at hb
        obtain ⟨u2, e2⟩ := tsurfBody_cut.suffix hb
        refine bind_ne_ub (buildSurface_ne_ub hcl (tsurfBody_plain (h.suffix e) hb)) fun m' _ => ?_
        refine ih ((h.suffix e).suffix e2) fun u' g' e' => hc (u ++ u2 ++ u') g' ?_
        rw [e, e2, e']; simp

/-- **C16 for TSurf, partial.** The part that holds: a file whose lines are complete, which has no property header and whose
triangles only name existing vertices loads or raises an exception.  Missing: blank or short lines, unclosed quotations and dangling
triangles, for which the property is false (`ub_reachable`, `dangling_triangle`), and files with a property header. -/
theorem no_ub_ts_partial {f : File} (h : Plain f)
    (hc : ∀ u g, f = u ++ g → ∀ ts r, readTSurf g = .ok (some ((ts : TSurf D), r)) → Closed ts) :
    (loadTS f : Res (Loaded Tri D)) ≠ .ub := loadTSLoop_ne_ub h hc

/-! ### VSet -/

theorem vsLine_ne_ub {s : VSet D} {kw : Str} {args : List Str} (he : s.props.esizes = []) (h : need kw ≤ (kw :: args).length) :
    vsLine s kw (kw :: args) ≠ .ub := by
  unfold vsLine
  by_cases h1 : kw = cs!"VRTX" ∨ kw = cs!"PVRTX"
  · rw [if_neg (by rcases h1 with h | h <;> simp [h])]
    rw [need, if_pos h1] at h
    unfold vsVrtx
    refine bind_ne_ub (firstId_ne_ub h) fun _ _ => bind_ne_ub (readPoint_ne_ub h) fun _ _ => ?_
    rw [he]; simp [readProperties]
  · rw [if_pos (by rw [not_or] at h1; exact h1)]; simp

theorem vsLine_props {s s' : VSet D} {kw : Str} {toks : List Str} (h : vsLine s kw toks = .ok s') : s'.props = s.props := by
  unfold vsLine at h
  split at h
  · simp only [Res.ok.injEq] at h; rw [h]
  · unfold vsVrtx at h
    simp only [Res.bind_eq_ok, Res.pure_eq, Res.ok.injEq] at h
    obtain ⟨_, _, _, _, _, _, rfl⟩ := h; rfl

theorem readVSetLoop_ne_ub {s : VSet D} {f : File} (he : s.props.esizes = []) (h : ∀ l ∈ f, Complete l) : readVSetLoop s f ≠ .ub := by
  induction f generalizing s with
  | nil => simp [readVSetLoop]
  | cons l ls ih =>
    have hl := h l (by simp)
    rw [readVSetLoop]
    cases hs : split l with
    | nil => exact absurd hs hl.nonblank
    | cons kw args =>
      simp only
      split
      · simp
      · refine bind_ne_ub (vsLine_ne_ub he (hl.len hs)) fun ts' hts => ?_
        exact ih (by rw [vsLine_props hts, he]) fun x hx => h x (by simp [hx])

theorem readVSetLoop_props {s s' : VSet D} {f r : File} (h : readVSetLoop s f = .ok (s', r)) : s'.props = s.props := by
  induction f generalizing s with
  | nil => simp [readVSetLoop] at h
  | cons l ls ih =>
    rw [readVSetLoop] at h
    cases hs : split l with
    | nil => simp [hs] at h
    | cons kw args =>
      simp only [hs] at h
      split at h
      · simp only [Res.ok.injEq, Prod.mk.injEq] at h
        rw [← h.1]
      · obtain ⟨t, h1, h2⟩ := Res.bind_eq_ok.1 h
        rw [ih h2, vsLine_props h1]

theorem gotoKeywords_ne_ub (kws : List Str) (f : File) : gotoKeywords kws f ≠ .ub := by
  induction f with
  | nil => simp [gotoKeywords]
  | cons l ls ih => rw [gotoKeywords]; split <;> simp [ih]

theorem vsetBody_ne_ub {f : File} (h : Plain f) : (vsetBody f : Res (VSet D × File)) ≠ .ub := by
  unfold vsetBody
  refine bind_ne_ub (readHeader_ne_ub f) fun a ha => ?_
  obtain ⟨u1, e1⟩ := readHeader_cut.suffix ha
  have p1 := h.suffix e1
  refine bind_ne_ub (readCrs_ne_ub fun l hl => (p1 l hl).1) fun b hb => ?_
  obtain ⟨u2, e2⟩ := readCrs_cut.suffix hb
  have p2 := p1.suffix e2
  rw [readPropHeader_plain fun l hl => (p2 l hl).2]
  simp only [Res.ok_bind]
  unfold readVSetVertices
  refine bind_ne_ub (gotoKeywords_ne_ub _ _) fun c hc => ?_
  obtain ⟨u3, e3⟩ := gotoKeywords_suffix hc
  exact readVSetLoop_ne_ub rfl fun l hl => ((p2.suffix e3) l hl).1

theorem vsetBody_plain {f r : File} {s : VSet D} (h : Plain f) (hb : vsetBody f = .ok (s, r)) : s.props = {} := by
  unfold vsetBody at hb
  obtain ⟨a, ha, k1⟩ := Res.bind_eq_ok.1 hb
  obtain ⟨u1, e1⟩ := readHeader_cut.suffix ha
  obtain ⟨b, hb', k2⟩ := Res.bind_eq_ok.1 k1
  obtain ⟨u2, e2⟩ := readCrs_cut.suffix hb'
  have p2 := (h.suffix e1).suffix e2
  rw [readPropHeader_plain fun l hl => (p2 l hl).2] at k2
  simp only [Res.ok_bind] at k2
  unfold readVSetVertices at k2
  obtain ⟨c, _, k3⟩ := Res.bind_eq_ok.1 k2
  rw [readVSetLoop_props k3]

theorem loadVSLoop_ne_ub {n : Nat} {m : Loaded Empty D} {f : File} (h : Plain f) : loadVSLoop n m f ≠ .ub := by
  induction n generalizing m f with
  | zero => simp [loadVSLoop]
  | succ n ih =>
    rw [loadVSLoop]
    have hrd : (readVSet f : Res (Option (VSet D × File))) ≠ .ub := by
      rw [readVSet_eq]
      cases hg : gotoKeyword? cs!"GOCAD VSet" f with
      | none => simp
      | some lg =>
        obtain ⟨u, e⟩ := mem_of_goto (l := lg.1) (g := lg.2) hg
        exact bind_ne_ub (vsetBody_ne_ub (h.suffix e)) fun _ _ => by simp
    refine bind_ne_ub hrd fun o ho => ?_
    cases o with
    | none => simp
    | some tr =>
      obtain ⟨s, r⟩ := tr
      simp only
      rw [readVSet_eq] at ho
      cases hg : gotoKeyword? cs!"GOCAD VSet" f with
      | none => simp [hg] at ho
      | some lg =>
        simp only [hg] at ho
        obtain ⟨u, e⟩ := mem_of_goto (l := lg.1) (g := lg.2) hg
        obtain ⟨b, hb, ho⟩ := Res.bind_eq_ok.1 ho
        simp only [Res.ok.injEq, Option.some.injEq] at ho
        rw [ho] at hb
        obtain ⟨u2, e2⟩ := vsetBody_cut.suffix hb
        have hbd : buildPointSet m s ≠ .ub := by
          unfold buildPointSet
          rw [vsetBody_plain (h.suffix e) hb]; simp [createAttributes]
        exact bind_ne_ub hbd fun m' _ => ih ((h.suffix e).suffix e2)

/-- **C16 for VSet, partial.** Every file of complete lines without a property header loads or raises an exception. -/
theorem no_ub_vs_partial {f : File} (h : Plain f) : (loadVS f : Res (Loaded Empty D)) ≠ .ub := loadVSLoop_ne_ub h

/-! ### PLine -/

theorem plLine_ne_ub {s : ECurve D} {kw : Str} {args : List Str} (h : need kw ≤ (kw :: args).length) :
    plLine s kw (kw :: args) ≠ .ub := by
  unfold plLine
  by_cases h1 : kw = cs!"VRTX" ∨ kw = cs!"PVRTX"
  · rw [if_pos h1]
    rw [need, if_pos h1] at h
    unfold plVrtx
    refine bind_ne_ub (firstId_ne_ub h) fun _ _ => bind_ne_ub (readPoint_ne_ub h) fun _ _ => by simp
  · rw [if_neg h1]
    by_cases h2 : kw = cs!"SEG"
    · rw [if_pos h2]
      have h3 : 3 ≤ (kw :: args).length := by
        have e : need kw = 3 := by rw [h2]; decide
        omega
      unfold plSeg
      refine bind_ne_ub (index_ne_ub (by omega)) fun _ _ => bind_ne_ub (readIndex_ne_ub _) fun _ _ => ?_
      exact bind_ne_ub (index_ne_ub (by omega)) fun _ _ => bind_ne_ub (readIndex_ne_ub _) fun _ _ => by simp
    · rw [if_neg h2]; simp

theorem readIlinesLoop_ne_ub {s : ECurve D} {f : File} (h : ∀ l ∈ f, Complete l) : readIlinesLoop s f ≠ .ub := by
  induction f generalizing s with
  | nil => simp [readIlinesLoop]
  | cons l ls ih =>
    have hl := h l (by simp)
    rw [readIlinesLoop]
    cases hs : split l with
    | nil => exact absurd hs hl.nonblank
    | cons kw args =>
      simp only
      split
      · simp
      · exact bind_ne_ub (plLine_ne_ub (hl.len hs)) fun ts' hts => ih fun x hx => h x (by simp [hx])

theorem readIlinesLoop_suffix {s s' : ECurve D} {f r : File} (h : readIlinesLoop s f = .ok (s', r)) : ∃ u, f = u ++ r := by
  induction f generalizing s with
  | nil =>
    simp only [readIlinesLoop, Res.ok.injEq, Prod.mk.injEq] at h
    exact ⟨[], by rw [← h.2]; rfl⟩
  | cons l ls ih =>
    rw [readIlinesLoop] at h
    cases hs : split l with
    | nil => simp [hs] at h
    | cons kw args =>
      simp only [hs] at h
      split at h
      · simp only [Res.ok.injEq, Prod.mk.injEq] at h
        exact ⟨[l], by rw [← h.2]; rfl⟩
      · obtain ⟨t, h1, h2⟩ := Res.bind_eq_ok.1 h
        obtain ⟨u, rfl⟩ := ih h2
        exact ⟨l :: u, rfl⟩

theorem ecurveBody_ne_ub {f : File} (h : ∀ l ∈ f, Complete l) : (ecurveBody f : Res (ECurve D × File)) ≠ .ub := by
  unfold ecurveBody
  refine bind_ne_ub (readHeader_ne_ub f) fun a ha => ?_
  obtain ⟨u1, e1⟩ := readHeader_cut.suffix ha
  have p1 : ∀ l ∈ a.2, Complete l := fun l hl => h l (by rw [e1]; simp [hl])
  refine bind_ne_ub (readCrs_ne_ub p1) fun b hb => ?_
  obtain ⟨u2, e2⟩ := readCrs_cut.suffix hb
  unfold readIlines
  refine bind_ne_ub (gotoKeyword_ne_ub _ _) fun c hc => ?_
  obtain ⟨u3, e3⟩ := (gotoKeyword_cut _).suffix hc
  exact readIlinesLoop_ne_ub fun l hl => p1 l (by rw [e2, e3]; simp [hl])

theorem ecurveBody_suffix {f r : File} {ec : ECurve D} (h : ecurveBody f = .ok (ec, r)) : ∃ u, f = u ++ r := by
  unfold ecurveBody at h
  obtain ⟨a, ha, k1⟩ := Res.bind_eq_ok.1 h
  obtain ⟨u1, e1⟩ := readHeader_cut.suffix ha
  obtain ⟨b, hb, k2⟩ := Res.bind_eq_ok.1 k1
  obtain ⟨u2, e2⟩ := readCrs_cut.suffix hb
  unfold readIlines at k2
  obtain ⟨c, hc, k3⟩ := Res.bind_eq_ok.1 k2
  obtain ⟨u3, e3⟩ := (gotoKeyword_cut _).suffix hc
  obtain ⟨u4, e4⟩ := readIlinesLoop_suffix k3
  exact ⟨u1 ++ u2 ++ u3 ++ u4, by rw [e1, e2, e3, e4]; simp⟩

/-- The segments of an object name vertices of that object. -/
def ClosedE (ec : ECurve D) : Prop := ∀ e ∈ ec.edges, e.1 < ec.points.length ∧ e.2 < ec.points.length

theorem loadPLLoop_ne_ub {n : Nat} {m : Loaded Edge D} {f : File} (h : ∀ l ∈ f, Complete l)
    (hc : ∀ u g, f = u ++ g → ∀ ec r, readECurve g = .ok (some ((ec : ECurve D), r)) → ClosedE ec) : loadPLLoop n m f ≠ .ub := by
  induction n generalizing m f with
  | zero => simp [loadPLLoop]
  | succ n ih =>
    rw [loadPLLoop]
    have hrd : (readECurve f : Res (Option (ECurve D × File))) ≠ .ub := by
      rw [readECurve_eq]
      cases hg : gotoKeyword? cs!"GOCAD PLine" f with
      | none => simp
      | some lg =>
        obtain ⟨u, e⟩ := mem_of_goto (l := lg.1) (g := lg.2) hg
        exact bind_ne_ub (ecurveBody_ne_ub fun l hl => h l (by rw [e]; simp [hl])) fun _ _ => by simp
    refine bind_ne_ub hrd fun o ho => ?_
    cases o with
    | none => simp
    | some tr =>
      obtain ⟨ec, r⟩ := tr
      simp only
      have hcl := hc [] f rfl ec r ho
      rw [readECurve_eq] at ho
      cases hg : gotoKeyword? cs!"GOCAD PLine" f with
      | none => simp [hg] at ho
      | some lg =>
        simp only [hg] at ho
        obtain ⟨u, e⟩ := mem_of_goto (l := lg.1) (g := lg.2) hg
        obtain ⟨b, hb, ho⟩ := Res.bind_eq_ok.1 ho
        simp only [Res.ok.injEq, Option.some.injEq] at ho
        rw [ho] at hb
        obtain ⟨u2, e2⟩ := ecurveBody_suffix hb
        have hbd : buildCurve m ec ≠ .ub := by
          unfold buildCurve
          refine bind_ne_ub (mapM'_ne_ub fun x hx => ?_) fun _ _ => by simp
          obtain ⟨h1, h2⟩ := hcl x hx
          rw [if_pos]
          · simp
          · rw [List.length_append]
            exact ⟨shift32_lt h1, shift32_lt h2⟩
        refine bind_ne_ub hbd fun m' _ => ih (fun l hl => h l (by rw [e, e2]; simp [hl])) fun u' g' e' => hc (u ++ u2 ++ u') g' ?_
        rw [e, e2, e']; simp

/-- **C16 for PLine, partial.** -/
theorem no_ub_pl_partial {f : File} (h : ∀ l ∈ f, Complete l)
    (hc : ∀ u g, f = u ++ g → ∀ ec r, readECurve g = .ok (some ((ec : ECurve D), r)) → ClosedE ec) :
    (loadPL f : Res (Loaded Edge D)) ≠ .ub := loadPLLoop_ne_ub h hc

/-- Executable form of `Complete`, for the examples. -/
def completeB (l : Str) : Bool :=
  (match split l with
    | [] => false
    | kw :: args => decide (need kw ≤ (kw :: args).length)) &&
  (match splitQuoted l with
    | .ub => false
    | .ok toks => !((toks.head? == some cs!"ZPOSITIVE" || toks.head? == some cs!"PROJECTION" || toks.head? == some cs!"DATUM" ||
        toks.head? == some cs!"NAME") && decide (toks.length < 2))
    | _ => true)

theorem complete_of_bool {l : Str} (h : completeB l = true) : Complete l := by
  unfold completeB at h
  rw [Bool.and_eq_true] at h
  obtain ⟨h1, h2⟩ := h
  refine ⟨?_, ?_, ?_, ?_⟩
  · intro kw hk
    cases hs : split l with
    | nil => simp [hs] at hk
    | cons a b =>
      simp only [hs, decide_eq_true_eq] at h1
      simp only [hs, List.head?_cons, Option.some.injEq] at hk
      rw [← hk]; exact h1
  · intro hs; simp [hs] at h1
  · intro hq; simp [hq] at h2
  · intro toks ht hh
    simp only [ht] at h2
    rcases Nat.lt_or_ge toks.length 2 with hl | hl
    · rcases hh with hh | hh | hh | hh <;> simp [hh, hl] at h2
    · exact hl

/-- Complete lines with a broken number and keywords nobody knows: an exception. -/
def messy : File := [cs!"GOCAD VSet 1", cs!"HEADER {", cs!"name: \" a b\"", cs!"}", cs!"GOCAD_ORIGINAL_COORDINATE_SYSTEM",
  cs!"ZPOSITIVE Depth", cs!"END_ORIGINAL_COORDINATE_SYSTEM", cs!"WHATEVER", cs!"VRTX 1 0 0 0", cs!"?", cs!"VRTX 2 0 x 0", cs!"END"]

theorem plain_messy : Plain messy := by
  have h : ∀ l ∈ messy, completeB l = true ∧ startsWith l cs!"PROPERTIES" = false := by decide +kernel
  exact fun l hl => ⟨complete_of_bool (h l hl).1, (h l hl).2⟩

example : (loadVS messy : Res (Loaded Empty Int)) = .throw := by decide +kernel

end Verif.Props.GocadUb
