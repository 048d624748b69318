import Verif.Lemmas.GocadAttrs

/-! # Lemmas on building meshes from the objects of a file -/

set_option linter.unusedSectionVars false

namespace Verif.GocadMesh

open Verif Verif.Gocad

variable {D : Type} [Num D]

theorem gotoKeyword?_nil (kw : Str) : gotoKeyword? kw [] = none := rfl

/-! ## Termination: the readers only move forward -/

/-- The reader does not hang and returns a suffix that is not longer than `f`. -/
def Fwd {α : Type} (f : File) (r : Res (α × File)) : Prop :=
  r ≠ .diverge ∧ ∀ a f', r = .ok (a, f') → f'.length ≤ f.length

theorem Fwd.bind {α β : Type} {f : File} {r : Res (α × File)} {k : α × File → Res (β × File)} (h : Fwd f r)
    (hk : ∀ a f', f'.length ≤ f.length → Fwd f' (k (a, f'))) : Fwd f (r >>= k) := by
  cases r with
  | ok p =>
    obtain ⟨a, f'⟩ := p
    have hle := h.2 a f' rfl
    have := hk a f' hle
    rw [Res.ok_bind]
    exact ⟨this.1, fun b g e => Nat.le_trans (this.2 b g e) hle⟩
  | throw => exact ⟨by simp, by simp⟩
  | ub => exact ⟨by simp, by simp⟩
  | diverge => exact absurd rfl h.1

/-- A step that reads nothing. -/
theorem Fwd.bind_pure {α β : Type} {f : File} {r : Res α} {k : α → Res (β × File)} (h : r ≠ .diverge)
    (hk : ∀ a, Fwd f (k a)) : Fwd f (r >>= k) := by
  cases r with
  | ok a => rw [Res.ok_bind]; exact hk a
  | throw => exact ⟨by simp, by simp⟩
  | ub => exact ⟨by simp, by simp⟩
  | diverge => exact absurd rfl h

theorem Fwd.ok {α : Type} {f g : File} (a : α) (h : g.length ≤ f.length) : Fwd f (.ok (a, g) : Res (α × File)) :=
  ⟨by simp, fun _ _ e => by simp only [Res.ok.injEq, Prod.mk.injEq] at e; exact e.2 ▸ h⟩

theorem Fwd.throw {α : Type} {f : File} : Fwd f (.throw : Res (α × File)) := ⟨by simp, by simp⟩
theorem Fwd.ub {α : Type} {f : File} : Fwd f (.ub : Res (α × File)) := ⟨by simp, by simp⟩

theorem Fwd.mono {α : Type} {f g : File} {r : Res (α × File)} (h : Fwd g r) (hl : g.length ≤ f.length) : Fwd f r :=
  ⟨h.1, fun a f' e => Nat.le_trans (h.2 a f' e) hl⟩

theorem bind_ne_diverge {α β : Type} {r : Res α} {k : α → Res β} (h : r ≠ .diverge) (hk : ∀ a, k a ≠ .diverge) :
    r >>= k ≠ .diverge := by
  cases r with
  | ok a => rw [Res.ok_bind]; exact hk a
  | throw => simp
  | ub => simp
  | diverge => exact absurd rfl h

theorem index_ne_diverge {α : Type} (l : List α) (i : Nat) : Res.index l i ≠ .diverge := by
  unfold Res.index; split <;> simp

theorem at_ne_diverge {α : Type} (l : List α) (i : Nat) : Res.at_ l i ≠ .diverge := by
  unfold Res.at_; split <;> simp

theorem ofParse_ne_diverge {α : Type} (o : Option α) : Res.ofParse o ≠ .diverge := by
  cases o <;> simp [Res.ofParse]

theorem readIndex_ne_diverge (s : Str) : readIndex s ≠ .diverge := ofParse_ne_diverge _
theorem readDouble_ne_diverge (s : Str) : (readDouble s : Res D) ≠ .diverge := ofParse_ne_diverge _

theorem mapM'_ne_diverge {α β : Type} {f : α → Res β} {l : List α} (h : ∀ a, f a ≠ .diverge) : Res.mapM' f l ≠ .diverge := by
  induction l with
  | nil => simp [Res.mapM']
  | cons a as ih =>
    rw [Res.mapM']
    exact bind_ne_diverge (h a) fun b => bind_ne_diverge ih fun _ => by simp

theorem mergeQuoted_ne_diverge (o : Option Str) (ts : List Str) : mergeQuoted o ts ≠ .diverge := by
  induction ts generalizing o with
  | nil => cases o <;> simp [mergeQuoted]
  | cons t ts ih =>
    cases o with
    | none =>
      rw [mergeQuoted]; split
      · exact ih _
      · exact bind_ne_diverge (ih _) fun _ => by simp
    | some a =>
      rw [mergeQuoted]; split
      · exact bind_ne_diverge (ih _) fun _ => by simp
      · exact ih _

theorem splitQuoted_ne_diverge (s : Str) : splitQuoted s ≠ .diverge := mergeQuoted_ne_diverge _ _

theorem gotoKeyword?_length {kw : Str} {f : File} {l : Str} {g : File} (h : gotoKeyword? kw f = some (l, g)) :
    g.length < f.length := by
  induction f with
  | nil => simp [gotoKeyword?] at h
  | cons a f ih =>
    rw [gotoKeyword?] at h
    split at h
    · simp only [Option.some.injEq, Prod.mk.injEq] at h; rw [h.2]; simp
    · have := ih h; simp; omega

theorem gotoKeyword_fwd (kw : Str) (f : File) : Fwd f (gotoKeyword kw f) := by
  unfold gotoKeyword
  cases h : gotoKeyword? kw f with
  | none => exact Fwd.throw
  | some p => obtain ⟨l, g⟩ := p; exact Fwd.ok l (Nat.le_of_lt (gotoKeyword?_length h))

theorem gotoKeywords_fwd (kws : List Str) (f : File) {l : Str} {g : File} (h : gotoKeywords kws f = .ok (l, g)) :
    (l :: g).length ≤ f.length := by
  induction f with
  | nil => simp [gotoKeywords] at h
  | cons a f ih =>
    rw [gotoKeywords] at h
    split at h
    · simp only [Res.ok.injEq, Prod.mk.injEq] at h; rw [h.2]; simp
    · have := ih h; simp at *; omega

theorem gotoKeywords_ne_diverge (kws : List Str) (f : File) : gotoKeywords kws f ≠ .diverge := by
  induction f with
  | nil => simp [gotoKeywords]
  | cons a f ih =>
    rw [gotoKeywords]; split
    · simp
    · exact ih

theorem checkKeyword_length {kw : Str} {f g : File} (h : checkKeyword kw f = .ok g) : g.length ≤ f.length := by
  cases f with
  | nil => simp [checkKeyword] at h
  | cons a f =>
    rw [checkKeyword] at h
    split at h
    · simp only [Res.ok.injEq] at h; simp [h]
    · simp at h

theorem checkKeyword_ne_diverge (kw : Str) (f : File) : checkKeyword kw f ≠ .diverge := by
  cases f with
  | nil => simp [checkKeyword]
  | cons a f => rw [checkKeyword]; split <;> simp

theorem nextKeyword?_length (kw : Str) (f : File) : (nextKeyword? kw f).2.length ≤ f.length := by
  cases f with
  | nil => simp [nextKeyword?]
  | cons a f => rw [nextKeyword?]; split <;> simp

theorem readHeaderLoop_fwd (name : Option Str) (f : File) : Fwd f (readHeaderLoop name f) := by
  induction f generalizing name with
  | nil => exact Fwd.throw
  | cons l ls ih =>
    rw [readHeaderLoop]
    split
    · exact Fwd.ok _ (by simp)
    · split <;> exact (ih _).mono (by simp)

theorem readHeader_fwd (f : File) : Fwd f (readHeader f) := by
  unfold readHeader
  cases h : checkKeyword cs!"HEADER" f with
  | ok g => rw [Res.ok_bind]; exact (readHeaderLoop_fwd _ _).mono (checkKeyword_length h)
  | throw => exact Fwd.throw
  | ub => exact Fwd.ub
  | diverge => exact absurd h (checkKeyword_ne_diverge _ _)

theorem crsLine_ne_diverge (c : Crs) (l : Str) : crsLine c l ≠ .diverge := by
  unfold crsLine
  refine bind_ne_diverge (splitQuoted_ne_diverge _) fun toks => bind_ne_diverge (index_ne_diverge _ _) fun t0 => ?_
  repeat' split
  all_goals first
    | exact bind_ne_diverge (index_ne_diverge _ _) fun _ => by simp
    | simp

theorem readCrsLoop_fwd (c : Crs) (f : File) : Fwd f (readCrsLoop c f) := by
  induction f generalizing c with
  | nil => exact Fwd.throw
  | cons l ls ih =>
    rw [readCrsLoop]
    split
    · exact Fwd.ok _ (by simp)
    · exact Fwd.bind_pure (crsLine_ne_diverge _ _) fun c' => (ih c').mono (by simp)

theorem readCrs_fwd (f : File) : Fwd f (readCrs f) := by
  unfold readCrs
  have hl := nextKeyword?_length cs!"GOCAD_ORIGINAL_COORDINATE_SYSTEM" f
  split
  · next g e => rw [e] at hl; exact Fwd.ok _ hl
  · next g e => rw [e] at hl; exact (readCrsLoop_fwd _ _).mono hl

theorem takeN_ne_diverge (n : Nat) (ts : List Str) : takeN n ts ≠ .diverge := by
  induction ts generalizing n with
  | nil => cases n <;> simp [takeN]
  | cons t ts ih =>
    cases n with
    | zero => simp [takeN]
    | succ n => rw [takeN]; exact bind_ne_diverge (ih n) fun _ => by simp

theorem takePairs_ne_diverge (n : Nat) (ts : List Str) : takePairs n ts ≠ .diverge := by
  induction n generalizing ts with
  | zero => simp [takePairs]
  | succ n ih =>
    match ts with
    | [] => simp [takePairs]
    | [_] => simp [takePairs]
    | a :: b :: ts => rw [takePairs]; exact bind_ne_diverge (ih _) fun _ => by simp

theorem readOneString_fwd (kw : Str) (n : Nat) (f : File) : Fwd f (readOneString kw n f) := by
  unfold readOneString
  refine (gotoKeyword_fwd kw f).bind fun l f' _ => ?_
  exact Fwd.bind_pure (splitQuoted_ne_diverge _) fun _ => Fwd.bind_pure (takeN_ne_diverge _ _) fun _ => Fwd.ok _ (Nat.le_refl _)

theorem readTwoStrings_fwd (kw : Str) (n : Nat) (f : File) : Fwd f (readTwoStrings kw n f) := by
  unfold readTwoStrings
  refine (gotoKeyword_fwd kw f).bind fun l f' _ => ?_
  exact Fwd.bind_pure (takePairs_ne_diverge _ _) fun _ => Fwd.ok _ (Nat.le_refl _)

theorem readOneDouble_fwd (kw : Str) (n : Nat) (f : File) : Fwd f (readOneDouble kw n f : Res (List D × File)) := by
  unfold readOneDouble
  refine (gotoKeyword_fwd kw f).bind fun l f' _ => ?_
  exact Fwd.bind_pure (takeN_ne_diverge _ _) fun _ =>
    Fwd.bind_pure (mapM'_ne_diverge readDouble_ne_diverge) fun _ => Fwd.ok _ (Nat.le_refl _)

theorem readOneIndex_fwd (kw : Str) (n : Nat) (f : File) : Fwd f (readOneIndex kw n f) := by
  unfold readOneIndex
  refine (gotoKeyword_fwd kw f).bind fun l f' _ => ?_
  exact Fwd.bind_pure (takeN_ne_diverge _ _) fun _ =>
    Fwd.bind_pure (mapM'_ne_diverge readIndex_ne_diverge) fun _ => Fwd.ok _ (Nat.le_refl _)

theorem readPropHeader_fwd (pre : Str) (f : File) : Fwd f (readPropHeader pre f : Res (PropHeader D × File)) := by
  unfold readPropHeader
  have hl := nextKeyword?_length (pre ++ cs!"PROPERTIES") f
  split
  · next g e => rw [e] at hl; exact Fwd.ok _ hl
  · next line g e =>
    rw [e] at hl
    refine Fwd.mono ?_ hl
    refine Fwd.bind_pure (splitQuoted_ne_diverge _) fun toks => ?_
    dsimp only
    split
    · exact Fwd.ok _ (Nat.le_refl _)
    · refine (readTwoStrings_fwd _ _ _).bind fun _ _ _ => ?_
      refine (readOneDouble_fwd _ _ _).bind fun _ _ _ => ?_
      refine (readOneString_fwd _ _ _).bind fun _ _ _ => ?_
      refine (readOneString_fwd _ _ _).bind fun _ _ _ => ?_
      refine (readTwoStrings_fwd _ _ _).bind fun _ _ _ => ?_
      refine (readOneIndex_fwd _ _ _).bind fun _ _ _ => ?_
      refine (readOneString_fwd _ _ _).bind fun _ _ _ => ?_
      exact Fwd.ok _ (Nat.le_refl _)

theorem readItems_ne_diverge (e : Nat) (ts : List Str) : (readItems e ts : Res (List D × List Str)) ≠ .diverge := by
  induction e generalizing ts with
  | zero => simp [readItems]
  | succ e ih =>
    cases ts with
    | nil => simp [readItems]
    | cons t ts =>
      rw [readItems]
      exact bind_ne_diverge (readDouble_ne_diverge _) fun _ => bind_ne_diverge (ih _) fun p => by obtain ⟨a, b⟩ := p; simp

theorem readProperties_ne_diverge (es : List Nat) (cols : List (List D)) (ts : List Str) :
    readProperties es cols ts ≠ .diverge := by
  induction es generalizing cols ts with
  | nil => simp [readProperties]
  | cons e es ih =>
    cases cols with
    | nil => simp [readProperties]
    | cons c cols =>
      rw [readProperties]
      refine bind_ne_diverge (readItems_ne_diverge _ _) fun p => ?_
      obtain ⟨a, b⟩ := p
      exact bind_ne_diverge (ih _ _) fun _ => by simp

theorem readPoint_ne_diverge (z : Bool) (ts : List Str) : (readPoint z ts : Res (Pt D)) ≠ .diverge := by
  unfold readPoint
  exact bind_ne_diverge (index_ne_diverge _ _) fun _ => bind_ne_diverge (readDouble_ne_diverge _) fun _ =>
    bind_ne_diverge (index_ne_diverge _ _) fun _ => bind_ne_diverge (readDouble_ne_diverge _) fun _ =>
    bind_ne_diverge (index_ne_diverge _ _) fun _ => bind_ne_diverge (readDouble_ne_diverge _) fun _ => by simp

theorem firstId_ne_diverge (b : Bool) (ts : List Str) (o : Nat) :
    (if b = true then do readIndex (← Res.index ts 1) else pure o : Res Nat) ≠ .diverge := by
  split
  · exact bind_ne_diverge (index_ne_diverge _ _) fun _ => readIndex_ne_diverge _
  · simp

theorem tsLine_ne_diverge (ts : TSurf D) (kw : Str) (toks : List Str) : tsLine ts kw toks ≠ .diverge := by
  unfold tsLine
  repeat' split
  · unfold tsVrtx
    exact bind_ne_diverge (firstId_ne_diverge _ _ _) fun _ => bind_ne_diverge (readPoint_ne_diverge _ _) fun _ =>
      bind_ne_diverge (readProperties_ne_diverge _ _ _) fun _ => by simp
  · unfold tsAtom
    exact bind_ne_diverge (index_ne_diverge _ _) fun _ => bind_ne_diverge (readIndex_ne_diverge _) fun _ =>
      bind_ne_diverge (at_ne_diverge _ _) fun _ => bind_ne_diverge (readProperties_ne_diverge _ _ _) fun _ => by simp
  · unfold tsTrgl
    exact bind_ne_diverge (index_ne_diverge _ _) fun _ => bind_ne_diverge (readIndex_ne_diverge _) fun _ =>
      bind_ne_diverge (index_ne_diverge _ _) fun _ => bind_ne_diverge (readIndex_ne_diverge _) fun _ =>
      bind_ne_diverge (index_ne_diverge _ _) fun _ => bind_ne_diverge (readIndex_ne_diverge _) fun _ => by simp
  · unfold tsBstone
    exact bind_ne_diverge (index_ne_diverge _ _) fun _ => bind_ne_diverge (readIndex_ne_diverge _) fun _ => by simp
  · unfold tsBorder
    exact bind_ne_diverge (index_ne_diverge _ _) fun _ => bind_ne_diverge (readIndex_ne_diverge _) fun _ =>
      bind_ne_diverge (index_ne_diverge _ _) fun _ => bind_ne_diverge (readIndex_ne_diverge _) fun _ => by simp
  all_goals simp

theorem readTfacesLoop_fwd (ts : TSurf D) (f : File) : Fwd f (readTfacesLoop ts f) := by
  induction f generalizing ts with
  | nil => exact Fwd.throw
  | cons l ls ih =>
    rw [readTfacesLoop]
    split
    · exact Fwd.ub
    · split
      · exact Fwd.ok _ (by simp)
      · exact Fwd.bind_pure (tsLine_ne_diverge _ _ _) fun t => (ih t).mono (by simp)

theorem readTfaces_fwd (ts : TSurf D) (f : File) : Fwd f (readTfaces ts f) := by
  unfold readTfaces
  exact (gotoKeyword_fwd _ _).bind fun _ _ _ => readTfacesLoop_fwd _ _

/-- Reading the optional next object does not hang, and consumes at least a line when it finds one. -/
def FwdObj {α : Type} (f : File) (r : Res (Option (α × File))) : Prop :=
  r ≠ .diverge ∧ ∀ a f', r = .ok (some (a, f')) → f'.length < f.length

theorem FwdObj.of_fwd {α : Type} {f g : File} {r : Res (α × File)} (h : Fwd g r) (hl : g.length < f.length) :
    FwdObj f (r >>= fun p => pure (some p)) := by
  cases r with
  | ok p =>
    obtain ⟨a, f'⟩ := p
    have := h.2 a f' rfl
    refine ⟨by simp, fun b g' e => ?_⟩
    simp only [Res.ok_bind, Res.pure_eq, Res.ok.injEq, Option.some.injEq, Prod.mk.injEq] at e
    rw [← e.2]; omega
  | throw => exact ⟨by simp, by simp⟩
  | ub => exact ⟨by simp, by simp⟩
  | diverge => exact absurd rfl h.1

theorem readTSurf_fwd (f : File) : FwdObj f (readTSurf f : Res (Option (TSurf D × File))) := by
  unfold readTSurf
  split
  · exact ⟨by simp, by simp⟩
  · next l g e =>
    have hl := gotoKeyword?_length e
    have : Fwd g (do
        let (name, f) ← readHeader g
        let (crs, f) ← readCrs f
        let (props, f) ← (readPropHeader [] f : Res (PropHeader D × File))
        readTfaces { name, crs, props, attrs := props.names.map (fun _ => []) } f) :=
      (readHeader_fwd g).bind fun _ _ _ => (readCrs_fwd _).bind fun _ _ _ => (readPropHeader_fwd _ _).bind fun _ _ _ =>
        readTfaces_fwd _ _
    have h2 := FwdObj.of_fwd this hl
    simpa only [Res.bind_assoc'] using h2

end Verif.GocadMesh
