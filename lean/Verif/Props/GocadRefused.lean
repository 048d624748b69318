import Verif.Props.HeadersRefused
import Verif.Props.MlRefused

/-!
# C172: the `.pl`, `.vs`, `.ts` and `.wl` files that do not load

For every file, when loading has undefined behaviour; all other files that do not load are refused with an exception.
Theorems about `Model.Gocad` and `Model.GocadMesh`.
-/

namespace Verif.Props.GocadRefused

open Verif Verif.Gocad Verif.GocadMesh Res
open Verif.Props.WlOutcomes (First first_iff goto_iff)
open Verif.Props.CurveOutcomes (key isVertex isSegment isEnd Until UntilEnd Number isEnd_of isVertex_of isSegment_of)
open Verif.Props.LsoRefused (Short short_step IsReal IsIndex readIndex_ne readDouble_ne gotoKeyword_ne point_ub properties_ne)
open Verif.Props.HeadersRefused (BadSystem crs_ub_iff BadHeader header_ub_iff)
open Verif.Props.PointSetOutcomes (Filled header_lengths)

variable {D : Type} [Num D]

/-! ## Lines read one by one, up to a line `END` -/

/-- A line that is neither blank nor the end. -/
def Inside (l : Str) : Prop := split l ≠ [] ∧ isEnd l = false

section loops

variable {S : Type} {line : S → Str → Res S} {close : S → S} {loop : S → File → Res (S × File)}

/-- A loop that reads lines. -/
structure IsLoop (line : S → Str → Res S) (close : S → S) (loop : S → File → Res (S × File)) : Prop where
  nil : ∀ s, loop s [] ≠ .ub
  blank : ∀ s l ls, split l = [] → loop s (l :: ls) = .ub
  ends : ∀ s l ls, isEnd l = true → loop s (l :: ls) = .ok (close s, ls)
  cons : ∀ s l ls, Inside l → loop s (l :: ls) = line s l >>= fun s' => loop s' ls

theorem loop_ub (hl : IsLoop line close loop) (s : S) (f : File) : loop s f = .ub ↔
    ∃ pre l post s', f = pre ++ l :: post ∧ (∀ x ∈ pre, Inside x) ∧ Res.foldM' line s pre = .ok s' ∧ (split l = [] ∨ (Inside l ∧ line s' l = .ub)) := by
  induction f generalizing s with
  | nil => exact ⟨fun h => absurd h (hl.nil s), fun ⟨pre, l, post, _, e, _⟩ => (by simp at e)⟩
  | cons a f ih =>
    by_cases hb : split a = []
    · rw [hl.blank s a f hb]
      exact ⟨fun _ => ⟨[], a, f, s, rfl, by simp, rfl, .inl hb⟩, fun _ => rfl⟩
    · cases he : isEnd a with
      | true =>
        rw [hl.ends s a f he]
        refine ⟨fun h => (by cases h), ?_⟩
        rintro ⟨pre, l, post, s', e, h1, -, h3⟩
        cases pre with
        | nil =>
          obtain ⟨rfl, rfl⟩ := List.cons.inj e
          rcases h3 with h3 | ⟨h3, -⟩
          · exact absurd h3 hb
          · rw [h3.2] at he; cases he
        | cons x pre =>
          have := (h1 x List.mem_cons_self).2
          rw [← (List.cons.inj e).1, he] at this
          cases this
      | false =>
        rw [hl.cons s a f ⟨hb, he⟩, bind_ub]
        constructor
        · rintro (h | ⟨s1, h1, h⟩)
          · exact ⟨[], a, f, s, rfl, by simp, rfl, .inr ⟨⟨hb, he⟩, h⟩⟩
          · obtain ⟨pre, l, post, s', rfl, h2, h3, h4⟩ := (ih s1).1 h
            refine ⟨a :: pre, l, post, s', rfl, ?_, by rw [foldM'_cons, h1, ok_bind, h3], h4⟩
            intro x hx
            rcases List.mem_cons.1 hx with rfl | hx
            · exact ⟨hb, he⟩
            · exact h2 x hx
        · rintro ⟨pre, l, post, s', e, h2, h3, h4⟩
          cases pre with
          | nil =>
            obtain ⟨rfl, rfl⟩ := List.cons.inj e
            cases h3
            rcases h4 with h4 | ⟨-, h4⟩
            · exact absurd h4 hb
            · exact .inl h4
          | cons x pre =>
            obtain ⟨rfl, rfl⟩ := List.cons.inj e
            rw [foldM'_cons] at h3
            obtain ⟨s1, h5, h3⟩ := bind_eq_ok.1 h3
            exact .inr ⟨s1, h5, (ih s1).2 ⟨pre, l, post, s', rfl, fun y hy => h2 y (List.mem_cons_of_mem _ hy), h3, h4⟩⟩

/-- The lines that are read, as if the object ended there. -/
theorem loop_prefix (hl : IsLoop line close loop) (s : S) (pre : File) (hp : ∀ x ∈ pre, Inside x) (t : S) : loop s (pre ++ [cs!"END"]) = .ok (t, []) ↔
    ∃ s', Res.foldM' line s pre = .ok s' ∧ t = close s' := by
  induction pre generalizing s with
  | nil =>
    rw [List.nil_append, hl.ends s _ [] (by decide), foldM'_nil]
    constructor
    · intro h
      cases h
      exact ⟨s, rfl, rfl⟩
    · rintro ⟨s', h, rfl⟩
      cases h
      rfl
  | cons a pre ih =>
    have ih := fun s => ih s fun x hx => hp x (List.mem_cons_of_mem _ hx)
    rw [List.cons_append, hl.cons s a _ (hp a List.mem_cons_self), foldM'_cons]
    constructor
    · intro h
      obtain ⟨s1, h1, h⟩ := bind_eq_ok.1 h
      obtain ⟨s', h2, h3⟩ := (ih s1).1 h
      exact ⟨s', by rw [h1, ok_bind, h2], h3⟩
    · rintro ⟨s', h, h3⟩
      obtain ⟨s1, h1, h2⟩ := bind_eq_ok.1 h
      rw [h1, ok_bind]
      exact (ih s1).2 ⟨s', h2, h3⟩

end loops

theorem until_prefix {pre : File} (hp : ∀ x ∈ pre, Inside x) : Until (pre ++ [cs!"END"]) pre [] := ⟨hp, _, rfl, by decide⟩

theorem until_unique {f b b' r r' : File} (h : Until f b r) (h' : Until f b' r') : b = b' ∧ r = r' := by
  induction f generalizing b b' with
  | nil => obtain ⟨_, e, he, _⟩ := h; simp at he
  | cons l ls ih =>
    cases he : isEnd l with
    | true =>
      obtain ⟨rfl, rfl⟩ := (PointSetOutcomes.until_end he).1 h
      obtain ⟨rfl, rfl⟩ := (PointSetOutcomes.until_end he).1 h'
      exact ⟨rfl, rfl⟩
    | false =>
      obtain ⟨c, rfl⟩ := PointSetOutcomes.until_shape he h
      obtain ⟨c', rfl⟩ := PointSetOutcomes.until_shape he h'
      have hb := (h.1 l List.mem_cons_self).1
      obtain ⟨rfl, rfl⟩ := ih ((PointSetOutcomes.until_cons hb he).1 h) ((PointSetOutcomes.until_cons hb he).1 h')
      exact ⟨rfl, rfl⟩

/-! ## The line of a vertex -/

/-- A coordinate is missing, the words before it being numbers; that of the number of the vertex is read only in the first one. -/
def BadVertex (D : Type) [Num D] (first : Prop) (l : Str) : Prop :=
  Short (IsReal D) (split l) 2 3 ∧ (first → ∀ w, (split l)[1]? = some w → IsIndex w)

/-- Reading the number of the first vertex, then the coordinates and the values. -/
theorem vertex_ub {A : Type} {ps : List (Pt D)} {o : Nat} {up : Bool} {l : Str} (next : Nat → Pt D → Res A) (hn : ∀ o p, next o p ≠ .ub) :
    ((if ps.isEmpty then (Res.index (split l) 1 >>= fun w => readIndex w) else pure o : Res Nat) >>= fun o => readPoint up (split l) >>= fun p => next o p) = .ub ↔
      BadVertex D (ps = []) l := by
  have hp : ∀ o, (readPoint up (split l) >>= fun p => next o p) = .ub ↔ Short (IsReal D) (split l) 2 3 := by
    intro o
    rw [bind_ub, point_ub]
    exact ⟨fun h => h.elim id fun ⟨p, _, h⟩ => absurd h (hn o p), .inl⟩
  unfold BadVertex
  cases ps with
  | cons q qs =>
    simp only [List.isEmpty_cons, Bool.false_eq_true, if_false, pure_eq, ok_bind, hp]
    simp
  | nil =>
    simp only [List.isEmpty_nil, if_true, true_implies]
    rw [bind_ub, bind_ub, index_ub_iff]
    constructor
    · rintro ((h | ⟨w, _, h⟩) | ⟨n, h, h'⟩)
      · refine ⟨⟨by omega, ?_⟩, ?_⟩
        · rw [List.drop_eq_nil_of_le (by omega)]
          simp
        · rw [List.getElem?_eq_none h]
          simp
      · exact absurd h readIndex_ne.1
      · obtain ⟨w, h1, h2⟩ := bind_eq_ok.1 h
        refine ⟨(hp n).1 h', fun w' hw => ?_⟩
        rw [index_eq_ok.1 h1] at hw
        cases hw
        exact ⟨n, PropHeaders.readIndex_ok.1 h2⟩
    · rintro ⟨h1, h2⟩
      by_cases hl : (split l).length ≤ 1
      · exact .inl (.inl hl)
      · have hw := List.getElem?_eq_getElem (l := split l) (i := 1) (by omega)
        obtain ⟨n, h⟩ := h2 _ hw
        exact .inr ⟨n, bind_eq_ok.2 ⟨_, index_eq_ok.2 hw, PropHeaders.readIndex_ok.2 h⟩, (hp n).2 h1⟩

/-- Whole numbers, one after the other. -/
theorem index_step {A : Type} {ws : List Str} {k n : Nat} (r : Nat → Res A) (hr : k < ws.length → ∀ i, r i = .ub ↔ Short IsIndex ws (k + 1) n) :
    ((Res.index ws k >>= fun w => readIndex w >>= r) = .ub ↔ Short IsIndex ws k (n + 1)) := by
  rw [short_step, bind_ub, index_ub_iff]
  refine or_congr Iff.rfl ?_
  constructor
  · rintro ⟨w, h1, h⟩
    rcases bind_ub.1 h with h | ⟨x, h2, h⟩
    · exact absurd h readIndex_ne.1
    · exact ⟨w, index_eq_ok.1 h1, ⟨x, PropHeaders.readIndex_ok.1 h2⟩, (hr (List.getElem?_eq_some_iff.1 (index_eq_ok.1 h1)).1 x).1 h⟩
  · rintro ⟨w, h1, ⟨x, h2⟩, h3⟩
    exact ⟨w, index_eq_ok.2 h1, by rw [PropHeaders.readIndex_ok.2 h2, ok_bind]; exact (hr (List.getElem?_eq_some_iff.1 h1).1 x).2 h3⟩

theorem index_last {A : Type} {ws : List Str} {k : Nat} (r : Nat → Res A) (hr : ∀ i, r i ≠ .ub) :
    k < ws.length → ∀ i, r i = .ub ↔ Short IsIndex ws (k + 1) 0 := by
  intro hk i
  refine ⟨fun h => absurd h (hr i), fun h => ?_⟩
  have := h.1
  omega

/-! ## Curves -/

section curves

open Verif.Props.CurveOutcomes

/-- A line of a curve with which reading has undefined behaviour. -/
def CurveLine (D : Type) [Num D] (first : Prop) (l : Str) : Prop :=
  split l = [] ∨ (isVertex l = true ∧ BadVertex D first l) ∨ (isSegment l = true ∧ Short IsIndex (split l) 1 2)

/-- The lines before it are read. -/
def CurveLines (D : Type) [Num D] (up : Bool) (f : File) : Prop :=
  ∃ pre l post, ∃ (ps : List (Pt D)) (es : List (Nat × Nat)), f = pre ++ l :: post ∧ (∀ x ∈ pre, Inside x) ∧ Body up pre ps es ∧ CurveLine D (ps = []) l

/-- Reading a line. -/
def curveStep (ec : ECurve D) (l : Str) : Res (ECurve D) := plLine ec ((split l).headD []) (split l)

theorem curve_loop : IsLoop (curveStep (D := D)) id readIlinesLoop where
  nil s := by rw [readIlinesLoop]; simp
  blank s l ls h := by rw [readIlinesLoop, h]
  ends s l ls h := by
    cases hs : split l with
    | nil => simp [isEnd, key, hs] at h
    | cons k args => rw [readIlinesLoop, hs]; dsimp only; rw [if_pos ((isEnd_of hs).1 h)]; rfl
  cons s l ls h := by
    cases hs : split l with
    | nil => exact absurd hs h.1
    | cons k args =>
      rw [readIlinesLoop, curveStep, hs]
      dsimp only
      rw [if_neg fun hk => by have := (isEnd_of hs).2 hk; rw [h.2] at this; cases this]
      rfl

theorem curveStep_eq {ec : ECurve D} {l k : Str} {args : List Str} (hs : split l = k :: args) : curveStep ec l = plLine ec k (k :: args) := by
  rw [curveStep, hs, List.headD_cons]

theorem curveStep_ub {ec : ECurve D} {l : Str} (hi : split l ≠ []) : curveStep ec l = .ub ↔ CurveLine D (ec.points = []) l := by
  unfold CurveLine
  simp only [hi, false_or]
  cases hs : split l with
  | nil => exact absurd hs hi
  | cons k args =>
    rw [curveStep_eq hs, plLine, ← hs]
    cases hv : isVertex l with
    | true =>
      have hg : isSegment l = false := by
        cases hg : isSegment l with
        | false => rfl
        | true => rw [segment_not_vertex hg] at hv; cases hv
      rw [if_pos ((isVertex_of hs).1 hv), plVrtx, hg]
      simp only [true_and, Bool.false_eq_true, false_and, or_false]
      exact vertex_ub _ (by simp)
    | false =>
      rw [if_neg fun h => by rw [(isVertex_of hs).2 h] at hv; cases hv]
      simp only [Bool.false_eq_true, false_and, false_or]
      cases hg : isSegment l with
      | true =>
        rw [if_pos ((isSegment_of hs).1 hg), plSeg]
        simp only [true_and]
        exact index_step _ fun _ i => index_step _ (index_last _ (by simp))
      | false =>
        rw [if_neg fun h => by rw [(isSegment_of hs).2 h] at hg; cases hg]
        simp

theorem untilEnd_prefix {pre body : File} (hp : ∀ x ∈ pre, Inside x) : UntilEnd (pre ++ [cs!"END"]) body [] ↔ body = pre := by
  constructor
  · rintro ⟨h1, ⟨rfl, -⟩ | h2⟩
    · have := (h1 cs!"END" (by simp)).2
      exact absurd this (by decide)
    · exact (until_unique ⟨h1, h2⟩ (until_prefix hp)).1
  · rintro rfl
    exact ⟨hp, .inr (until_prefix hp).2⟩

theorem curve_prefix (ec : ECurve D) (hp : ec.points = []) (ho : ec.offset = 1) {pre : File} (hi : ∀ x ∈ pre, Inside x) (ps : List (Pt D)) :
    (∃ s, Res.foldM' curveStep ec pre = .ok s ∧ s.points = ps) ↔ ∃ es, Body ec.crs.zPos pre ps es := by
  constructor
  · rintro ⟨s, h, rfl⟩
    have h1 := (loop_prefix curve_loop ec pre hi s).2 ⟨s, h, rfl⟩
    obtain ⟨o, ps, es, rfl⟩ := loop_shape _ _ h1
    simp only [hp, List.nil_append] at h1 ⊢
    obtain ⟨body, h2, h3⟩ := (loop_iff _ ec hp ho (ps := ps) (es := es) (rest := [])).1 ⟨o, h1⟩
    rw [untilEnd_prefix hi] at h2
    exact ⟨es, h2 ▸ h3⟩
  · rintro ⟨es, h⟩
    obtain ⟨o, h1⟩ := (loop_iff _ ec hp ho (ps := ps) (es := es) (rest := [])).2 ⟨pre, (untilEnd_prefix hi).2 rfl, h⟩
    obtain ⟨s, h2, h3⟩ := (loop_prefix curve_loop ec pre hi _).1 h1
    exact ⟨s, h2, by rw [show s = _ from h3.symm]⟩

theorem curveLines_iff (ec : ECurve D) (hp : ec.points = []) (ho : ec.offset = 1) (f : File) : readIlinesLoop ec f = .ub ↔ CurveLines D ec.crs.zPos f := by
  rw [loop_ub curve_loop]
  constructor
  · rintro ⟨pre, l, post, s, rfl, h1, h2, h3⟩
    obtain ⟨es, hb⟩ := (curve_prefix ec hp ho h1 s.points).1 ⟨s, h2, rfl⟩
    refine ⟨pre, l, post, s.points, es, rfl, h1, hb, ?_⟩
    rcases h3 with h3 | ⟨h3, h4⟩
    · exact .inl h3
    · exact (curveStep_ub h3.1).1 h4
  · rintro ⟨pre, l, post, ps, es, rfl, h1, hb, h3⟩
    obtain ⟨s, h2, rfl⟩ := (curve_prefix ec hp ho h1 ps).2 ⟨es, hb⟩
    refine ⟨pre, l, post, s, rfl, h1, h2, ?_⟩
    by_cases hs : split l = []
    · exact .inl hs
    · refine .inr ⟨⟨hs, ?_⟩, (curveStep_ub hs).2 h3⟩
      rcases h3 with h3 | ⟨h3, -⟩ | ⟨h3, -⟩
      · exact absurd h3 hs
      · revert h3
        unfold isVertex isEnd
        cases key l with
        | none => simp
        | some k => by_cases hk : k = cs!"END" <;> simp [hk]
      · revert h3
        unfold isSegment isEnd
        cases key l with
        | none => simp
        | some k => by_cases hk : k = cs!"END" <;> simp [hk]

/-- The files with which loading has undefined behaviour, after `k` vertices: an object has a line of its coordinate system that cannot be read, or a line without the
words it needs, or a segment whose ends are not loaded; those before it are loaded. -/
inductive BadCurves (D : Type) [Num D] : Nat → File → Prop
  | system {k f title f1 name f2} (h1 : First cs!"GOCAD PLine" f title f1) (h2 : readHeader f1 = .ok (name, f2)) (h3 : BadSystem f2) : BadCurves D k f
  | line {k f title f1 name f2 crs f3 iline f4} (h1 : First cs!"GOCAD PLine" f title f1) (h2 : readHeader f1 = .ok (name, f2)) (h3 : readCrs f2 = .ok (crs, f3))
      (h4 : First cs!"ILINE" f3 iline f4) (h5 : CurveLines D crs.zPos f4) : BadCurves D k f
  | segment {k f title f1 name f2 crs f3 iline f4 body rest} {ps : List (Pt D)} {es : List (Nat × Nat)} (h1 : First cs!"GOCAD PLine" f title f1)
      (h2 : readHeader f1 = .ok (name, f2)) (h3 : readCrs f2 = .ok (crs, f3)) (h4 : First cs!"ILINE" f3 iline f4) (h5 : UntilEnd f4 body rest)
      (h6 : Body crs.zPos body ps es) (h7 : ¬ Fits k [(⟨name, ps, es⟩ : Object D)]) : BadCurves D k f
  | later {k f title f1 name f2 crs f3 iline f4 body rest} {ps : List (Pt D)} {es : List (Nat × Nat)} (h1 : First cs!"GOCAD PLine" f title f1)
      (h2 : readHeader f1 = .ok (name, f2)) (h3 : readCrs f2 = .ok (crs, f3)) (h4 : First cs!"ILINE" f3 iline f4) (h5 : UntilEnd f4 body rest)
      (h6 : Body crs.zPos body ps es) (h7 : Fits k [(⟨name, ps, es⟩ : Object D)]) (h8 : BadCurves D (k + ps.length) rest) : BadCurves D k f

/-- Reading an object. -/
theorem curve_ub {f : File} : (readECurve f : Res (Option (ECurve D × File))) = .ub ↔
    ∃ title f1 name f2, First cs!"GOCAD PLine" f title f1 ∧ readHeader f1 = .ok (name, f2) ∧ (BadSystem f2 ∨
      ∃ crs f3 iline f4, readCrs f2 = .ok (crs, f3) ∧ First cs!"ILINE" f3 iline f4 ∧ CurveLines D crs.zPos f4) := by
  unfold readECurve
  cases hg : gotoKeyword? cs!"GOCAD PLine" f with
  | none =>
    refine ⟨fun h => (by cases h), ?_⟩
    rintro ⟨title, f1, _, _, h, -⟩
    rw [first_iff.2 h] at hg
    cases hg
  | some x =>
    obtain ⟨title, f1⟩ := x
    have hf := first_iff.1 hg
    dsimp only
    rw [bind_ub]
    constructor
    · rintro (h | ⟨⟨name, f2⟩, h2, h⟩)
      · exact absurd h (GocadUb.readHeader_ne_ub _)
      refine ⟨title, f1, name, f2, hf, h2, ?_⟩
      dsimp only at h
      rcases bind_ub.1 h with h | ⟨⟨crs, f3⟩, h3, h⟩
      · exact .inl (crs_ub_iff.1 h)
      dsimp only at h
      rcases bind_ub.1 h with h | ⟨_, _, h⟩
      · unfold readIlines at h
        rcases bind_ub.1 h with h | ⟨⟨iline, f4⟩, h4, h⟩
        · exact absurd h (gotoKeyword_ne _ _).1
        · exact .inr ⟨crs, f3, iline, f4, h3, goto_iff.1 h4, (curveLines_iff _ rfl rfl f4).1 h⟩
      · cases h
    · rintro ⟨title', f1', name, f2, h1, h2, h⟩
      obtain ⟨rfl, rfl⟩ := Prod.mk.inj (Option.some.inj ((first_iff.2 hf).symm.trans (first_iff.2 h1)))
      refine .inr ⟨(name, f2), h2, ?_⟩
      dsimp only
      rcases h with h | ⟨crs, f3, iline, f4, h3, h4, h5⟩
      · rw [crs_ub_iff.2 h, ub_bind]
      · rw [h3, ok_bind]
        dsimp only
        rw [readIlines, goto_iff.2 h4, ok_bind]
        dsimp only
        rw [(curveLines_iff _ rfl rfl f4).2 h5, ub_bind]

omit [Num D] in
theorem build_ub {m : Loaded Edge D} {ec : ECurve D} : buildCurve m ec = .ub ↔ ¬ Fits m.points.length [(⟨ec.name, ec.points, ec.edges⟩ : Object D)] := by
  have ho : (∃ m', buildCurve m ec = .ok m') ∨ buildCurve m ec = .ub := by
    unfold buildCurve
    dsimp only
    generalize hg : (fun e : Nat × Nat => if shift32 m.points.length e.1 < (m.points ++ ec.points).length ∧ shift32 m.points.length e.2 < (m.points ++ ec.points).length
      then (Res.ok (shift32 m.points.length e.1, shift32 m.points.length e.2) : Res Edge) else .ub) = g
    have key : ∀ es, (∃ r, Res.mapM' g es = .ok r) ∨ Res.mapM' g es = .ub := by
      intro es
      induction es with
      | nil => exact .inl ⟨[], rfl⟩
      | cons e es ih =>
        rw [mapM'_cons, ← hg]
        dsimp only
        split
        · rw [hg]
          rcases ih with ⟨r, h⟩ | h
          · exact .inl ⟨_, by rw [h]; rfl⟩
          · exact .inr (by rw [h]; rfl)
        · exact .inr rfl
    rcases key ec.edges with ⟨r, h⟩ | h
    · exact .inl ⟨_, by rw [h]; rfl⟩
    · exact .inr (by rw [h]; rfl)
  have hi : (∃ m', buildCurve m ec = .ok m') ↔ Fits m.points.length [(⟨ec.name, ec.points, ec.edges⟩ : Object D)] := by
    simp only [build_iff, Fits, and_true]
    exact ⟨fun ⟨_, h, _⟩ => h, fun h => ⟨_, h, rfl⟩⟩
  rw [← hi]
  constructor
  · rintro h ⟨m', h'⟩
    rw [h] at h'
    cases h'
  · intro h
    exact ho.resolve_left h

theorem curves_loop (n : Nat) (m : Loaded Edge D) (f : File) (hn : f.length < n) : loadPLLoop n m f = .ub ↔ BadCurves D m.points.length f := by
  induction n generalizing m f with
  | zero => omega
  | succ n ih =>
    rw [loadPLLoop, bind_ub, curve_ub]
    have hf := (GocadEnds.readECurve_fwd (D := D) f).2
    constructor
    · rintro (⟨title, f1, name, f2, h1, h2, h | ⟨crs, f3, iline, f4, h3, h4, h5⟩⟩ | ⟨r, h1, h⟩)
      · exact .system h1 h2 h
      · exact .line h1 h2 h3 h4 h5
      · cases r with
        | none => cases h
        | some x =>
          obtain ⟨ec, rest⟩ := x
          dsimp only at h
          obtain ⟨title, f1, f2, f3, iline, f4, body, g1, g2, g3, g4, g5, g6⟩ := object_iff h1
          rcases bind_ub.1 h with h | ⟨m1, h2, h⟩
          · exact .segment g1 g2 g3 g4 g5 g6 (build_ub.1 h)
          · obtain ⟨h3, rfl⟩ := build_iff.1 h2
            have := (ih _ rest (by have := hf _ _ h1; omega)).1 h
            exact .later g1 g2 g3 g4 g5 g6 ⟨h3, trivial⟩ (by simpa using this)
    · intro h
      cases h with
      | system h1 h2 h3 => exact .inl ⟨_, _, _, _, h1, h2, .inl h3⟩
      | line h1 h2 h3 h4 h5 => exact .inl ⟨_, _, _, _, h1, h2, .inr ⟨_, _, _, _, h3, h4, h5⟩⟩
      | segment h1 h2 h3 h4 h5 h6 h7 =>
        obtain ⟨o, ho⟩ := object_read h1 h2 h3 h4 h5 h6
        exact .inr ⟨_, ho, bind_ub.2 (.inl (build_ub.2 h7))⟩
      | later h1 h2 h3 h4 h5 h6 h7 h8 =>
        obtain ⟨o, ho⟩ := object_read h1 h2 h3 h4 h5 h6
        have hl := hf _ _ ho
        refine .inr ⟨_, ho, bind_ub.2 (.inr ⟨_, build_iff.2 ⟨h7.1, rfl⟩, ?_⟩)⟩
        exact (ih _ _ (by omega)).2 (by simpa using h8)

/-- **C172, curves**: when loading a `.pl` file has undefined behaviour. -/
theorem curve_ub_iff (f : File) : (loadPL f : Res (Loaded Edge D)) = .ub ↔ BadCurves D 0 f := curves_loop _ _ _ (by omega)

end curves

/-! ## Point sets -/

section points

open Verif.Props.PointSetOutcomes

/-- A line of a point set with which reading has undefined behaviour. -/
def PointLine (D : Type) [Num D] (first : Prop) (l : Str) : Prop := split l = [] ∨ (isVertex l = true ∧ BadVertex D first l)

/-- The lines before it are read. -/
def PointLines (D : Type) [Num D] (up : Bool) (sizes : List Nat) (f : File) : Prop :=
  ∃ pre l post, ∃ ps : List (Pt D), f = pre ++ l :: post ∧ (∀ x ∈ pre, Inside x) ∧ Points up sizes [] pre ps ∧ PointLine D (ps = []) l

/-- Reading a line. -/
def pointStep (vs : VSet D) (l : Str) : Res (VSet D) := vsLine vs ((split l).headD []) (split l)

theorem pointStep_eq {vs : VSet D} {l k : Str} {args : List Str} (hs : split l = k :: args) : pointStep vs l = vsLine vs k (k :: args) := by
  rw [pointStep, hs, List.headD_cons]

theorem point_loop : IsLoop (pointStep (D := D)) id readVSetLoop where
  nil s := by rw [readVSetLoop]; simp
  blank s l ls h := by rw [readVSetLoop, h]
  ends s l ls h := by
    cases hs : split l with
    | nil => simp [isEnd, key, hs] at h
    | cons k args => rw [readVSetLoop, hs]; dsimp only; rw [if_pos ((isEnd_of hs).1 h)]; rfl
  cons s l ls h := by
    cases hs : split l with
    | nil => exact absurd hs h.1
    | cons k args =>
      rw [readVSetLoop, pointStep_eq hs, hs]
      dsimp only
      rw [if_neg fun hk => by have := (isEnd_of hs).2 hk; rw [h.2] at this; cases this]

theorem pointStep_ub {vs : VSet D} (hf : Filled vs.props vs.attrs vs.points.length) {l : Str} (hi : split l ≠ []) :
    pointStep vs l = .ub ↔ PointLine D (vs.points = []) l := by
  unfold PointLine
  simp only [hi, false_or]
  cases hs : split l with
  | nil => exact absurd hs hi
  | cons k args =>
    rw [pointStep_eq hs]
    cases hv : isVertex l with
    | true =>
      have hk := (isVertex_of hs).1 hv
      rw [vsLine, if_neg (by rintro ⟨h1, h2⟩; rcases hk with h | h <;> contradiction), vsVrtx, ← hs]
      simp only [true_and]
      refine vertex_ub _ fun o p h => ?_
      rcases bind_ub.1 h with h | ⟨_, _, h⟩
      · exact (properties_ne _ _ (hf.sizes.trans hf.cols.symm) _).1 h
      · cases h
    | false =>
      rw [vsLine_other hs hv]
      simp

theorem point_prefix (vs : VSet D) (hf : Filled vs.props vs.attrs vs.points.length) (hp : vs.points = []) {pre : File} (hi : ∀ x ∈ pre, Inside x) (ps : List (Pt D)) :
    (∃ s, Res.foldM' pointStep vs pre = .ok s ∧ s.points = ps ∧ Filled s.props s.attrs s.points.length) ↔ Points vs.crs.zPos vs.props.esizes [] pre ps := by
  constructor
  · rintro ⟨s, h, rfl, hF⟩
    have h1 := (loop_prefix point_loop vs pre hi s).2 ⟨s, h, rfl⟩
    obtain ⟨o, ps, as, rfl, hF'⟩ := loop_shape _ _ hf h1
    obtain ⟨body, h2, h3⟩ := (loop_iff _ vs hf ps []).1 ⟨o, as, h1, hF'⟩
    rw [(until_unique h2 (until_prefix hi)).1, hp] at h3
    simpa [hp] using h3
  · intro h
    obtain ⟨o, as, h1, hF⟩ := (loop_iff _ vs hf ps []).2 ⟨pre, until_prefix hi, by rw [hp]; exact h⟩
    obtain ⟨s, h2, h3⟩ := (loop_prefix point_loop vs pre hi _).1 h1
    refine ⟨s, h2, ?_, ?_⟩
    · rw [show s = _ from h3.symm]
      simp [hp]
    · rw [show s = _ from h3.symm]
      exact hF

theorem not_end_of_vertex {l : Str} (h : isVertex l = true) : isEnd l = false := by
  revert h
  unfold isVertex isEnd
  cases key l with
  | none => simp
  | some k => by_cases hk : k = cs!"END" <;> simp [hk]

theorem pointLines_iff (vs : VSet D) (hf : Filled vs.props vs.attrs vs.points.length) (hp : vs.points = []) (f : File) :
    readVSetLoop vs f = .ub ↔ PointLines D vs.crs.zPos vs.props.esizes f := by
  rw [loop_ub point_loop]
  constructor
  · rintro ⟨pre, l, post, s, rfl, h1, h2, h3⟩
    obtain ⟨o, ps, as, rfl, hF⟩ := loop_shape _ _ hf ((loop_prefix point_loop vs pre h1 s).2 ⟨s, h2, rfl⟩)
    have hb := (point_prefix vs hf hp h1 _).1 ⟨_, h2, rfl, hF⟩
    refine ⟨pre, l, post, _, rfl, h1, hb, ?_⟩
    rcases h3 with h3 | ⟨h3, h4⟩
    · exact .inl h3
    · exact (pointStep_ub hF h3.1).1 h4
  · rintro ⟨pre, l, post, ps, rfl, h1, hb, h3⟩
    obtain ⟨s, h2, rfl, hF⟩ := (point_prefix vs hf hp h1 ps).2 hb
    refine ⟨pre, l, post, s, rfl, h1, h2, ?_⟩
    by_cases hs : split l = []
    · exact .inl hs
    · refine .inr ⟨⟨hs, ?_⟩, (pointStep_ub hF hs).2 h3⟩
      rcases h3 with h3 | ⟨h3, -⟩
      · exact absurd h3 hs
      · exact not_end_of_vertex h3

/-- The files with which loading has undefined behaviour: an object has a line of its coordinate system or of its properties that cannot be read, or a vertex without the
words it needs; those before it are loaded. -/
inductive BadPoints (D : Type) [Num D] : File → Prop
  | system {f title f1 name f2} (h1 : First cs!"GOCAD VSet" f title f1) (h2 : readHeader f1 = .ok (name, f2)) (h3 : BadSystem f2) : BadPoints D f
  | header {f title f1 name f2 crs f3} (h1 : First cs!"GOCAD VSet" f title f1) (h2 : readHeader f1 = .ok (name, f2)) (h3 : readCrs f2 = .ok (crs, f3))
      (h4 : BadHeader D [] f3) : BadPoints D f
  | line {f title f1 name f2 crs f3 f4 l f5} {props : PropHeader D} (h1 : First cs!"GOCAD VSet" f title f1) (h2 : readHeader f1 = .ok (name, f2))
      (h3 : readCrs f2 = .ok (crs, f3)) (h4 : readPropHeader [] f3 = .ok (props, f4)) (h5 : FirstVertex f4 l f5) (h6 : PointLines D crs.zPos props.esizes (l :: f5)) :
      BadPoints D f
  | later {f title f1 name f2 crs f3 f4 l f5 body rest} {props : PropHeader D} {ps : List (Pt D)} (h1 : First cs!"GOCAD VSet" f title f1)
      (h2 : readHeader f1 = .ok (name, f2)) (h3 : readCrs f2 = .ok (crs, f3)) (h4 : readPropHeader [] f3 = .ok (props, f4)) (h5 : FirstVertex f4 l f5)
      (h6 : Until (l :: f5) body rest) (h7 : Points crs.zPos props.esizes [] body ps) (h8 : BadPoints D rest) : BadPoints D f

/-- Reading an object. -/
theorem point_ub' {f : File} : (readVSet f : Res (Option (VSet D × File))) = .ub ↔
    ∃ title f1 name f2, First cs!"GOCAD VSet" f title f1 ∧ readHeader f1 = .ok (name, f2) ∧ (BadSystem f2 ∨ ∃ crs f3, readCrs f2 = .ok (crs, f3) ∧
      (BadHeader D [] f3 ∨ ∃ (props : PropHeader D) (f4 : File) (l : Str) (f5 : File), readPropHeader [] f3 = .ok (props, f4) ∧ FirstVertex f4 l f5 ∧
        PointLines D crs.zPos props.esizes (l :: f5))) := by
  unfold readVSet
  cases hg : gotoKeyword? cs!"GOCAD VSet" f with
  | none =>
    refine ⟨fun h => (by cases h), ?_⟩
    rintro ⟨title, f1, _, _, h, -⟩
    rw [first_iff.2 h] at hg
    cases hg
  | some x =>
    obtain ⟨title, f1⟩ := x
    have hf := first_iff.1 hg
    dsimp only
    rw [bind_ub]
    constructor
    · rintro (h | ⟨⟨name, f2⟩, h2, h⟩)
      · exact absurd h (GocadUb.readHeader_ne_ub _)
      refine ⟨title, f1, name, f2, hf, h2, ?_⟩
      dsimp only at h
      rcases bind_ub.1 h with h | ⟨⟨crs, f3⟩, h3, h⟩
      · exact .inl (crs_ub_iff.1 h)
      refine .inr ⟨crs, f3, h3, ?_⟩
      dsimp only at h
      rcases bind_ub.1 h with h | ⟨⟨props, f4⟩, h4, h⟩
      · exact .inl ((header_ub_iff (by simp)).1 h)
      dsimp only at h
      rcases bind_ub.1 h with h | ⟨_, _, h⟩
      · unfold readVSetVertices at h
        rcases bind_ub.1 h with h | ⟨⟨l, f5⟩, h5, h⟩
        · exact absurd h (GocadUb.gotoKeywords_ne_ub _ _)
        · exact .inr ⟨props, f4, l, f5, h4, firstVertex_iff.1 h5, (pointLines_iff _ (header_lengths h4) rfl _).1 h⟩
      · cases h
    · rintro ⟨title', f1', name, f2, h1, h2, h⟩
      obtain ⟨rfl, rfl⟩ := Prod.mk.inj (Option.some.inj ((first_iff.2 hf).symm.trans (first_iff.2 h1)))
      refine .inr ⟨(name, f2), h2, ?_⟩
      dsimp only
      rcases h with h | ⟨crs, f3, h3, h⟩
      · rw [crs_ub_iff.2 h, ub_bind]
      rw [h3, ok_bind]
      dsimp only
      rcases h with h | ⟨props, f4, l, f5, h4, h5, h⟩
      · rw [(header_ub_iff (by simp)).2 h, ub_bind]
      rw [h4, ok_bind]
      dsimp only
      rw [readVSetVertices, firstVertex_iff.2 h5, ok_bind]
      dsimp only
      rw [(pointLines_iff { name, crs, props, attrs := props.names.map (fun _ => []) } (header_lengths h4) rfl _).2 h, ub_bind]

theorem points_loop (n : Nat) (m : Loaded Empty D) (f : File) (hn : f.length < n) (hm : StoreOk m.points.length m.store) : loadVSLoop n m f = .ub ↔ BadPoints D f := by
  induction n generalizing m f with
  | zero => omega
  | succ n ih =>
    rw [loadVSLoop, bind_ub, point_ub']
    have hf := (readVSet_fwd (D := D) f).2
    constructor
    · rintro (⟨title, f1, name, f2, h1, h2, h | ⟨crs, f3, h3, h | ⟨props, f4, l, f5, h4, h5, h⟩⟩⟩ | ⟨r, h1, h⟩)
      · exact .system h1 h2 h
      · exact .header h1 h2 h3 h
      · exact .line h1 h2 h3 h4 h5 h
      · cases r with
        | none => cases h
        | some x =>
          obtain ⟨vs, rest⟩ := x
          obtain ⟨hF, title, f1, f2, f3, f4, l, f5, body, g1, g2, g3, g4, g5, g6, g7⟩ := object_iff h1
          obtain ⟨st', e, hs⟩ := build_ok hm hF
          dsimp only at h
          rw [e, ok_bind] at h
          exact .later g1 g2 g3 g4 g5 g6 g7 ((ih _ rest (by have := hf _ _ h1; omega) hs).1 h)
    · intro h
      cases h with
      | system h1 h2 h3 => exact .inl ⟨_, _, _, _, h1, h2, .inl h3⟩
      | header h1 h2 h3 h4 => exact .inl ⟨_, _, _, _, h1, h2, .inr ⟨_, _, h3, .inl h4⟩⟩
      | line h1 h2 h3 h4 h5 h6 => exact .inl ⟨_, _, _, _, h1, h2, .inr ⟨_, _, h3, .inr ⟨_, _, _, _, h4, h5, h6⟩⟩⟩
      | later h1 h2 h3 h4 h5 h6 h7 h8 =>
        obtain ⟨o, as, ho⟩ := object_read h1 h2 h3 h4 h5 h6 h7
        have hl := hf _ _ ho
        obtain ⟨hF, -⟩ := object_iff ho
        obtain ⟨st', e, hs⟩ := build_ok hm hF
        refine .inr ⟨_, ho, ?_⟩
        dsimp only
        rw [e, ok_bind]
        exact (ih _ _ (by omega) hs).2 h8

/-- **C172, point sets**: when loading a `.vs` file has undefined behaviour. -/
theorem points_ub_iff (f : File) : (loadVS f : Res (Loaded Empty D)) = .ub ↔ BadPoints D f := points_loop _ _ _ (by omega) (by intro p hp; cases hp)

end points

/-! ## Surfaces -/

section surfaces

open Verif.Props.SurfaceOutcomes

/-- A line of a surface with which reading has undefined behaviour. -/
def SurfaceLine (D : Type) [Num D] (first : Prop) (l : Str) : Prop :=
  split l = [] ∨ (isVertex l = true ∧ BadVertex D first l) ∨ (isAtom l = true ∧ (split l).length < 3) ∨ (isTriangle l = true ∧ Short IsIndex (split l) 1 3) ∨
    (isStone l = true ∧ Short IsIndex (split l) 1 1) ∨ (isBorder l = true ∧ Short IsIndex (split l) 2 2)

/-- The lines before it are read. -/
def SurfaceLines (D : Type) [Num D] (up : Bool) (sizes : List Nat) (f : File) : Prop :=
  ∃ pre l post, ∃ (ps : List (Pt D)) (ts : List Tri), f = pre ++ l :: post ∧ (∀ x ∈ pre, Inside x) ∧ Body up sizes pre ps ts ∧ SurfaceLine D (ps = []) l

/-- Reading a line. -/
def surfaceStep (ts : TSurf D) (l : Str) : Res (TSurf D) := tsLine ts ((split l).headD []) (split l)

theorem surfaceStep_eq {ts : TSurf D} {l k : Str} {args : List Str} (hs : split l = k :: args) : surfaceStep ts l = tsLine ts k (k :: args) := by
  rw [surfaceStep, hs, List.headD_cons]

theorem surface_loop : IsLoop (surfaceStep (D := D)) tsClose readTfacesLoop where
  nil s := by rw [readTfacesLoop]; simp
  blank s l ls h := by rw [readTfacesLoop, h]
  ends s l ls h := by
    cases hs : split l with
    | nil => simp [isEnd, key, hs] at h
    | cons k args => rw [readTfacesLoop, hs]; dsimp only; rw [if_pos ((isEnd_of hs).1 h)]
  cons s l ls h := by
    cases hs : split l with
    | nil => exact absurd hs h.1
    | cons k args =>
      rw [readTfacesLoop, surfaceStep_eq hs, hs]
      dsimp only
      rw [if_neg fun hk => by have := (isEnd_of hs).2 hk; rw [h.2] at this; cases this]

theorem surfaceStep_ub {ts : TSurf D} (hf : Filled ts.props ts.attrs ts.points.length) {l : Str} (hi : split l ≠ []) :
    surfaceStep ts l = .ub ↔ SurfaceLine D (ts.points = []) l := by
  have hp := fun ws => (properties_ne ts.props.esizes ts.attrs (hf.sizes.trans hf.cols.symm) ws).1
  unfold SurfaceLine
  simp only [hi, false_or]
  cases hs : split l with
  | nil => exact absurd hs hi
  | cons k args =>
    rw [surfaceStep_eq hs, tsLine, ← hs]
    rcases kind_of hs with ⟨hk, K⟩ | ⟨hk, K⟩ | ⟨rfl, K⟩ | ⟨rfl, K⟩ | ⟨rfl, K⟩ | ⟨n1, n2, n3, n4, n5, K⟩
    · rw [if_pos hk, tsVrtx]
      simp only [K.vertex, K.atom, K.triangle, K.stone, K.border, true_and, Bool.false_eq_true, false_and, or_false]
      refine vertex_ub _ fun o p h => ?_
      rcases bind_ub.1 h with h | ⟨_, _, h⟩
      · exact hp _ h
      · cases h
    · rw [if_neg (by rcases hk with rfl | rfl <;> decide), if_pos hk, tsAtom]
      simp only [K.vertex, K.atom, K.triangle, K.stone, K.border, true_and, Bool.false_eq_true, false_and, or_false, false_or]
      rw [bind_ub, index_ub_iff]
      constructor
      · rintro (h | ⟨w, _, h⟩)
        · omega
        rcases bind_ub.1 h with h | ⟨n, _, h⟩
        · exact absurd h readIndex_ne.1
        rcases bind_ub.1 h with h | ⟨p, _, h⟩
        · exact absurd h (GocadUb.at_ne_ub _ _)
        rcases bind_ub.1 h with h | ⟨_, _, h⟩
        · exact absurd h (hp _)
        · cases h
      · intro h
        exact .inl (by omega)
    · rw [if_neg (by decide), if_neg (by decide), if_pos rfl, tsTrgl]
      simp only [K.vertex, K.atom, K.triangle, K.stone, K.border, true_and, Bool.false_eq_true, false_and, or_false, false_or]
      exact index_step _ fun _ i => index_step _ fun _ j => index_step _ (index_last _ (by simp))
    · rw [if_neg (by decide), if_neg (by decide), if_neg (by decide), if_pos rfl, tsBstone]
      simp only [K.vertex, K.atom, K.triangle, K.stone, K.border, true_and, Bool.false_eq_true, false_and, or_false, false_or]
      exact index_step _ (index_last _ (by simp))
    · rw [if_neg (by decide), if_neg (by decide), if_neg (by decide), if_neg (by decide), if_pos rfl, tsBorder]
      simp only [K.vertex, K.atom, K.triangle, K.stone, K.border, true_and, Bool.false_eq_true, false_and, false_or]
      exact index_step _ fun _ i => index_step _ (index_last _ (by simp))
    · rw [if_neg n1, if_neg n2, if_neg n3, if_neg n4, if_neg n5]
      simp only [K.vertex, K.atom, K.triangle, K.stone, K.border, Bool.false_eq_true, false_and, or_false]
      split <;> simp

theorem surface_prefix (ts : TSurf D) (hf : Filled ts.props ts.attrs ts.points.length) (hp : ts.points = []) (ho : ts.offset = 1) {pre : File}
    (hi : ∀ x ∈ pre, Inside x) (ps : List (Pt D)) :
    (∃ s, Res.foldM' surfaceStep ts pre = .ok s ∧ s.points = ps ∧ Filled s.props s.attrs s.points.length) ↔ ∃ tris, Body ts.crs.zPos ts.props.esizes pre ps tris := by
  constructor
  · rintro ⟨s, h, rfl, hF⟩
    have h1 := (loop_prefix surface_loop ts pre hi _).2 ⟨s, h, rfl⟩
    obtain ⟨body, ps, tris, h2, h3, e⟩ := loop_fwd _ ts hf hp ho h1
    rw [(until_unique h2 (until_prefix hi)).1] at h3
    have := e.points
    rw [hp] at this
    exact ⟨tris, by rw [show s.points = ps from this]; exact h3⟩
  · rintro ⟨tris, h⟩
    obtain ⟨ts', h1, e⟩ := loop_bwd _ ts hf hp ho (until_prefix hi) h
    obtain ⟨s, h2, h3⟩ := (loop_prefix surface_loop ts pre hi _).1 h1
    have e1 := e.points
    have e2 := e.props
    have e3 := e.filled
    rw [h3] at e1 e2 e3
    rw [hp] at e1 e3
    have e1 : s.points = ps := e1
    refine ⟨s, h2, e1, ?_⟩
    rw [e1, show s.props = ts.props from e2]
    exact e3

theorem surfaceLines_iff (ts : TSurf D) (hf : Filled ts.props ts.attrs ts.points.length) (hp : ts.points = []) (ho : ts.offset = 1) (f : File) :
    readTfacesLoop ts f = .ub ↔ SurfaceLines D ts.crs.zPos ts.props.esizes f := by
  rw [loop_ub surface_loop]
  constructor
  · rintro ⟨pre, l, post, s, rfl, h1, h2, h3⟩
    obtain ⟨body, ps, tris, -, -, e⟩ := loop_fwd _ ts hf hp ho ((loop_prefix surface_loop ts pre h1 _).2 ⟨s, h2, rfl⟩)
    have hF : Filled s.props s.attrs s.points.length := by
      have e1 := e.points
      have e3 := e.filled
      rw [← e1] at e3
      rw [show s.props = ts.props from e.props]
      exact e3
    obtain ⟨t, hb⟩ := (surface_prefix ts hf hp ho h1 _).1 ⟨_, h2, rfl, hF⟩
    refine ⟨pre, l, post, _, t, rfl, h1, hb, ?_⟩
    rcases h3 with h3 | ⟨h3, h4⟩
    · exact .inl h3
    · exact (surfaceStep_ub hF h3.1).1 h4
  · rintro ⟨pre, l, post, ps, tris, rfl, h1, hb, h3⟩
    obtain ⟨s, h2, rfl, hF⟩ := (surface_prefix ts hf hp ho h1 ps).2 ⟨tris, hb⟩
    refine ⟨pre, l, post, s, rfl, h1, h2, ?_⟩
    by_cases hs : split l = []
    · exact .inl hs
    · refine .inr ⟨⟨hs, ?_⟩, (surfaceStep_ub hF hs).2 h3⟩
      cases he : isEnd l with
      | false => rfl
      | true =>
        have hk : key l = some cs!"END" := by simpa [isEnd] using he
        simp [isVertex, isAtom, isTriangle, isStone, isBorder, hk, SurfaceLine, hs] at h3

/-- The files with which loading has undefined behaviour, after `k` vertices: an object has a line of its coordinate system or of its properties that cannot be read, or
a line without the words it needs, or a triangle whose corners are not loaded; those before it are loaded. -/
inductive BadSurfaces (D : Type) [Num D] : Nat → File → Prop
  | system {k f title f1 name f2} (h1 : First cs!"GOCAD TSurf" f title f1) (h2 : readHeader f1 = .ok (name, f2)) (h3 : BadSystem f2) : BadSurfaces D k f
  | header {k f title f1 name f2 crs f3} (h1 : First cs!"GOCAD TSurf" f title f1) (h2 : readHeader f1 = .ok (name, f2)) (h3 : readCrs f2 = .ok (crs, f3))
      (h4 : BadHeader D [] f3) : BadSurfaces D k f
  | line {k f title f1 name f2 crs f3 f4 tface f5} {props : PropHeader D} (h1 : First cs!"GOCAD TSurf" f title f1) (h2 : readHeader f1 = .ok (name, f2))
      (h3 : readCrs f2 = .ok (crs, f3)) (h4 : readPropHeader [] f3 = .ok (props, f4)) (h5 : First cs!"TFACE" f4 tface f5)
      (h6 : SurfaceLines D crs.zPos props.esizes f5) : BadSurfaces D k f
  | triangle {k f title f1 name f2 crs f3 f4 tface f5 body rest} {props : PropHeader D} {ps : List (Pt D)} {ts : List Tri} (h1 : First cs!"GOCAD TSurf" f title f1)
      (h2 : readHeader f1 = .ok (name, f2)) (h3 : readCrs f2 = .ok (crs, f3)) (h4 : readPropHeader [] f3 = .ok (props, f4)) (h5 : First cs!"TFACE" f4 tface f5)
      (h6 : Until f5 body rest) (h7 : Body crs.zPos props.esizes body ps ts) (h8 : ¬ Fits k [(⟨name, ps, ts⟩ : Object D)]) : BadSurfaces D k f
  | later {k f title f1 name f2 crs f3 f4 tface f5 body rest} {props : PropHeader D} {ps : List (Pt D)} {ts : List Tri} (h1 : First cs!"GOCAD TSurf" f title f1)
      (h2 : readHeader f1 = .ok (name, f2)) (h3 : readCrs f2 = .ok (crs, f3)) (h4 : readPropHeader [] f3 = .ok (props, f4)) (h5 : First cs!"TFACE" f4 tface f5)
      (h6 : Until f5 body rest) (h7 : Body crs.zPos props.esizes body ps ts) (h8 : Fits k [(⟨name, ps, ts⟩ : Object D)]) (h9 : BadSurfaces D (k + ps.length) rest) :
      BadSurfaces D k f

/-- Reading an object. -/
theorem surface_ub {f : File} : (readTSurf f : Res (Option (TSurf D × File))) = .ub ↔
    ∃ title f1 name f2, First cs!"GOCAD TSurf" f title f1 ∧ readHeader f1 = .ok (name, f2) ∧ (BadSystem f2 ∨ ∃ crs f3, readCrs f2 = .ok (crs, f3) ∧
      (BadHeader D [] f3 ∨ ∃ (props : PropHeader D) (f4 : File) (tface : Str) (f5 : File), readPropHeader [] f3 = .ok (props, f4) ∧ First cs!"TFACE" f4 tface f5 ∧
        SurfaceLines D crs.zPos props.esizes f5)) := by
  unfold readTSurf
  cases hg : gotoKeyword? cs!"GOCAD TSurf" f with
  | none =>
    refine ⟨fun h => (by cases h), ?_⟩
    rintro ⟨title, f1, _, _, h, -⟩
    rw [first_iff.2 h] at hg
    cases hg
  | some x =>
    obtain ⟨title, f1⟩ := x
    have hf := first_iff.1 hg
    dsimp only
    rw [bind_ub]
    constructor
    · rintro (h | ⟨⟨name, f2⟩, h2, h⟩)
      · exact absurd h (GocadUb.readHeader_ne_ub _)
      refine ⟨title, f1, name, f2, hf, h2, ?_⟩
      dsimp only at h
      rcases bind_ub.1 h with h | ⟨⟨crs, f3⟩, h3, h⟩
      · exact .inl (crs_ub_iff.1 h)
      refine .inr ⟨crs, f3, h3, ?_⟩
      dsimp only at h
      rcases bind_ub.1 h with h | ⟨⟨props, f4⟩, h4, h⟩
      · exact .inl ((header_ub_iff (by simp)).1 h)
      dsimp only at h
      rcases bind_ub.1 h with h | ⟨_, _, h⟩
      · unfold readTfaces at h
        rcases bind_ub.1 h with h | ⟨⟨tface, f5⟩, h5, h⟩
        · exact absurd h (gotoKeyword_ne _ _).1
        · exact .inr ⟨props, f4, tface, f5, h4, goto_iff.1 h5, (surfaceLines_iff _ (header_lengths h4) rfl rfl _).1 h⟩
      · cases h
    · rintro ⟨title', f1', name, f2, h1, h2, h⟩
      obtain ⟨rfl, rfl⟩ := Prod.mk.inj (Option.some.inj ((first_iff.2 hf).symm.trans (first_iff.2 h1)))
      refine .inr ⟨(name, f2), h2, ?_⟩
      dsimp only
      rcases h with h | ⟨crs, f3, h3, h⟩
      · rw [crs_ub_iff.2 h, ub_bind]
      rw [h3, ok_bind]
      dsimp only
      rcases h with h | ⟨props, f4, tface, f5, h4, h5, h⟩
      · rw [(header_ub_iff (by simp)).2 h, ub_bind]
      rw [h4, ok_bind]
      dsimp only
      rw [readTfaces, goto_iff.2 h5, ok_bind]
      dsimp only
      rw [(surfaceLines_iff { name, crs, props, attrs := props.names.map (fun _ => []) } (header_lengths h4) rfl rfl _).2 h, ub_bind]

theorem buildSurface_ub {m : Loaded Tri D} {ts : TSurf D} (hm : StoreOk m.points.length m.store) (hf : Filled ts.props ts.attrs ts.points.length)
    (hw : ∀ t ∈ ts.triangles, Within W t) : buildSurface m ts = .ub ↔ ¬ Fits m.points.length [(⟨ts.name, ts.points, ts.triangles⟩ : Object D)] := by
  constructor
  · intro h hfit
    obtain ⟨st, e, -⟩ := build_bwd hm hf hw hfit.1
    rw [e] at h
    cases h
  · intro h
    have key : ∀ (nb : Nat) (g : Tri → Tri) (l : List Tri), (∃ r, Res.mapM' (fun t => createTriangle nb (g t)) l = .ok r) ∨
        Res.mapM' (fun t => createTriangle nb (g t)) l = .ub := by
      intro nb g l
      induction l with
      | nil => exact .inl ⟨[], rfl⟩
      | cons t l ih =>
        rw [mapM'_cons, createTriangle]
        split
        · rcases ih with ⟨r, e⟩ | e
          · exact .inl ⟨_, by rw [e]; rfl⟩
          · exact .inr (by rw [e]; rfl)
        · exact .inr rfl
    unfold buildSurface
    rcases key (m.points ++ ts.points).length (fun t => if m.points.length = 0 then t else shiftTri m.points.length t) ts.triangles with ⟨r, e⟩ | e
    · refine absurd ?_ h
      have := ((tris_iff hw).1 e).1
      exact ⟨by simpa using this, trivial⟩
    · exact bind_ub.2 (.inl e)

theorem surfaces_loop (n : Nat) (m : Loaded Tri D) (f : File) (hn : f.length < n) (hm : StoreOk m.points.length m.store) :
    loadTSLoop n m f = .ub ↔ BadSurfaces D m.points.length f := by
  induction n generalizing m f with
  | zero => omega
  | succ n ih =>
    rw [loadTSLoop, bind_ub, surface_ub]
    have hf := (readTSurf_fwd (D := D) f).2
    constructor
    · rintro (⟨title, f1, name, f2, h1, h2, h | ⟨crs, f3, h3, h | ⟨props, f4, l, f5, h4, h5, h⟩⟩⟩ | ⟨r, h1, h⟩)
      · exact .system h1 h2 h
      · exact .header h1 h2 h3 h
      · exact .line h1 h2 h3 h4 h5 h
      · cases r with
        | none => cases h
        | some x =>
          obtain ⟨ts, rest⟩ := x
          obtain ⟨hF, title, f1, f2, f3, f4, l, f5, body, g1, g2, g3, g4, g5, g6, g7⟩ := object_iff h1
          dsimp only at h
          rcases bind_ub.1 h with h | ⟨m1, h2, h⟩
          · exact .triangle g1 g2 g3 g4 g5 g6 g7 ((buildSurface_ub hm hF (body_lt g7)).1 h)
          · obtain ⟨h3, st', rfl, hs⟩ := build_fwd hm hF (body_lt g7) h2
            have := (ih _ rest (by have := hf _ _ h1; omega) hs).1 h
            exact .later g1 g2 g3 g4 g5 g6 g7 ⟨h3, trivial⟩ (by simpa using this)
    · intro h
      cases h with
      | system h1 h2 h3 => exact .inl ⟨_, _, _, _, h1, h2, .inl h3⟩
      | header h1 h2 h3 h4 => exact .inl ⟨_, _, _, _, h1, h2, .inr ⟨_, _, h3, .inl h4⟩⟩
      | line h1 h2 h3 h4 h5 h6 => exact .inl ⟨_, _, _, _, h1, h2, .inr ⟨_, _, h3, .inr ⟨_, _, _, _, h4, h5, h6⟩⟩⟩
      | triangle h1 h2 h3 h4 h5 h6 h7 h8 =>
        obtain ⟨ts, ho, rfl, rfl, rfl⟩ := object_read h1 h2 h3 h4 h5 h6 h7
        obtain ⟨hF, -⟩ := object_iff ho
        exact .inr ⟨_, ho, bind_ub.2 (.inl ((buildSurface_ub hm hF (body_lt h7)).2 h8))⟩
      | later h1 h2 h3 h4 h5 h6 h7 h8 h9 =>
        obtain ⟨ts, ho, rfl, rfl, rfl⟩ := object_read h1 h2 h3 h4 h5 h6 h7
        have hl := hf _ _ ho
        obtain ⟨hF, -⟩ := object_iff ho
        obtain ⟨st', e, hs⟩ := build_bwd hm hF (body_lt h7) h8.1
        refine .inr ⟨_, ho, bind_ub.2 (.inr ⟨_, e, ?_⟩)⟩
        exact (ih _ _ (by omega) hs).2 (by simpa using h9)

/-- **C172, surfaces**: when loading a `.ts` file has undefined behaviour. -/
theorem surface_ub_iff (f : File) : (loadTS f : Res (Loaded Tri D)) = .ub ↔ BadSurfaces D 0 f := surfaces_loop _ _ _ (by omega) (by intro p hp; cases hp)

end surfaces

/-! ## Wells -/

/-- **C172, wells**: when loading a `.wl` file has undefined behaviour. -/
theorem well_ub_iff [Add D] (f : File) : (Wells.loadWl f : Res (Wells.Well D)) = .ub ↔
    ∃ title f1 name f2, First cs!"GOCAD Well" f title f1 ∧ readHeader f1 = .ok (name, f2) ∧ BadSystem f2 := by
  constructor
  · intro h
    rcases WlOutcomes.wl_outcomes_partial (D := D) f with ⟨w, h'⟩ | h' | ⟨-, title, f1, name, f2, h1, h2, h3, -⟩
    · rw [h] at h'
      cases h'
    · rw [h] at h'
      cases h'
    · exact ⟨title, f1, name, f2, h1, h2, crs_ub_iff.1 h3⟩
  · rintro ⟨title, f1, name, f2, h1, h2, h3⟩
    unfold Wells.loadWl
    rw [first_iff.2 h1]
    dsimp only
    rw [h2, ok_bind]
    dsimp only
    rw [crs_ub_iff.2 h3, ub_bind]

/-! ## The headers of the models -/

/-- **C172, solids**: when the headers of an `.lso` file have undefined behaviour (the first case of C169). -/
theorem lso_header_iff (f : File) : LsoRefused.BadHeader D f ↔
    ∃ title f1 name f2, First cs!"GOCAD LightTSolid" f title f1 ∧ readHeader f1 = .ok (name, f2) ∧ (BadSystem f2 ∨ ∃ crs f3, readCrs f2 = .ok (crs, f3) ∧
      (BadHeader D [] f3 ∨ ∃ (vh : PropHeader D) (f4 : File), PropHeaders.Header [] f3 vh f4 ∧ BadHeader D cs!"TETRA_" f4)) := by
  unfold LsoRefused.BadHeader
  simp only [crs_ub_iff, header_ub_iff (D := D) (p := []) (by simp), header_ub_iff (D := D) (p := cs!"TETRA_") (by decide)]

/-- **C172, models**: when the coordinate system of an `.ml` file has undefined behaviour (the first case of C168). -/
theorem ml_system_iff (f : File) : MlRefused.BadSystem f ↔
    ∃ title f1 name f2, First cs!"GOCAD Model3d" f title f1 ∧ readHeader f1 = .ok (name, f2) ∧ BadSystem f2 := by
  unfold MlRefused.BadSystem
  simp only [crs_ub_iff]

/-! ## The other files -/

/-- A file that does not load is refused. -/
def Refused {α : Type} (load : File → Res α) : Prop := ∀ f, (∃ r, load f = .ok r) ∨ load f = .throw

theorem refused_but {α : Type} {load : File → Res α} {Bad : File → Prop} (hu : ∀ f, load f = .ub ↔ Bad f) (hd : ∀ f, load f ≠ .diverge) (f : File) :
    (∃ r, load f = .ok r) ∨ load f = .throw ∨ (load f = .ub ∧ Bad f) := by
  cases h : load f with
  | ok r => exact .inl ⟨r, rfl⟩
  | throw => exact .inr (.inl rfl)
  | ub => exact .inr (.inr ⟨rfl, (hu f).1 h⟩)
  | diverge => exact absurd h (hd f)

theorem not_refused {α : Type} {load : File → Res α} {f : File} (h : load f = .ub) : ¬ Refused load := by
  intro hr
  rcases hr f with ⟨r, e⟩ | e <;> rw [h] at e <;> cases e

/-- **C172**: the curves that do not load are refused, but those of `BadCurves`. -/
theorem curve_refused_partial (f : File) : (∃ r : Loaded Edge D, loadPL f = .ok r) ∨ (loadPL f : Res (Loaded Edge D)) = .throw ∨
    ((loadPL f : Res (Loaded Edge D)) = .ub ∧ BadCurves D 0 f) := refused_but curve_ub_iff GocadEnds.loadPL_terminates f

/-- **C172**: the point sets that do not load are refused, but those of `BadPoints`. -/
theorem points_refused_partial (f : File) : (∃ r : Loaded Empty D, loadVS f = .ok r) ∨ (loadVS f : Res (Loaded Empty D)) = .throw ∨
    ((loadVS f : Res (Loaded Empty D)) = .ub ∧ BadPoints D f) := refused_but points_ub_iff VSet.loadVS_terminates f

/-- **C172**: the surfaces that do not load are refused, but those of `BadSurfaces`. -/
theorem surface_refused_partial (f : File) : (∃ r : Loaded Tri D, loadTS f = .ok r) ∨ (loadTS f : Res (Loaded Tri D)) = .throw ∨
    ((loadTS f : Res (Loaded Tri D)) = .ub ∧ BadSurfaces D 0 f) := refused_but surface_ub_iff TSurf.loadTS_terminates f

/-- A point set with a vertex of two coordinates. -/
def flat : File := [cs!"GOCAD VSet 1", cs!"HEADER {", cs!"}", cs!"VRTX 1 2 3", cs!"END"]

/-- A well with an empty line in its coordinate system. -/
def hollowWell : File := [cs!"GOCAD Well 1", cs!"HEADER {", cs!"}"] ++ HeadersRefused.hollow

theorem curve_refused_fails : ¬ Refused (loadPL : File → Res (Loaded Edge Int)) := not_refused CurveOutcomes.first_object_ub

theorem points_refused_fails : ¬ Refused (loadVS : File → Res (Loaded Empty Int)) := not_refused (f := flat) (by decide +kernel)

theorem surface_refused_fails : ¬ Refused (loadTS : File → Res (Loaded Tri Int)) := not_refused SurfaceOutcomes.first_object_ub

theorem well_refused_fails : ¬ Refused (Wells.loadWl : File → Res (Wells.Well Int)) := not_refused (f := hollowWell) (by decide +kernel)

/-- The conditions hold for these files, and not for the two objects of C159 that load. -/
example : BadCurves Int 0 (CurveOutcomes.joined.drop 8) ∧ BadPoints Int flat ∧ BadSurfaces Int 0 (SurfaceOutcomes.joined.drop 9) ∧
    ¬ BadCurves Int 0 CurveOutcomes.joined ∧ ¬ BadSurfaces Int 0 SurfaceOutcomes.joined :=
  ⟨(curve_ub_iff _).1 CurveOutcomes.first_object_ub, (points_ub_iff _).1 (by decide +kernel), (surface_ub_iff _).1 SurfaceOutcomes.first_object_ub,
    fun h => absurd ((curve_ub_iff _).2 h) (by rw [CurveOutcomes.joined_loads]; simp), fun h => absurd ((surface_ub_iff _).2 h) (by rw [SurfaceOutcomes.joined_loads]; simp)⟩

/-- The two other coordinates of a vertex are refused when they are no numbers, and so is an atom without a vertex; an atom without its number is not (tests). -/
example : (loadVS [cs!"GOCAD VSet 1", cs!"HEADER {", cs!"}", cs!"VRTX 1 2 x"] : Res (Loaded Empty Int)) = .throw ∧
    (loadTS [cs!"GOCAD TSurf 1", cs!"HEADER {", cs!"}", cs!"TFACE", cs!"ATOM 2 1"] : Res (Loaded Tri Int)) = .throw ∧
    (loadTS [cs!"GOCAD TSurf 1", cs!"HEADER {", cs!"}", cs!"TFACE", cs!"ATOM 2"] : Res (Loaded Tri Int)) = .ub := by decide +kernel

end Verif.Props.GocadRefused
