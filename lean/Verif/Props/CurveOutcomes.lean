import Verif.Props.WlOutcomes
import Verif.Props.GocadEnds
import Verif.Props.GocadUb

/-!
# C156: which curve files load

`Props.PLine` is about the curves that the library writes.  Here the text is any: the files that load are found, with the curve they give.  Theorems about
`Model.Gocad` and `Model.GocadMesh`.
-/

namespace Verif.Props.CurveOutcomes

open Verif Verif.Gocad Verif.GocadMesh Verif.Props.WlOutcomes Res

variable {D : Type} [Num D]

/-! ## The words of the lines -/

/-- The first word of a line. -/
def key (l : Str) : Option Str := (split l).head?

/-- The line of a vertex. -/
def isVertex (l : Str) : Bool := key l == some cs!"VRTX" || key l == some cs!"PVRTX"

/-- The line of a segment. -/
def isSegment (l : Str) : Bool := key l == some cs!"SEG"

/-- The line that closes an object. -/
def isEnd (l : Str) : Bool := key l == some cs!"END"

/-- The second word of the line is a number. -/
def Number (l : Str) (n : Nat) : Prop := ∃ k w rest, split l = k :: w :: rest ∧ parseIndex w = some n

/-- The third, fourth and fifth words of the line are the coordinates of the point, the last one downwards when `up` is false. -/
def Coordinates (up : Bool) (l : Str) (p : Pt D) : Prop :=
  ∃ k n a b c rest, ∃ z : D, split l = k :: n :: a :: b :: c :: rest ∧ Num.parse a = some p.x ∧ Num.parse b = some p.y ∧ Num.parse c = some z ∧
    p.z = if up then z else Num.neg z

/-- The second and third words of the line are numbers of vertices, counted from `base`, modulo 2^32. -/
def Segment (base : Nat) (l : Str) (e : Nat × Nat) : Prop :=
  ∃ k a b rest i j, split l = k :: a :: b :: rest ∧ parseIndex a = some i ∧ parseIndex b = some j ∧ e = (sub32 i base, sub32 j base)

theorem number_iff {l : Str} {n : Nat} : (Res.index (split l) 1 >>= fun w => readIndex w) = .ok n ↔ Number l n := by
  constructor
  · intro h
    obtain ⟨w, h1, h2⟩ := bind_eq_ok.1 h
    rcases hs : split l with _ | ⟨k, _ | ⟨w', r⟩⟩
    · rw [hs] at h1; cases h1
    · rw [hs] at h1; cases h1
    · rw [hs] at h1
      cases h1
      refine ⟨k, w, r, hs, ?_⟩
      cases hp : parseIndex w with
      | none => rw [readIndex, hp] at h2; cases h2
      | some i => rw [readIndex, hp] at h2; cases h2; rfl
  · rintro ⟨k, w, r, hs, hp⟩
    rw [hs]
    simp [readIndex, hp]

theorem point_iff {up : Bool} {l : Str} {p : Pt D} : readPoint up (split l) = .ok p ↔ Coordinates up l p := by
  unfold readPoint
  constructor
  · intro h
    rcases hs : split l with _ | ⟨k, _ | ⟨n, _ | ⟨a, _ | ⟨b, _ | ⟨c, r⟩⟩⟩⟩⟩
    · rw [hs] at h; cases h
    · rw [hs] at h; cases h
    · rw [hs] at h; cases h
    · rw [hs] at h
      obtain ⟨x, -, h⟩ := bind_eq_ok.1 h
      obtain ⟨y, -, h⟩ := bind_eq_ok.1 h
      cases h
    · rw [hs] at h
      obtain ⟨x, -, h⟩ := bind_eq_ok.1 h
      obtain ⟨y, -, h⟩ := bind_eq_ok.1 h
      obtain ⟨z, -, h⟩ := bind_eq_ok.1 h
      obtain ⟨w, -, h⟩ := bind_eq_ok.1 h
      cases h
    · rw [hs] at h
      simp only [index_cons_succ, index_cons_zero, ok_bind, readDouble] at h
      cases h1 : (Num.parse a : Option D) with
      | none => rw [h1] at h; cases h
      | some x =>
        cases h2 : (Num.parse b : Option D) with
        | none => rw [h1, h2] at h; cases h
        | some y =>
          cases h3 : (Num.parse c : Option D) with
          | none => rw [h1, h2, h3] at h; cases h
          | some z =>
            rw [h1, h2, h3] at h
            cases h
            exact ⟨k, n, a, b, c, r, z, hs, h1, h2, h3, rfl⟩
  · rintro ⟨k, n, a, b, c, r, z, hs, h1, h2, h3, h4⟩
    rw [hs]
    simp only [index_cons_succ, index_cons_zero, ok_bind, readDouble, h1, h2, h3, ofParse_some, pure_eq, ← h4]

theorem segment_iff {base : Nat} {l : Str} {e : Nat × Nat} : (do
      let a ← readIndex (← Res.index (split l) 1)
      let b ← readIndex (← Res.index (split l) 2)
      pure (sub32 a base, sub32 b base) : Res (Nat × Nat)) = .ok e ↔ Segment base l e := by
  constructor
  · intro h
    rcases hs : split l with _ | ⟨k, _ | ⟨a, _ | ⟨b, r⟩⟩⟩
    · rw [hs] at h; cases h
    · rw [hs] at h; cases h
    · rw [hs] at h
      obtain ⟨x, -, h⟩ := bind_eq_ok.1 h
      obtain ⟨y, -, h⟩ := bind_eq_ok.1 h
      cases h
    · rw [hs] at h
      simp only [index_cons_succ, index_cons_zero, ok_bind, readIndex] at h
      cases h1 : parseIndex a with
      | none => rw [h1] at h; cases h
      | some x =>
        cases h2 : parseIndex b with
        | none => rw [h1, h2] at h; cases h
        | some y =>
          rw [h1, h2] at h
          cases h
          exact ⟨k, a, b, r, x, y, hs, h1, h2, rfl⟩
  · rintro ⟨k, a, b, r, i, j, hs, h1, h2, rfl⟩
    rw [hs]
    simp only [index_cons_succ, index_cons_zero, ok_bind, readIndex, h1, h2, ofParse_some, pure_eq]

/-! ## The lines of an object -/

/-- `body` are the lines before the one that closes the object, `rest` those after it. -/
def Until (f body rest : File) : Prop :=
  (∀ l ∈ body, split l ≠ [] ∧ isEnd l = false) ∧ ∃ e, f = body ++ e :: rest ∧ isEnd e = true

/-- The same, or the file ends. -/
def UntilEnd (f body rest : File) : Prop :=
  (∀ l ∈ body, split l ≠ [] ∧ isEnd l = false) ∧ ((f = body ∧ rest = []) ∨ ∃ e, f = body ++ e :: rest ∧ isEnd e = true)

/-- Lines that are read with a known base: points and edges. -/
def Lines (up : Bool) (base : Nat) (ls : File) (ps : List (Pt D)) (es : List (Nat × Nat)) : Prop :=
  List.Forall₂ (Coordinates up) (ls.filter isVertex) ps ∧ List.Forall₂ (Segment base) (ls.filter isSegment) es

/-- Lines of an object: the base is 1 up to the first vertex, and the number of that vertex from there. -/
def Body (up : Bool) (ls : File) (ps : List (Pt D)) (es : List (Nat × Nat)) : Prop :=
  List.Forall₂ (Coordinates up) (ls.filter isVertex) ps ∧ ∃ before after base es1 es2, ls = before ++ after ∧ (∀ l ∈ before, isVertex l = false) ∧
    (∀ l ∈ after.head?, isVertex l = true ∧ Number l base) ∧ List.Forall₂ (Segment 1) (before.filter isSegment) es1 ∧
    List.Forall₂ (Segment base) (after.filter isSegment) es2 ∧ es = es1 ++ es2

theorem untilEnd_cons {l : Str} {f body rest : File} (h : split l ≠ []) (h' : isEnd l = false) :
    UntilEnd (l :: f) (l :: body) rest ↔ UntilEnd f body rest := by
  unfold UntilEnd
  constructor
  · rintro ⟨h1, h2⟩
    refine ⟨fun x hx => h1 x (by simp [hx]), ?_⟩
    rcases h2 with ⟨e, r⟩ | ⟨e, he, hE⟩
    · exact Or.inl ⟨(List.cons.inj e).2, r⟩
    · exact Or.inr ⟨e, (List.cons.inj he).2, hE⟩
  · rintro ⟨h1, h2⟩
    refine ⟨?_, ?_⟩
    · intro x hx
      rcases List.mem_cons.1 hx with rfl | hx
      · exact ⟨h, h'⟩
      · exact h1 x hx
    · rcases h2 with ⟨rfl, r⟩ | ⟨e, rfl, hE⟩
      · exact Or.inl ⟨rfl, r⟩
      · exact Or.inr ⟨e, rfl, hE⟩

theorem untilEnd_shape {l : Str} {f body rest : File} (h : isEnd l = false) (hu : UntilEnd (l :: f) body rest) : ∃ b, body = l :: b := by
  rcases hu.2 with ⟨e, _⟩ | ⟨e, he, hE⟩
  · exact ⟨f, e.symm⟩
  · cases body with
    | nil => rw [(List.cons.inj he).1] at h; rw [h] at hE; cases hE
    | cons x xs => exact ⟨xs, by rw [(List.cons.inj he).1]⟩

theorem untilEnd_end {l : Str} {f body rest : File} (h : isEnd l = true) : UntilEnd (l :: f) body rest ↔ body = [] ∧ rest = f := by
  constructor
  · rintro ⟨h1, h2⟩
    have hb : body = [] := by
      cases body with
      | nil => rfl
      | cons x xs =>
        have := (h1 x (by simp)).2
        rcases h2 with ⟨e, _⟩ | ⟨e, he, hE⟩
        · rw [← (List.cons.inj e).1, h] at this; cases this
        · rw [← (List.cons.inj he).1, h] at this; cases this
    subst hb
    refine ⟨rfl, ?_⟩
    rcases h2 with ⟨e, _⟩ | ⟨e, he, hE⟩
    · cases e
    · exact (List.cons.inj he).2.symm
  · rintro ⟨rfl, rfl⟩
    exact ⟨by simp, Or.inr ⟨l, rfl, h⟩⟩

theorem isEnd_of {l k : Str} {args : List Str} (hs : split l = k :: args) : isEnd l = true ↔ k = cs!"END" := by
  simp [isEnd, key, hs]

theorem isVertex_of {l k : Str} {args : List Str} (hs : split l = k :: args) : isVertex l = true ↔ (k = cs!"VRTX" ∨ k = cs!"PVRTX") := by
  simp [isVertex, key, hs]

theorem isSegment_of {l k : Str} {args : List Str} (hs : split l = k :: args) : isSegment l = true ↔ k = cs!"SEG" := by
  simp [isSegment, key, hs]

theorem segment_not_vertex {l : Str} (h : isSegment l = true) : isVertex l = false := by
  unfold isSegment at h
  unfold isVertex
  rw [beq_iff_eq.1 h]
  rfl

theorem plLine_vertex {ec : ECurve D} {l k : Str} {args : List Str} (hs : split l = k :: args) (hv : isVertex l = true) {ec' : ECurve D} :
    plLine ec k (k :: args) = .ok ec' ↔ ∃ o p, (if ec.points = [] then Number l o else o = ec.offset) ∧ Coordinates ec.crs.zPos l p ∧
      ec' = { ec with offset := o, points := ec.points ++ [p] } := by
  unfold plLine
  rw [if_pos ((isVertex_of hs).1 hv), plVrtx, ← hs]
  constructor
  · intro h
    obtain ⟨o, h1, h⟩ := bind_eq_ok.1 h
    obtain ⟨p, h2, h⟩ := bind_eq_ok.1 h
    refine ⟨o, p, ?_, point_iff.1 h2, (Res.ok.inj h).symm⟩
    cases hp : ec.points with
    | nil =>
      rw [hp] at h1
      rw [if_pos rfl]
      exact number_iff.1 h1
    | cons q qs =>
      rw [hp] at h1
      rw [if_neg (by simp)]
      exact (Res.ok.inj h1).symm
  · rintro ⟨o, p, h1, h2, rfl⟩
    cases hp : ec.points with
    | nil =>
      rw [hp, if_pos rfl] at h1
      have := number_iff.2 h1
      simp only [List.isEmpty_nil, if_true]
      rw [this, ok_bind, point_iff.2 h2]
      rfl
    | cons q qs =>
      rw [hp, if_neg (by simp)] at h1
      simp only [List.isEmpty_cons, Bool.false_eq_true, if_false, pure_eq, ok_bind]
      rw [point_iff.2 h2, h1]
      rfl

theorem plLine_segment {ec : ECurve D} {l k : Str} {args : List Str} (hs : split l = k :: args) (hv : isSegment l = true) {ec' : ECurve D} :
    plLine ec k (k :: args) = .ok ec' ↔ ∃ e, Segment ec.offset l e ∧ ec' = { ec with edges := ec.edges ++ [e] } := by
  have hn : ¬ (k = cs!"VRTX" ∨ k = cs!"PVRTX") := fun h => by
    have := segment_not_vertex hv
    rw [(isVertex_of hs).2 h] at this
    cases this
  unfold plLine
  rw [if_neg hn, if_pos ((isSegment_of hs).1 hv), plSeg, ← hs]
  constructor
  · intro h
    obtain ⟨a', ha', h⟩ := bind_eq_ok.1 h
    obtain ⟨a, ha, h⟩ := bind_eq_ok.1 h
    obtain ⟨b', hb', h⟩ := bind_eq_ok.1 h
    obtain ⟨b, hb, h⟩ := bind_eq_ok.1 h
    refine ⟨_, segment_iff.1 ?_, (Res.ok.inj h).symm⟩
    simp only [ha', ok_bind, ha, hb', hb, pure_eq]
  · rintro ⟨e, h, rfl⟩
    have h := segment_iff.2 h
    obtain ⟨a', ha', h⟩ := bind_eq_ok.1 h
    obtain ⟨a, ha, h⟩ := bind_eq_ok.1 h
    obtain ⟨b', hb', h⟩ := bind_eq_ok.1 h
    obtain ⟨b, hb, h⟩ := bind_eq_ok.1 h
    simp only [ha', ok_bind, ha, hb', hb, pure_eq]
    rw [← Res.ok.inj h]

theorem plLine_other {ec : ECurve D} {l k : Str} {args : List Str} (hs : split l = k :: args) (hv : isVertex l = false) (hg : isSegment l = false) :
    plLine ec k (k :: args) = .ok ec := by
  unfold plLine
  rw [if_neg, if_neg]
  · intro h
    rw [(isSegment_of hs).2 h] at hg
    cases hg
  · intro h
    rw [(isVertex_of hs).2 h] at hv
    cases hv

theorem forall₂_append_left {α β : Type} {R : α → β → Prop} {a b : List α} {c : List β} :
    List.Forall₂ R (a ++ b) c ↔ ∃ c1 c2, List.Forall₂ R a c1 ∧ List.Forall₂ R b c2 ∧ c = c1 ++ c2 := by
  induction a generalizing c with
  | nil => simp
  | cons x a ih =>
    constructor
    · intro h
      cases h with
      | cons h1 h2 =>
        obtain ⟨c1, c2, h3, h4, rfl⟩ := ih.1 h2
        exact ⟨_ :: c1, c2, .cons h1 h3, h4, rfl⟩
    · rintro ⟨c1, c2, h1, h2, rfl⟩
      cases h1 with
      | cons h3 h4 => exact .cons h3 (ih.2 ⟨_, _, h4, h2, rfl⟩)

theorem lines_cons {up : Bool} {base : Nat} {l : Str} {ls : File} {ps : List (Pt D)} {es : List (Nat × Nat)} : Lines up base (l :: ls) ps es ↔
    ∃ p0 e0 ps' es', Lines up base [l] p0 e0 ∧ Lines up base ls ps' es' ∧ ps = p0 ++ ps' ∧ es = e0 ++ es' := by
  have hf : ∀ q : Str → Bool, (l :: ls).filter q = [l].filter q ++ ls.filter q := fun q => by rw [← List.filter_append]; rfl
  unfold Lines
  rw [hf, hf]
  constructor
  · rintro ⟨h1, h2⟩
    obtain ⟨a, b, c, d, rfl⟩ := forall₂_append_left.1 h1
    obtain ⟨a', b', c', d', rfl⟩ := forall₂_append_left.1 h2
    exact ⟨a, a', b, b', ⟨c, c'⟩, ⟨d, d'⟩, rfl, rfl⟩
  · rintro ⟨a, a', b, b', ⟨c, c'⟩, ⟨d, d'⟩, rfl, rfl⟩
    exact ⟨List.rel_append c d, List.rel_append c' d'⟩

theorem lines_vertex {up : Bool} {base : Nat} {l : Str} (hv : isVertex l = true) {ps : List (Pt D)} {es : List (Nat × Nat)} :
    Lines up base [l] ps es ↔ ∃ p, Coordinates up l p ∧ ps = [p] ∧ es = [] := by
  have hg : isSegment l = false := by
    by_contra h
    rw [Bool.not_eq_false] at h
    rw [segment_not_vertex h] at hv
    cases hv
  simp only [Lines, List.filter_cons, hv, hg, if_true, Bool.false_eq_true, if_false, List.filter_nil, List.forall₂_nil_left_iff]
  constructor
  · rintro ⟨h, rfl⟩
    cases h with
    | cons h1 h2 => cases h2; exact ⟨_, h1, rfl, rfl⟩
  · rintro ⟨p, h, rfl, rfl⟩
    exact ⟨.cons h .nil, rfl⟩

theorem lines_segment {up : Bool} {base : Nat} {l : Str} (hg : isSegment l = true) {ps : List (Pt D)} {es : List (Nat × Nat)} :
    Lines up base [l] ps es ↔ ∃ e, Segment base l e ∧ ps = [] ∧ es = [e] := by
  have hv := segment_not_vertex hg
  simp only [Lines, List.filter_cons, hv, hg, if_true, Bool.false_eq_true, if_false, List.filter_nil, List.forall₂_nil_left_iff]
  constructor
  · rintro ⟨rfl, h⟩
    cases h with
    | cons h1 h2 => cases h2; exact ⟨_, h1, rfl, rfl⟩
  · rintro ⟨p, h, rfl, rfl⟩
    exact ⟨rfl, .cons h .nil⟩

theorem lines_other {up : Bool} {base : Nat} {l : Str} (hv : isVertex l = false) (hg : isSegment l = false) {ps : List (Pt D)} {es : List (Nat × Nat)} :
    Lines up base [l] ps es ↔ ps = [] ∧ es = [] := by
  simp [Lines, hv, hg]

/-- What a line does once there is a vertex. -/
theorem plLine_known {ec : ECurve D} (hne : ec.points ≠ []) {l k : Str} {args : List Str} (hs : split l = k :: args) {ec' : ECurve D} :
    plLine ec k (k :: args) = .ok ec' ↔ ∃ ps es, Lines ec.crs.zPos ec.offset [l] ps es ∧
      ec' = { ec with points := ec.points ++ ps, edges := ec.edges ++ es } := by
  cases hv : isVertex l with
  | true =>
    simp only [plLine_vertex hs hv, lines_vertex hv, if_neg hne]
    constructor
    · rintro ⟨o, p, rfl, h, rfl⟩; exact ⟨[p], [], ⟨p, h, rfl, rfl⟩, by simp⟩
    · rintro ⟨_, _, ⟨p, h, rfl, rfl⟩, rfl⟩; exact ⟨_, p, rfl, h, by simp⟩
  | false =>
    cases hg : isSegment l with
    | true =>
      simp only [plLine_segment hs hg, lines_segment hg]
      constructor
      · rintro ⟨e, h, rfl⟩; exact ⟨[], [e], ⟨e, h, rfl, rfl⟩, by simp⟩
      · rintro ⟨_, _, ⟨e, h, rfl, rfl⟩, rfl⟩; exact ⟨e, h, by simp⟩
    | false =>
      simp only [plLine_other hs hv hg, lines_other hv hg]
      constructor
      · intro h; exact ⟨[], [], ⟨rfl, rfl⟩, by rw [← Res.ok.inj h]; simp⟩
      · rintro ⟨_, _, ⟨rfl, rfl⟩, rfl⟩; simp

/-- The lines of an object after its first vertex. -/
theorem loop_known (f : File) (ec : ECurve D) (hne : ec.points ≠ []) {ec' : ECurve D} {rest : File} : readIlinesLoop ec f = .ok (ec', rest) ↔
    ∃ body ps es, UntilEnd f body rest ∧ Lines ec.crs.zPos ec.offset body ps es ∧
      ec' = { ec with points := ec.points ++ ps, edges := ec.edges ++ es } := by
  induction f generalizing ec with
  | nil =>
    rw [readIlinesLoop]
    constructor
    · intro h
      cases h
      exact ⟨[], [], [], ⟨by simp, Or.inl ⟨rfl, rfl⟩⟩, ⟨.nil, .nil⟩, by simp⟩
    · rintro ⟨body, ps, es, ⟨_, h⟩, hl, rfl⟩
      rcases h with ⟨rfl, rfl⟩ | ⟨e, he, _⟩
      · obtain ⟨h1, h2⟩ := hl
        cases h1
        cases h2
        simp
      · simp at he
  | cons l ls ih =>
    rw [readIlinesLoop]
    split
    · rename_i hs
      constructor
      · intro h; cases h
      · rintro ⟨body, ps, es, h, _, _⟩
        have he : isEnd l = false := by simp [isEnd, key, hs]
        obtain ⟨b, rfl⟩ := untilEnd_shape he h
        exact absurd hs (h.1 l (by simp)).1
    · rename_i k args hs
      by_cases hk : k = cs!"END"
      · rw [if_pos hk]
        have he := (isEnd_of hs).2 hk
        simp only [untilEnd_end he]
        constructor
        · intro h
          cases h
          exact ⟨[], [], [], ⟨rfl, rfl⟩, ⟨.nil, .nil⟩, by simp⟩
        · rintro ⟨_, ps, es, ⟨rfl, rfl⟩, ⟨h1, h2⟩, rfl⟩
          cases h1
          cases h2
          simp
      · rw [if_neg hk]
        have he : isEnd l = false := Bool.eq_false_iff.2 fun h => hk ((isEnd_of hs).1 h)
        have hb : split l ≠ [] := by rw [hs]; simp
        constructor
        · intro h
          obtain ⟨ec1, h1, h2⟩ := bind_eq_ok.1 h
          obtain ⟨p0, e0, h3, rfl⟩ := (plLine_known hne hs).1 h1
          obtain ⟨body, ps, es, h4, h5, rfl⟩ := (ih _ (by simp [hne])).1 h2
          exact ⟨l :: body, p0 ++ ps, e0 ++ es, (untilEnd_cons hb he).2 h4, lines_cons.2 ⟨p0, e0, ps, es, h3, h5, rfl, rfl⟩, by simp⟩
        · rintro ⟨body, ps, es, h1, h2, rfl⟩
          obtain ⟨b, rfl⟩ := untilEnd_shape he h1
          obtain ⟨p0, e0, ps, es, h3, h5, rfl, rfl⟩ := lines_cons.1 h2
          rw [(plLine_known hne hs).2 ⟨p0, e0, h3, rfl⟩, ok_bind]
          refine (ih _ (by simp [hne])).2 ⟨b, ps, es, (untilEnd_cons hb he).1 h1, h5, by simp⟩

theorem plLine_plain {ec : ECurve D} {l k : Str} {args : List Str} (hs : split l = k :: args) (hv : isVertex l = false) {ec' : ECurve D} :
    plLine ec k (k :: args) = .ok ec' ↔ ∃ es, List.Forall₂ (Segment ec.offset) ([l].filter isSegment) es ∧ ec' = { ec with edges := ec.edges ++ es } := by
  cases hg : isSegment l with
  | true =>
    simp only [plLine_segment hs hg, List.filter_cons, hg, if_true, List.filter_nil]
    constructor
    · rintro ⟨e, h, rfl⟩; exact ⟨[e], .cons h .nil, rfl⟩
    · rintro ⟨es, h, rfl⟩
      cases h with
      | cons h1 h2 => cases h2; exact ⟨_, h1, rfl⟩
  | false =>
    simp only [plLine_other hs hv hg, List.filter_cons, hg, Bool.false_eq_true, if_false, List.filter_nil, List.forall₂_nil_left_iff]
    constructor
    · intro h; exact ⟨[], rfl, by rw [← Res.ok.inj h]; simp⟩
    · rintro ⟨_, rfl, rfl⟩; simp

theorem filter_cons_append {α : Type} (q : α → Bool) (a : α) (as : List α) : (a :: as).filter q = [a].filter q ++ as.filter q := by
  rw [← List.filter_append]; rfl

theorem body_cons_vertex {up : Bool} {l : Str} {ls : File} (hv : isVertex l = true) {ps : List (Pt D)} {es : List (Nat × Nat)} :
    Body up (l :: ls) ps es ↔ ∃ o p ps', Number l o ∧ Coordinates up l p ∧ Lines up o ls ps' es ∧ ps = p :: ps' := by
  have hg : isSegment l = false := by
    by_contra h
    rw [Bool.not_eq_false] at h
    rw [segment_not_vertex h] at hv
    cases hv
  unfold Body Lines
  simp only [List.filter_cons, hv, if_true]
  constructor
  · rintro ⟨h1, before, after, base, es1, es2, he, hb, ha, h2, h3, rfl⟩
    cases before with
    | cons x xs =>
      rw [(List.cons.inj he).1] at hv
      rw [hb x (by simp)] at hv
      cases hv
    | nil =>
      cases h2
      rw [List.nil_append] at he
      subst he
      cases h1 with
      | cons h4 h5 =>
        refine ⟨base, _, _, (ha l (by simp)).2, h4, ⟨h5, ?_⟩, rfl⟩
        rw [List.filter_cons, hg] at h3
        exact h3
  · rintro ⟨o, p, ps', h1, h2, ⟨h3, h4⟩, rfl⟩
    refine ⟨.cons h2 h3, [], l :: ls, o, [], es, rfl, by simp, ?_, .nil, ?_, rfl⟩
    · intro x hx
      simp only [List.head?_cons, Option.mem_def, Option.some.injEq] at hx
      subst hx
      exact ⟨hv, h1⟩
    · rw [List.filter_cons, hg]
      exact h4

theorem body_cons_plain {up : Bool} {l : Str} {ls : File} (hv : isVertex l = false) {ps : List (Pt D)} {es : List (Nat × Nat)} :
    Body up (l :: ls) ps es ↔ ∃ e0 es', List.Forall₂ (Segment 1) ([l].filter isSegment) e0 ∧ Body up ls ps es' ∧ es = e0 ++ es' := by
  unfold Body
  rw [show (l :: ls).filter isVertex = ls.filter isVertex by rw [List.filter_cons, hv]; rfl]
  constructor
  · rintro ⟨h1, before, after, base, es1, es2, he, hb, ha, h2, h3, rfl⟩
    cases before with
    | nil =>
      rw [List.nil_append] at he
      subst he
      rw [(ha l (by simp)).1] at hv
      cases hv
    | cons x xs =>
      obtain ⟨rfl, rfl⟩ := List.cons.inj he
      rw [filter_cons_append] at h2
      obtain ⟨c1, c2, h4, h5, rfl⟩ := forall₂_append_left.1 h2
      exact ⟨c1, c2 ++ es2, h4, ⟨h1, xs, after, base, c2, es2, rfl, fun y hy => hb y (by simp [hy]), ha, h5, h3, rfl⟩, by simp⟩
  · rintro ⟨e0, es', h0, ⟨h1, before, after, base, es1, es2, rfl, hb, ha, h2, h3, rfl⟩, rfl⟩
    refine ⟨h1, l :: before, after, base, e0 ++ es1, es2, rfl, ?_, ha, ?_, h3, by simp⟩
    · intro x hx
      rcases List.mem_cons.1 hx with rfl | hx
      · exact hv
      · exact hb x hx
    · rw [filter_cons_append]
      exact List.rel_append h0 h2

theorem body_nil {up : Bool} {ps : List (Pt D)} {es : List (Nat × Nat)} : Body up [] ps es ↔ ps = [] ∧ es = [] := by
  unfold Body
  constructor
  · rintro ⟨h1, before, after, base, es1, es2, he, hb, ha, h2, h3, rfl⟩
    obtain ⟨rfl, rfl⟩ := List.append_eq_nil_iff.1 he.symm
    cases h1
    cases h2
    cases h3
    exact ⟨rfl, rfl⟩
  · rintro ⟨rfl, rfl⟩
    exact ⟨.nil, [], [], 1, [], [], rfl, by simp, by simp, .nil, .nil, rfl⟩

theorem loop_shape (f : File) (ec : ECurve D) {ec' : ECurve D} {rest : File} (h : readIlinesLoop ec f = .ok (ec', rest)) :
    ∃ o ps es, ec' = { ec with offset := o, points := ec.points ++ ps, edges := ec.edges ++ es } := by
  induction f generalizing ec with
  | nil =>
    cases h
    exact ⟨ec'.offset, [], [], by simp⟩
  | cons l ls ih =>
    rw [readIlinesLoop] at h
    split at h
    · cases h
    · rename_i k args hs
      split at h
      · cases h
        exact ⟨ec'.offset, [], [], by simp⟩
      · obtain ⟨ec1, h1, h2⟩ := bind_eq_ok.1 h
        obtain ⟨o, ps, es, rfl⟩ := ih _ h2
        cases hv : isVertex l with
        | true =>
          obtain ⟨o', p, -, -, rfl⟩ := (plLine_vertex hs hv).1 h1
          exact ⟨o, p :: ps, es, by simp⟩
        | false =>
          obtain ⟨e0, -, rfl⟩ := (plLine_plain hs hv).1 h1
          exact ⟨o, ps, e0 ++ es, by simp⟩

/-- The lines of an object. -/
theorem loop_iff (f : File) (ec : ECurve D) (hp : ec.points = []) (ho : ec.offset = 1) {ps : List (Pt D)} {es : List (Nat × Nat)} {rest : File} :
    (∃ o, readIlinesLoop ec f = .ok ({ ec with offset := o, points := ps, edges := ec.edges ++ es }, rest)) ↔
      ∃ body, UntilEnd f body rest ∧ Body ec.crs.zPos body ps es := by
  induction f generalizing ec es with
  | nil =>
    simp only [readIlinesLoop]
    constructor
    · rintro ⟨o, h⟩
      obtain ⟨h1, rfl⟩ := Prod.mk.inj (Res.ok.inj h)
      have e1 := congrArg ECurve.points h1
      have e2 := congrArg ECurve.edges h1
      simp only at e1 e2
      exact ⟨[], ⟨by simp, Or.inl ⟨rfl, rfl⟩⟩, body_nil.2 ⟨by rw [← e1, hp], by simpa using e2⟩⟩
    · rintro ⟨body, ⟨_, h⟩, hl⟩
      rcases h with ⟨rfl, rfl⟩ | ⟨e, he, _⟩
      · obtain ⟨rfl, rfl⟩ := body_nil.1 hl
        exact ⟨ec.offset, by rw [List.append_nil, ← hp]⟩
      · simp at he
  | cons l ls ih =>
    rw [readIlinesLoop]
    split
    · rename_i hs
      constructor
      · rintro ⟨o, h⟩; cases h
      · rintro ⟨body, h, _⟩
        have he : isEnd l = false := by simp [isEnd, key, hs]
        obtain ⟨b, rfl⟩ := untilEnd_shape he h
        exact absurd hs (h.1 l (by simp)).1
    · rename_i k args hs
      by_cases hk : k = cs!"END"
      · rw [if_pos hk]
        have he := (isEnd_of hs).2 hk
        simp only [untilEnd_end he]
        constructor
        · rintro ⟨o, h⟩
          obtain ⟨h1, rfl⟩ := Prod.mk.inj (Res.ok.inj h)
          have e1 := congrArg ECurve.points h1
          have e2 := congrArg ECurve.edges h1
          simp only at e1 e2
          exact ⟨[], ⟨rfl, rfl⟩, body_nil.2 ⟨by rw [← e1, hp], by simpa using e2⟩⟩
        · rintro ⟨_, ⟨rfl, rfl⟩, hl⟩
          obtain ⟨rfl, rfl⟩ := body_nil.1 hl
          exact ⟨ec.offset, by rw [List.append_nil, ← hp]⟩
      · rw [if_neg hk]
        have he : isEnd l = false := Bool.eq_false_iff.2 fun h => hk ((isEnd_of hs).1 h)
        have hb : split l ≠ [] := by rw [hs]; simp
        cases hv : isVertex l with
        | true =>
          constructor
          · rintro ⟨o, h⟩
            obtain ⟨ec1, h1, h2⟩ := bind_eq_ok.1 h
            obtain ⟨o', p, h3, h4, rfl⟩ := (plLine_vertex hs hv).1 h1
            rw [if_pos hp] at h3
            obtain ⟨body, ps', es', h5, h6, h7⟩ := (loop_known _ _ (by simp)).1 h2
            have e1 := congrArg ECurve.points h7
            have e2 := congrArg ECurve.edges h7
            simp only [List.append_cancel_left_eq] at e1 e2
            subst e2
            exact ⟨l :: body, (untilEnd_cons hb he).2 h5, (body_cons_vertex hv).2 ⟨o', p, ps', h3, h4, h6, by rw [e1, hp]; rfl⟩⟩
          · rintro ⟨body, h1, h2⟩
            obtain ⟨b, rfl⟩ := untilEnd_shape he h1
            obtain ⟨o, p, ps', h3, h4, h5, rfl⟩ := (body_cons_vertex hv).1 h2
            refine ⟨o, ?_⟩
            rw [(plLine_vertex hs hv).2 ⟨o, p, by rw [if_pos hp]; exact h3, h4, rfl⟩, ok_bind]
            exact (loop_known _ _ (by simp)).2 ⟨b, ps', es, (untilEnd_cons hb he).1 h1, h5, by simp [hp]⟩
        | false =>
          constructor
          · rintro ⟨o, h⟩
            obtain ⟨ec1, h1, h2⟩ := bind_eq_ok.1 h
            obtain ⟨e0, h3, rfl⟩ := (plLine_plain hs hv).1 h1
            obtain ⟨o', ps', es', e⟩ := loop_shape _ _ h2
            have e1 := congrArg ECurve.points e
            have e2 := congrArg ECurve.edges e
            simp only [hp, List.nil_append, List.append_assoc, List.append_cancel_left_eq] at e1 e2
            subst e1 e2
            obtain ⟨body, h4, h5⟩ := (ih { ec with edges := ec.edges ++ e0 } hp ho).1 ⟨o, by simpa using h2⟩
            exact ⟨l :: body, (untilEnd_cons hb he).2 h4, (body_cons_plain hv).2 ⟨e0, es', by rw [← ho]; exact h3, h5, rfl⟩⟩
          · rintro ⟨body, h1, h2⟩
            obtain ⟨b, rfl⟩ := untilEnd_shape he h1
            obtain ⟨e0, es', h3, h4, rfl⟩ := (body_cons_plain hv).1 h2
            obtain ⟨o, ho'⟩ := (ih { ec with edges := ec.edges ++ e0 } hp ho).2 ⟨b, (untilEnd_cons hb he).1 h1, h4⟩
            refine ⟨o, ?_⟩
            rw [(plLine_plain hs hv).2 ⟨e0, by rw [ho]; exact h3, rfl⟩, ok_bind, ho']
            simp

/-! ## The objects of a file -/

/-- An object: its name, its points and its edges, by the numbers of their vertices in the object. -/
structure Object (D : Type) where
  name : Option Str
  points : List (Pt D)
  edges : List (Nat × Nat)

/-- The objects of a file: each one starts at the first line `GOCAD PLine` after the previous one, its header and its coordinate system follow, and its lines
are those after the first line `ILINE`, up to a line `END` or the end of the file. -/
inductive Objects : File → List (Object D) → Prop
  | none {f : File} (h : ∀ l ∈ f, startsWith l cs!"GOCAD PLine" = false) : Objects f []
  | cons {f title f1 name f2 crs f3 iline f4 body ps es rest os} (h1 : First cs!"GOCAD PLine" f title f1) (h2 : readHeader f1 = .ok (name, f2))
      (h3 : readCrs f2 = .ok (crs, f3)) (h4 : First cs!"ILINE" f3 iline f4) (h5 : UntilEnd f4 body rest) (h6 : Body crs.zPos body ps es)
      (h7 : Objects rest os) : Objects f (⟨name, ps, es⟩ :: os)

/-- A vertex of an object that is loaded when there are already `k` vertices. -/
def place (k : Nat) (e : Nat × Nat) : Nat × Nat := ((e.1 + k) % W, (e.2 + k) % W)

/-- The edges of objects that are loaded when there are already `k` vertices. -/
def placed : Nat → List (Object D) → List (Nat × Nat)
  | _, [] => []
  | k, o :: os => o.edges.map (place k) ++ placed (k + o.points.length) os

/-- The edges of each object are between vertices that are loaded. -/
def Fits : Nat → List (Object D) → Prop
  | _, [] => True
  | k, o :: os => (∀ e ∈ o.edges, (place k e).1 < k + o.points.length ∧ (place k e).2 < k + o.points.length) ∧ Fits (k + o.points.length) os

/-- The last name. -/
def lastName : Option Str → List (Object D) → Option Str
  | n, [] => n
  | n, o :: os => lastName (o.name <|> n) os

/-- The curve of the objects. -/
def curveOf (os : List (Object D)) : Loaded Edge D :=
  { name := lastName none os, points := os.flatMap Object.points, cells := placed 0 os }

omit [Num D] in
theorem build_iff {m m' : Loaded Edge D} {ec : ECurve D} : buildCurve m ec = .ok m' ↔
    (∀ e ∈ ec.edges, (place m.points.length e).1 < m.points.length + ec.points.length ∧ (place m.points.length e).2 < m.points.length + ec.points.length) ∧
      m' = { name := ec.name <|> m.name, points := m.points ++ ec.points, cells := m.cells ++ ec.edges.map (place m.points.length) } := by
  unfold buildCurve
  simp only [List.length_append]
  have key : ∀ (es : List (Nat × Nat)) (r : List Edge), Res.mapM' (fun e : Nat × Nat =>
      if (place m.points.length e).1 < m.points.length + ec.points.length ∧ (place m.points.length e).2 < m.points.length + ec.points.length
      then .ok (place m.points.length e) else .ub) es = .ok r ↔
      (∀ e ∈ es, (place m.points.length e).1 < m.points.length + ec.points.length ∧ (place m.points.length e).2 < m.points.length + ec.points.length) ∧
        r = es.map (place m.points.length) := by
    intro es
    induction es with
    | nil => intro r; simp [eq_comm]
    | cons e es ih =>
      intro r
      rw [mapM'_cons]
      constructor
      · intro h
        obtain ⟨b, h1, h⟩ := bind_eq_ok.1 h
        obtain ⟨bs, h2, h⟩ := bind_eq_ok.1 h
        obtain ⟨h3, rfl⟩ := (ih bs).1 h2
        split at h1
        · rename_i hc
          refine ⟨?_, ?_⟩
          · intro x hx
            rcases List.mem_cons.1 hx with rfl | hx
            · exact hc
            · exact h3 x hx
          · rw [← Res.ok.inj h, ← Res.ok.inj h1]; rfl
        · cases h1
      · rintro ⟨h1, rfl⟩
        rw [if_pos (h1 e (by simp)), ok_bind, (ih _).2 ⟨fun x hx => h1 x (by simp [hx]), rfl⟩]
        rfl
  constructor
  · intro h
    obtain ⟨r, h1, h⟩ := bind_eq_ok.1 h
    obtain ⟨h2, rfl⟩ := (key _ _).1 h1
    exact ⟨h2, (Res.ok.inj h).symm⟩
  · rintro ⟨h, rfl⟩
    refine bind_eq_ok.2 ⟨_, (key _ _).2 ⟨h, rfl⟩, rfl⟩

/-- Reading an object. -/
theorem object_iff {f : File} {ec : ECurve D} {rest : File} (h : readECurve f = .ok (some (ec, rest))) :
    ∃ title f1 f2 f3 iline f4 body, First cs!"GOCAD PLine" f title f1 ∧ readHeader f1 = .ok (ec.name, f2) ∧ readCrs f2 = .ok (ec.crs, f3) ∧
      First cs!"ILINE" f3 iline f4 ∧ UntilEnd f4 body rest ∧ Body ec.crs.zPos body ec.points ec.edges := by
  unfold readECurve at h
  split at h
  · cases h
  · rename_i title f1 hg
    obtain ⟨⟨name, f2⟩, h1, h⟩ := bind_eq_ok.1 h
    obtain ⟨⟨crs, f3⟩, h2, h⟩ := bind_eq_ok.1 h
    obtain ⟨⟨ec', rest'⟩, h3, h⟩ := bind_eq_ok.1 h
    cases h
    unfold readIlines at h3
    obtain ⟨⟨iline, f4⟩, h4, h3⟩ := bind_eq_ok.1 h3
    dsimp only at h2 h3 h4
    obtain ⟨o, ps, es, rfl⟩ := loop_shape _ _ h3
    obtain ⟨body, h5, h6⟩ := (loop_iff f4 { name, crs } rfl rfl (ps := ps) (es := es) (rest := rest)).1 ⟨o, by simpa using h3⟩
    exact ⟨title, f1, f2, f3, iline, f4, body, first_iff.1 hg, h1, h2, goto_iff.1 h4, h5, by simpa using h6⟩

theorem object_read {f : File} {title : Str} {f1 : File} {name : Option Str} {f2 : File} {crs : Crs} {f3 : File} {iline : Str} {f4 body rest : File}
    {ps : List (Pt D)} {es : List (Nat × Nat)} (h1 : First cs!"GOCAD PLine" f title f1) (h2 : readHeader f1 = .ok (name, f2))
    (h3 : readCrs f2 = .ok (crs, f3)) (h4 : First cs!"ILINE" f3 iline f4) (h5 : UntilEnd f4 body rest) (h6 : Body crs.zPos body ps es) :
    ∃ o, readECurve f = .ok (some (⟨o, name, crs, ps, es⟩, rest)) := by
  obtain ⟨o, h⟩ := (loop_iff f4 { name, crs } rfl rfl (ps := ps) (es := es) (rest := rest)).2 ⟨body, h5, h6⟩
  refine ⟨o, ?_⟩
  unfold readECurve
  rw [first_iff.2 h1]
  dsimp only
  rw [h2, ok_bind]
  dsimp only
  rw [h3, ok_bind]
  dsimp only
  rw [readIlines, goto_iff.2 h4, ok_bind]
  dsimp only
  rw [h]
  simp

theorem objects_of_read {f rest : File} {ec : ECurve D} {os : List (Object D)} (h : readECurve f = .ok (some (ec, rest))) (h' : Objects rest os) :
    Objects f (⟨ec.name, ec.points, ec.edges⟩ :: os) := by
  obtain ⟨title, f1, f2, f3, iline, f4, body, g1, g2, g3, g4, g5, g6⟩ := object_iff h
  exact .cons g1 g2 g3 g4 g5 g6 h'

theorem none_iff {f : File} : (readECurve f : Res (Option (ECurve D × File))) = .ok none ↔ ∀ l ∈ f, startsWith l cs!"GOCAD PLine" = false := by
  unfold readECurve
  cases hg : gotoKeyword? cs!"GOCAD PLine" f with
  | none =>
    refine ⟨fun _ => ?_, fun _ => rfl⟩
    rcases goto_cases cs!"GOCAD PLine" f with ⟨l, r, h, _⟩ | ⟨_, h⟩
    · rw [gotoKeyword, hg] at h; cases h
    · exact h
  | some x =>
    constructor
    · intro h
      obtain ⟨_, _, h⟩ := bind_eq_ok.1 h
      obtain ⟨_, _, h⟩ := bind_eq_ok.1 h
      obtain ⟨_, _, h⟩ := bind_eq_ok.1 h
      cases h
    · intro h
      obtain ⟨pre, rfl, hl, _⟩ := first_iff.1 hg
      rw [h x.1 (by simp)] at hl
      cases hl

theorem loadLoop_iff (n : Nat) (m m' : Loaded Edge D) (f : File) (hn : f.length < n) (hm : m.store = []) : loadPLLoop n m f = .ok m' ↔
    ∃ os, Objects f os ∧ Fits m.points.length os ∧
      m' = { name := lastName m.name os, points := m.points ++ os.flatMap Object.points, cells := m.cells ++ placed m.points.length os } := by
  induction n generalizing m f with
  | zero => omega
  | succ n ih =>
    rw [loadPLLoop]
    have hf := (GocadEnds.readECurve_fwd (D := D) f).2
    constructor
    · intro h
      obtain ⟨r, h1, h⟩ := bind_eq_ok.1 h
      cases r with
      | none =>
        cases h
        exact ⟨[], .none (none_iff.1 h1), trivial, by simp [lastName, placed, ← hm]⟩
      | some x =>
        obtain ⟨ec, rest⟩ := x
        obtain ⟨m1, h2, h⟩ := bind_eq_ok.1 h
        obtain ⟨h3, rfl⟩ := build_iff.1 h2
        obtain ⟨title, f1, f2, f3, iline, f4, body, g1, g2, g3, g4, g5, g6⟩ := object_iff h1
        obtain ⟨os, k1, k2, rfl⟩ := (ih _ rest (by have := hf _ _ h1; omega) rfl).1 h
        refine ⟨⟨ec.name, ec.points, ec.edges⟩ :: os, .cons g1 g2 g3 g4 g5 g6 k1, ⟨h3, by simpa using k2⟩, ?_⟩
        simp [lastName, placed]
    · rintro ⟨os, h1, h2, rfl⟩
      cases h1 with
      | none h =>
        rw [none_iff.2 h]
        simp [lastName, placed, ← hm]
      | cons g1 g2 g3 g4 g5 g6 g7 =>
        obtain ⟨o, ho⟩ := object_read g1 g2 g3 g4 g5 g6
        have hl := hf _ _ ho
        rw [ho, ok_bind]
        dsimp only
        rw [build_iff.2 ⟨h2.1, rfl⟩, ok_bind]
        refine (ih _ _ (by omega) rfl).2 ⟨_, g7, by simpa using h2.2, ?_⟩
        simp [lastName, placed]

/-- **C156**: the curve files that load, and the curve they give. -/
theorem curve_loads_iff (f : File) (m : Loaded Edge D) : loadPL f = .ok m ↔ ∃ os, Objects f os ∧ Fits 0 os ∧ m = curveOf os := by
  rw [loadPL, loadLoop_iff _ _ _ _ (by omega) rfl]
  simp [curveOf]

/-- The objects of a file are determined by its text. -/
theorem objects_unique {f : File} {os os' : List (Object D)} (h : Objects f os) (h' : Objects f os') : os = os' := by
  induction h generalizing os' with
  | none h =>
    cases h' with
    | none _ => rfl
    | cons g1 _ _ _ _ _ _ =>
      obtain ⟨pre, rfl, hl, _⟩ := g1
      rw [h _ (by simp)] at hl
      cases hl
  | cons g1 g2 g3 g4 g5 g6 g7 ih =>
    cases h' with
    | none h =>
      obtain ⟨pre, rfl, hl, _⟩ := g1
      rw [h _ (by simp)] at hl
      cases hl
    | cons k1 k2 k3 k4 k5 k6 k7 =>
      obtain ⟨o, ho⟩ := object_read g1 g2 g3 g4 g5 g6
      obtain ⟨o', ho'⟩ := object_read k1 k2 k3 k4 k5 k6
      rw [ho] at ho'
      cases ho'
      rw [ih k7]

/-- A number below the base of its object, by no more than the number of vertices loaded before, is a vertex of an object before. -/
theorem earlier_vertex {i base k : Nat} (h1 : i < base) (h2 : base ≤ i + k) (hb : base ≤ W) (hk : k < W) :
    (place k (sub32 i base, sub32 i base)).1 = k - (base - i) := by
  unfold place sub32
  dsimp only
  rw [Nat.mod_eq_of_lt (show i + W - base < W by omega), show i + W - base + k = W + (k - (base - i)) by omega, Nat.add_mod_left,
    Nat.mod_eq_of_lt (by omega)]

/-- **C156, the other files.**  When each line has the words of its keyword, a file that does not load is refused, unless an object of it has a number that is none of
its vertices. -/
theorem curve_outcomes_partial {f : File} (h : ∀ l ∈ f, GocadUb.Complete l) : (∃ m : Loaded Edge D, loadPL f = .ok m) ∨ (loadPL f : Res (Loaded Edge D)) = .throw ∨
    ∃ (u g : File) (title : Str) (f1 : File) (name : Option Str) (f2 : File) (crs : Crs) (f3 : File) (iline : Str) (f4 body rest : File) (ps : List (Pt D))
      (es : List (Nat × Nat)), f = u ++ g ∧ First cs!"GOCAD PLine" g title f1 ∧ readHeader f1 = .ok (name, f2) ∧ readCrs f2 = .ok (crs, f3) ∧
      First cs!"ILINE" f3 iline f4 ∧ UntilEnd f4 body rest ∧ Body crs.zPos body ps es ∧ ∃ e ∈ es, ps.length ≤ e.1 ∨ ps.length ≤ e.2 := by
  cases hr : (loadPL f : Res (Loaded Edge D)) with
  | ok m => exact Or.inl ⟨m, rfl⟩
  | throw => exact Or.inr (Or.inl rfl)
  | diverge => exact absurd hr (GocadEnds.loadPL_terminates f)
  | ub =>
    refine Or.inr (Or.inr ?_)
    by_contra hno
    refine GocadUb.no_ub_pl_partial (D := D) h ?_ hr
    intro u g hf ec r he
    obtain ⟨title, f1, f2, f3, iline, f4, body, g1, g2, g3, g4, g5, g6⟩ := object_iff he
    intro e hm
    by_contra hc
    exact hno ⟨u, g, title, f1, ec.name, f2, ec.crs, f3, iline, f4, body, r, ec.points, ec.edges, hf, g1, g2, g3, g4, g5, g6, e, hm, by omega⟩

/-! ## C159: the vertices of a segment are those of its object -/

/-- C159 for curves: in a file that loads, the ends of a segment are vertices of its object. -/
def OwnVertices : Prop := ∀ (f : File) (os : List (Object Int)) (m : Loaded Edge Int), Objects f os → loadPL f = .ok m →
  ∀ o ∈ os, ∀ e ∈ o.edges, e.1 < o.points.length ∧ e.2 < o.points.length

theorem end_cases {i k n : Nat} (hi : i < W) (hk : k + n ≤ W) (h : (i + k) % W < k + n) : i < n ∨ (W ≤ i + k ∧ (i + k) % W < k) := by
  unfold W at *
  omega

theorem segment_lt {base : Nat} {ls : File} {es : List (Nat × Nat)} (h : List.Forall₂ (Segment base) ls es) : ∀ e ∈ es, e.1 < W ∧ e.2 < W := by
  induction h with
  | nil => simp
  | cons h1 _ ih =>
    intro e he
    rcases List.mem_cons.1 he with rfl | he
    · obtain ⟨_, _, _, _, i, j, -, -, -, rfl⟩ := h1
      exact ⟨Nat.mod_lt _ (by decide), Nat.mod_lt _ (by decide)⟩
    · exact ih e he

theorem objects_lt {f : File} {os : List (Object D)} (h : Objects f os) : ∀ o ∈ os, ∀ e ∈ o.edges, e.1 < W ∧ e.2 < W := by
  induction h with
  | none _ => simp
  | cons _ _ _ _ _ g6 _ ih =>
    intro o ho
    rcases List.mem_cons.1 ho with rfl | ho
    · obtain ⟨-, _, _, _, _, _, -, -, -, h2, h3, rfl⟩ := g6
      intro e he
      rcases List.mem_append.1 he with he | he
      · exact segment_lt h2 e he
      · exact segment_lt h3 e he
    · exact ih o ho

/-- **C159 for curves, the part that holds**: in a file that loads, with less than 2^32 vertices, an end of a segment is a vertex of the object of the segment, or it was
written as a number before the first vertex of the object, and is then a vertex of an object before. -/
theorem own_vertices_partial {f : File} {os u v : List (Object D)} {o : Object D} (h : Objects f os) (hf : Fits 0 os) (hn : (os.flatMap Object.points).length ≤ W)
    (he : os = u ++ o :: v) {e : Nat × Nat} (ht : e ∈ o.edges) :
    ∀ i, i = e.1 ∨ i = e.2 → i < o.points.length ∨
      (W ≤ i + (u.flatMap Object.points).length ∧ (i + (u.flatMap Object.points).length) % W < (u.flatMap Object.points).length) := by
  have hw := objects_lt h o (by simp [he]) e ht
  have key : ∀ (k : Nat) (u : List (Object D)), Fits k (u ++ o :: v) →
      (place (k + (u.flatMap Object.points).length) e).1 < k + (u.flatMap Object.points).length + o.points.length ∧
      (place (k + (u.flatMap Object.points).length) e).2 < k + (u.flatMap Object.points).length + o.points.length := by
    intro k u
    induction u generalizing k with
    | nil => intro hf; exact hf.1 e ht
    | cons x u ih =>
      intro hf
      have := ih _ hf.2
      simpa [Nat.add_assoc] using this
  rw [he] at hf
  have hc := key 0 u hf
  simp only [Nat.zero_add] at hc
  have hk : (u.flatMap Object.points).length + o.points.length ≤ W := by
    refine Nat.le_trans ?_ hn
    rw [he]
    simp only [List.flatMap_append, List.flatMap_cons, List.length_append]
    omega
  intro i hi
  rcases hi with rfl | rfl
  · exact end_cases hw.1 hk hc.1
  · exact end_cases hw.2 hk hc.2

/-- In particular the ends of the segments of the first object are vertices of it. -/
theorem first_object {f : File} {o : Object D} {os : List (Object D)} (h : Objects f (o :: os)) (hf : Fits 0 (o :: os))
    (hn : ((o :: os).flatMap Object.points).length ≤ W) : ∀ e ∈ o.edges, e.1 < o.points.length ∧ e.2 < o.points.length := by
  intro e ht
  have := own_vertices_partial (u := []) h hf hn rfl ht
  simp only [List.flatMap_nil, List.length_nil, Nat.not_lt_zero, and_false, or_false] at this
  exact ⟨this _ (Or.inl rfl), this _ (Or.inr rfl)⟩

/-- A curve of two objects; the segment of the second one names the vertex 0, and its vertices are 1 and 2. -/
def joined : File := [cs!"GOCAD PLine 1", cs!"HEADER {", cs!"}", cs!"ILINE", cs!"VRTX 1 0 0 0", cs!"VRTX 2 1 0 0", cs!"SEG 1 2", cs!"END",
  cs!"GOCAD PLine 1", cs!"HEADER {", cs!"}", cs!"ILINE", cs!"VRTX 1 5 5 5", cs!"VRTX 2 6 5 5", cs!"SEG 0 1", cs!"END"]

/-- It loads, with an edge between the two objects. -/
theorem joined_loads : (loadPL joined : Res (Loaded Edge Int)) =
    .ok { points := [⟨0, 0, 0⟩, ⟨1, 0, 0⟩, ⟨5, 5, 5⟩, ⟨6, 5, 5⟩], cells := [(0, 1), (1, 2)] } := by decide +kernel

/-- In the first object, the same number is out of bounds. -/
theorem first_object_ub : (loadPL (joined.drop 8) : Res (Loaded Edge Int)) = .ub := by decide +kernel

/-- **C159 fails** for curves. -/
theorem own_vertices_fails : ¬ OwnVertices := by
  intro h
  have r1 : readECurve joined = .ok (some ((⟨1, none, {}, [⟨0, 0, 0⟩, ⟨1, 0, 0⟩], [(0, 1)]⟩ : ECurve Int), joined.drop 8)) := by decide +kernel
  have r2 : readECurve (joined.drop 8) = .ok (some ((⟨1, none, {}, [⟨5, 5, 5⟩, ⟨6, 5, 5⟩], [(4294967295, 0)]⟩ : ECurve Int), [])) := by decide +kernel
  have e := h joined _ _ (objects_of_read r1 (objects_of_read r2 (.none (by simp)))) joined_loads _ (List.mem_cons_of_mem _ (List.mem_cons_self ..))
    (4294967295, 0) (by simp)
  exact absurd e.1 (by decide)

/-- A file whose second object is well formed. -/
example : Objects (D := Int) (joined.drop 8) [⟨none, [⟨5, 5, 5⟩, ⟨6, 5, 5⟩], [(4294967295, 0)]⟩] :=
  objects_of_read (ec := ⟨1, none, {}, [⟨5, 5, 5⟩, ⟨6, 5, 5⟩], [(4294967295, 0)]⟩) (rest := []) (by decide +kernel) (.none (by simp))

/-- A file that loads by `curve_loads_iff`, and the words of its lines. -/
example : ∃ os : List (Object Int), Objects (joined.take 8) os ∧ Fits 0 os ∧ curveOf os = { points := [⟨0, 0, 0⟩, ⟨1, 0, 0⟩], cells := [(0, 1)] } := by
  have hl : (loadPL (joined.take 8) : Res (Loaded Edge Int)) = .ok { points := [⟨0, 0, 0⟩, ⟨1, 0, 0⟩], cells := [(0, 1)] } := by decide +kernel
  obtain ⟨os, h1, h2, h3⟩ := (curve_loads_iff _ _).1 hl
  exact ⟨os, h1, h2, h3.symm⟩

example : ∀ l ∈ joined, GocadUb.Complete l := fun l hl => GocadUb.complete_of_bool (by revert l; decide +kernel)

end Verif.Props.CurveOutcomes
