import Verif.Props.PointSetOutcomes
import Verif.Props.TSurf

/-!
# C158: which surface files load

As `Props.CurveOutcomes` and `Props.PointSetOutcomes`, for `.ts` files.  Theorems about `Model.Gocad` and `Model.GocadMesh`.
-/

namespace Verif.Props.SurfaceOutcomes

open Verif Verif.Gocad Verif.GocadMesh Verif.Props.WlOutcomes Verif.Props.CurveOutcomes Verif.Props.PointSetOutcomes Res

variable {D : Type} [Num D]

/-! ## The words of the lines -/

/-- The line of a vertex at the place of another one. -/
def isAtom (l : Str) : Bool := key l == some cs!"ATOM" || key l == some cs!"PATOM"

/-- The lines that make vertices. -/
def isDef (l : Str) : Bool := isVertex l || isAtom l

def isTriangle (l : Str) : Bool := key l == some cs!"TRGL"

def isStone (l : Str) : Bool := key l == some cs!"BSTONE"

def isBorder (l : Str) : Bool := key l == some cs!"BORDER"

/-- The third word of the line is a number. -/
def Third (l : Str) (n : Nat) : Prop := ∃ k a w rest, split l = k :: a :: w :: rest ∧ parseIndex w = some n

/-- The third and fourth words of the line are numbers. -/
def Border (l : Str) : Prop := ∃ k a v w rest i j, split l = k :: a :: v :: w :: rest ∧ parseIndex v = some i ∧ parseIndex w = some j

/-- The second, third and fourth words of the line are numbers of vertices, counted from `base`, modulo 2^32. -/
def Triangle (base : Nat) (l : Str) (t : Tri) : Prop :=
  ∃ k a b c rest i j m, split l = k :: a :: b :: c :: rest ∧ parseIndex a = some i ∧ parseIndex b = some j ∧ parseIndex c = some m ∧
    t = (sub32 i base, sub32 j base, sub32 m base)

/-- The point of a line that makes a vertex, after the points `prev`: its coordinates, or the point of the vertex it names. -/
def Defines (up : Bool) (es : List Nat) (base : Nat) (prev : List (Pt D)) (l : Str) (p : Pt D) : Prop :=
  (isVertex l = true ∧ Coordinates up l p ∧ Valued D es ((split l).drop 5)) ∨
    (isAtom l = true ∧ (∃ n, Third l n ∧ prev[sub32 n base]? = some p) ∧ Valued D es ((split l).drop 3))

/-- The points of the lines that make vertices, after the points `prev`. -/
def Defs (up : Bool) (es : List Nat) (base : Nat) : List (Pt D) → File → List (Pt D) → Prop
  | _, [], ps => ps = []
  | prev, l :: ls, ps => ∃ p ps', ps = p :: ps' ∧ Defines up es base prev l p ∧ Defs up es base (prev ++ [p]) ls ps'

/-- Lines that are read with a known base, after the points `prev`: points and triangles. -/
structure Lines (up : Bool) (es : List Nat) (base : Nat) (prev : List (Pt D)) (ls : File) (ps : List (Pt D)) (ts : List Tri) : Prop where
  points : Defs up es base prev (ls.filter isDef) ps
  triangles : List.Forall₂ (Triangle base) (ls.filter isTriangle) ts
  stones : ∀ l ∈ ls, isStone l = true → ∃ n, Number l n
  borders : ∀ l ∈ ls, isBorder l = true → Border l

/-- Lines of an object: the base is 1 up to the first vertex, and the number of that vertex from there. -/
def Body (up : Bool) (es : List Nat) (ls : File) (ps : List (Pt D)) (ts : List Tri) : Prop :=
  ∃ before after base ts1 ts2, ls = before ++ after ∧ (∀ l ∈ before, isDef l = false) ∧ (∀ l ∈ after.head?, isVertex l = true ∧ Number l base) ∧
    Lines up es 1 [] before ([] : List (Pt D)) ts1 ∧ Lines up es base [] after ps ts2 ∧ ts = ts1 ++ ts2

theorem third_iff {l : Str} {n : Nat} : (Res.index (split l) 2 >>= fun w => readIndex w) = .ok n ↔ Third l n := by
  constructor
  · intro h
    obtain ⟨w, h1, h2⟩ := bind_eq_ok.1 h
    rcases hs : split l with _ | ⟨k, _ | ⟨a, _ | ⟨w', r⟩⟩⟩
    · rw [hs] at h1; cases h1
    · rw [hs] at h1; cases h1
    · rw [hs] at h1; cases h1
    · rw [hs] at h1
      cases h1
      refine ⟨k, a, w, r, hs, ?_⟩
      cases hp : parseIndex w with
      | none => rw [readIndex, hp] at h2; cases h2
      | some i => rw [readIndex, hp] at h2; cases h2; rfl
  · rintro ⟨k, a, w, r, hs, hp⟩
    rw [hs]
    simp [readIndex, hp]

theorem readIndex_ok {w : Str} {n : Nat} : readIndex w = .ok n ↔ parseIndex w = some n := by
  unfold readIndex
  cases parseIndex w <;> simp [ofParse]

theorem index_ok {ws : List Str} {i : Nat} {w : Str} : Res.index ws i = .ok w ↔ ws[i]? = some w := index_eq_ok

theorem three_words {ws : List Str} {a b c : Str} (h1 : ws[1]? = some a) (h2 : ws[2]? = some b) (h3 : ws[3]? = some c) :
    ∃ k rest, ws = k :: a :: b :: c :: rest := by
  rcases ws with _ | ⟨k, _ | ⟨a', _ | ⟨b', _ | ⟨c', r⟩⟩⟩⟩ <;> simp_all

theorem border_words {ws : List Str} {b c : Str} (h2 : ws[2]? = some b) (h3 : ws[3]? = some c) : ∃ k a rest, ws = k :: a :: b :: c :: rest := by
  rcases ws with _ | ⟨k, _ | ⟨a', _ | ⟨b', _ | ⟨c', r⟩⟩⟩⟩ <;> simp_all

/-! ## One line -/

/-- What the lines add to a surface. -/
structure Ext (ts ts' : TSurf D) (ps : List (Pt D)) (tris : List Tri) : Prop where
  name : ts'.name = ts.name
  crs : ts'.crs = ts.crs
  props : ts'.props = ts.props
  points : ts'.points = ts.points ++ ps
  triangles : ts'.triangles = ts.triangles ++ tris
  filled : Filled ts.props ts'.attrs (ts.points ++ ps).length

theorem Ext.trans {a b c : TSurf D} {p q : List (Pt D)} {s t : List Tri} (h1 : Ext a b p s) (h2 : Ext b c q t) : Ext a c (p ++ q) (s ++ t) :=
  ⟨h2.name.trans h1.name, h2.crs.trans h1.crs, h2.props.trans h1.props, by rw [h2.points, h1.points, List.append_assoc],
    by rw [h2.triangles, h1.triangles, List.append_assoc], by have := h2.filled; rw [h1.props, h1.points] at this; rwa [List.append_assoc] at this⟩

theorem Ext.unique {a b : TSurf D} {p q : List (Pt D)} {s t : List Tri} (h1 : Ext a b p s) (h2 : Ext a b q t) : p = q ∧ s = t :=
  ⟨List.append_cancel_left (h1.points.symm.trans h2.points), List.append_cancel_left (h1.triangles.symm.trans h2.triangles)⟩

section kinds

variable {l k : Str} {args : List Str}

theorem isAtom_of (hs : split l = k :: args) : isAtom l = true ↔ (k = cs!"ATOM" ∨ k = cs!"PATOM") := by simp [isAtom, key, hs]
theorem isTriangle_of (hs : split l = k :: args) : isTriangle l = true ↔ k = cs!"TRGL" := by simp [isTriangle, key, hs]
theorem isStone_of (hs : split l = k :: args) : isStone l = true ↔ k = cs!"BSTONE" := by simp [isStone, key, hs]
theorem isBorder_of (hs : split l = k :: args) : isBorder l = true ↔ k = cs!"BORDER" := by simp [isBorder, key, hs]

/-- The kind of a line. -/
structure Kind (l : Str) (v a t s b : Bool) : Prop where
  vertex : isVertex l = v
  atom : isAtom l = a
  triangle : isTriangle l = t
  stone : isStone l = s
  border : isBorder l = b

theorem kind_of (hs : split l = k :: args) :
    ((k = cs!"VRTX" ∨ k = cs!"PVRTX") ∧ Kind l true false false false false) ∨
    ((k = cs!"ATOM" ∨ k = cs!"PATOM") ∧ Kind l false true false false false) ∨ (k = cs!"TRGL" ∧ Kind l false false true false false) ∨
    (k = cs!"BSTONE" ∧ Kind l false false false true false) ∨ (k = cs!"BORDER" ∧ Kind l false false false false true) ∨
    (¬ (k = cs!"VRTX" ∨ k = cs!"PVRTX") ∧ ¬ (k = cs!"ATOM" ∨ k = cs!"PATOM") ∧ k ≠ cs!"TRGL" ∧ k ≠ cs!"BSTONE" ∧ k ≠ cs!"BORDER" ∧
      Kind l false false false false false) := by
  have hv := isVertex_of hs
  have ha := isAtom_of hs
  have ht := isTriangle_of hs
  have hst := isStone_of hs
  have hb := isBorder_of hs
  by_cases h1 : k = cs!"VRTX" ∨ k = cs!"PVRTX"
  · refine Or.inl ⟨h1, hv.2 h1, ?_, ?_, ?_, ?_⟩ <;> rcases h1 with rfl | rfl <;> simp [isAtom, isTriangle, isStone, isBorder, key, hs]
  by_cases h2 : k = cs!"ATOM" ∨ k = cs!"PATOM"
  · refine Or.inr (Or.inl ⟨h2, ?_, ha.2 h2, ?_, ?_, ?_⟩) <;> rcases h2 with rfl | rfl <;> simp [isVertex, isTriangle, isStone, isBorder, key, hs]
  by_cases h3 : k = cs!"TRGL"
  · refine Or.inr (Or.inr (Or.inl ⟨h3, ?_, ?_, ht.2 h3, ?_, ?_⟩)) <;> subst h3 <;> simp [isVertex, isAtom, isStone, isBorder, key, hs]
  by_cases h4 : k = cs!"BSTONE"
  · refine Or.inr (Or.inr (Or.inr (Or.inl ⟨h4, ?_, ?_, ?_, hst.2 h4, ?_⟩))) <;> subst h4 <;> simp [isVertex, isAtom, isTriangle, isBorder, key, hs]
  by_cases h5 : k = cs!"BORDER"
  · refine Or.inr (Or.inr (Or.inr (Or.inr (Or.inl ⟨h5, ?_, ?_, ?_, ?_, hb.2 h5⟩)))) <;> subst h5 <;> simp [isVertex, isAtom, isTriangle, isStone, key, hs]
  exact Or.inr (Or.inr (Or.inr (Or.inr (Or.inr ⟨h1, h2, h3, h4, h5, Bool.eq_false_iff.2 (mt hv.1 h1), Bool.eq_false_iff.2 (mt ha.1 h2),
    Bool.eq_false_iff.2 (mt ht.1 h3), Bool.eq_false_iff.2 (mt hst.1 h4), Bool.eq_false_iff.2 (mt hb.1 h5)⟩))))

end kinds

theorem forall₂_one {α β : Type} {R : α → β → Prop} {a : α} {bs : List β} : List.Forall₂ R [a] bs ↔ ∃ b, R a b ∧ bs = [b] := by
  constructor
  · intro h
    cases h with
    | cons h1 h2 => cases h2; exact ⟨_, h1, rfl⟩
  · rintro ⟨b, h, rfl⟩
    exact .cons h .nil

theorem lines_single {up : Bool} {es : List Nat} {base : Nat} {prev : List (Pt D)} {l : Str} {ps : List (Pt D)} {ts : List Tri} :
    Lines up es base prev [l] ps ts ↔ (if isDef l = true then ∃ p, Defines up es base prev l p ∧ ps = [p] else ps = []) ∧
      (if isTriangle l = true then ∃ t, Triangle base l t ∧ ts = [t] else ts = []) ∧ (isStone l = true → ∃ n, Number l n) ∧
      (isBorder l = true → Border l) := by
  have h1 : Defs up es base prev ([l].filter isDef) ps ↔ (if isDef l = true then ∃ p, Defines up es base prev l p ∧ ps = [p] else ps = []) := by
    by_cases h : isDef l = true
    · rw [if_pos h, List.filter_cons, if_pos h, List.filter_nil]
      constructor
      · rintro ⟨p, ps', rfl, h2, rfl⟩; exact ⟨p, h2, rfl⟩
      · rintro ⟨p, h2, rfl⟩; exact ⟨p, [], rfl, h2, rfl⟩
    · rw [if_neg h, List.filter_cons, if_neg h, List.filter_nil]
      rfl
  have h2 : List.Forall₂ (Triangle base) ([l].filter isTriangle) ts ↔ (if isTriangle l = true then ∃ t, Triangle base l t ∧ ts = [t] else ts = []) := by
    by_cases h : isTriangle l = true
    · rw [if_pos h, List.filter_cons, if_pos h, List.filter_nil, forall₂_one]
    · rw [if_neg h, List.filter_cons, if_neg h, List.filter_nil, List.forall₂_nil_left_iff]
  constructor
  · rintro ⟨a, b, c, d⟩
    exact ⟨h1.1 a, h2.1 b, c l (by simp), d l (by simp)⟩
  · rintro ⟨a, b, c, d⟩
    refine ⟨h1.2 a, h2.2 b, ?_, ?_⟩
    · intro x hx; rw [List.mem_singleton.1 hx]; exact c
    · intro x hx; rw [List.mem_singleton.1 hx]; exact d

/-- The base after a line: the number of the first vertex. -/
def Base (ts : TSurf D) (l : Str) (o : Nat) : Prop := if isVertex l = true ∧ ts.points = [] then Number l o else o = ts.offset

theorem line_forward {ts ts' : TSurf D} {l k : Str} {args : List Str} (hs : split l = k :: args) (hf : Filled ts.props ts.attrs ts.points.length)
    (h : tsLine ts k (k :: args) = .ok ts') : ∃ ps tris, Ext ts ts' ps tris ∧ Lines ts.crs.zPos ts.props.esizes ts'.offset ts.points [l] ps tris ∧
      Base ts l ts'.offset := by
  unfold tsLine at h
  rw [← hs] at h
  simp only [lines_single, isDef, Base]
  rcases kind_of hs with ⟨hk, K⟩ | ⟨hk, K⟩ | ⟨rfl, K⟩ | ⟨rfl, K⟩ | ⟨rfl, K⟩ | ⟨n1, n2, n3, n4, n5, K⟩
  · rw [if_pos hk] at h
    unfold tsVrtx at h
    obtain ⟨o, h1, h⟩ := bind_eq_ok.1 h
    obtain ⟨p, h2, h⟩ := bind_eq_ok.1 h
    obtain ⟨as, h3, h⟩ := bind_eq_ok.1 h
    cases h
    refine ⟨[p], [], ⟨rfl, rfl, rfl, rfl, by simp, by simpa using filled_step hf h3⟩, ?_, ?_⟩
    · simp only [K.vertex, K.atom, K.triangle, K.stone, K.border]
      refine ⟨?_, ?_, by simp, by simp⟩
      · rw [if_pos (by rfl)]
        exact ⟨p, Or.inl ⟨K.vertex, point_iff.1 h2, (properties_iff _ ts.attrs (hf.sizes.trans hf.cols.symm) _).1 ⟨as, h3⟩⟩, rfl⟩
      · simp
    · dsimp only
      by_cases hp : ts.points = []
      · rw [if_pos ⟨K.vertex, hp⟩]
        rw [hp] at h1
        exact number_iff.1 h1
      · rw [if_neg (fun hc => hp hc.2)]
        rw [if_neg (by simpa using hp)] at h1
        exact (Res.ok.inj h1).symm
  · have n1 : ¬ (k = cs!"VRTX" ∨ k = cs!"PVRTX") := fun hc => by have := (isVertex_of hs).2 hc; rw [K.vertex] at this; cases this
    rw [if_neg n1, if_pos hk] at h
    unfold tsAtom at h
    obtain ⟨w, h0, h⟩ := bind_eq_ok.1 h
    obtain ⟨i, h1, h⟩ := bind_eq_ok.1 h
    obtain ⟨p, h2, h⟩ := bind_eq_ok.1 h
    obtain ⟨as, h3, h⟩ := bind_eq_ok.1 h
    cases h
    refine ⟨[p], [], ⟨rfl, rfl, rfl, rfl, by simp, by simpa using filled_step hf h3⟩, ?_, ?_⟩
    · simp only [K.vertex, K.atom, K.triangle, K.stone, K.border]
      refine ⟨?_, ?_, by simp, by simp⟩
      · rw [if_pos (by rfl)]
        exact ⟨p, Or.inr ⟨K.atom, ⟨i, third_iff.1 (by rw [h0, ok_bind]; exact h1), at_eq_ok.1 h2⟩,
          (properties_iff _ ts.attrs (hf.sizes.trans hf.cols.symm) _).1 ⟨as, h3⟩⟩, rfl⟩
      · simp
    · rw [if_neg (by simp [K.vertex])]
  · rw [if_neg (by decide), if_neg (by decide), if_pos rfl] at h
    unfold tsTrgl at h
    obtain ⟨w1, h1, h⟩ := bind_eq_ok.1 h
    obtain ⟨a, h2, h⟩ := bind_eq_ok.1 h
    obtain ⟨w2, h3, h⟩ := bind_eq_ok.1 h
    obtain ⟨b, h4, h⟩ := bind_eq_ok.1 h
    obtain ⟨w3, h5, h⟩ := bind_eq_ok.1 h
    obtain ⟨c, h6, h⟩ := bind_eq_ok.1 h
    cases h
    refine ⟨[], [(sub32 a ts.offset, sub32 b ts.offset, sub32 c ts.offset)], ⟨rfl, rfl, rfl, by simp, by simp, by simpa using hf⟩, ?_, ?_⟩
    · simp only [K.vertex, K.atom, K.triangle, K.stone, K.border]
      refine ⟨by simp, ?_, by simp, by simp⟩
      rw [if_pos trivial]
      obtain ⟨k, r, hw⟩ := three_words (index_ok.1 h1) (index_ok.1 h3) (index_ok.1 h5)
      exact ⟨_, ⟨k, w1, w2, w3, r, a, b, c, hw, readIndex_ok.1 h2, readIndex_ok.1 h4, readIndex_ok.1 h6, rfl⟩, rfl⟩
    · rw [if_neg (by simp [K.vertex])]
  · rw [if_neg (by decide), if_neg (by decide), if_neg (by decide), if_pos rfl] at h
    unfold tsBstone at h
    obtain ⟨w1, h1, h⟩ := bind_eq_ok.1 h
    obtain ⟨a, h2, h⟩ := bind_eq_ok.1 h
    cases h
    refine ⟨[], [], ⟨rfl, rfl, rfl, by simp, by simp, by simpa using hf⟩, ?_, ?_⟩
    · simp only [K.vertex, K.atom, K.triangle, K.stone, K.border]
      exact ⟨by simp, by simp, fun _ => ⟨a, number_iff.1 (by rw [h1, ok_bind]; exact h2)⟩, by simp⟩
    · rw [if_neg (by simp [K.vertex])]
  · rw [if_neg (by decide), if_neg (by decide), if_neg (by decide), if_neg (by decide), if_pos rfl] at h
    unfold tsBorder at h
    obtain ⟨w1, h1, h⟩ := bind_eq_ok.1 h
    obtain ⟨a, h2, h⟩ := bind_eq_ok.1 h
    obtain ⟨w2, h3, h⟩ := bind_eq_ok.1 h
    obtain ⟨b, h4, h⟩ := bind_eq_ok.1 h
    cases h
    refine ⟨[], [], ⟨rfl, rfl, rfl, by simp, by simp, by simpa using hf⟩, ?_, ?_⟩
    · simp only [K.vertex, K.atom, K.triangle, K.stone, K.border]
      obtain ⟨k, x, r, hw⟩ := border_words (index_ok.1 h1) (index_ok.1 h3)
      exact ⟨by simp, by simp, by simp,
        fun _ => ⟨k, x, w1, w2, r, a, b, hw, readIndex_ok.1 h2, readIndex_ok.1 h4⟩⟩
    · rw [if_neg (by simp [K.vertex])]
  · rw [if_neg n1, if_neg n2, if_neg n3, if_neg n4, if_neg n5] at h
    have he : Ext ts ts' [] [] ∧ ts'.offset = ts.offset := by
      split at h
      · cases h; exact ⟨⟨rfl, rfl, rfl, by simp [tsClose], by simp [tsClose], by simpa [tsClose] using hf⟩, rfl⟩
      · cases h; exact ⟨⟨rfl, rfl, rfl, by simp, by simp, by simpa using hf⟩, rfl⟩
    refine ⟨[], [], he.1, ?_, ?_⟩
    · simp [K.vertex, K.atom, K.triangle, K.stone, K.border]
    · rw [if_neg (by simp [K.vertex]), he.2]

theorem line_backward {ts : TSurf D} {l k : Str} {args : List Str} (hs : split l = k :: args) (hf : Filled ts.props ts.attrs ts.points.length) {o : Nat}
    {ps : List (Pt D)} {tris : List Tri} (h : Lines ts.crs.zPos ts.props.esizes o ts.points [l] ps tris) (hb : Base ts l o) :
    ∃ ts', tsLine ts k (k :: args) = .ok ts' ∧ ts'.offset = o ∧ Ext ts ts' ps tris := by
  unfold tsLine
  rw [← hs]
  simp only [lines_single, isDef, Base] at h hb
  rcases kind_of hs with ⟨hk, K⟩ | ⟨hk, K⟩ | ⟨rfl, K⟩ | ⟨rfl, K⟩ | ⟨rfl, K⟩ | ⟨n1, n2, n3, n4, n5, K⟩
  · rw [if_pos hk]
    simp only [K.vertex, K.atom, K.triangle, K.stone, K.border] at h
    rw [if_pos (by rfl), if_neg (by simp)] at h
    obtain ⟨⟨p, hd, rfl⟩, rfl, -, -⟩ := h
    rcases hd with ⟨-, h1, h2⟩ | ⟨h1, -⟩
    · obtain ⟨as, ha⟩ := (properties_iff _ ts.attrs (hf.sizes.trans hf.cols.symm) _).2 h2
      have e1 : (if ts.points.isEmpty = true then (do readIndex (← Res.index (split l) 1)) else pure ts.offset : Res Nat) = .ok o := by
        by_cases hp : ts.points = []
        · rw [if_pos ⟨K.vertex, hp⟩] at hb
          rw [if_pos (by simp [hp])]
          exact number_iff.2 hb
        · rw [if_neg (fun hc => hp hc.2)] at hb
          rw [if_neg (by simpa using hp), hb]
          rfl
      refine ⟨{ ts with offset := o, points := ts.points ++ [p], attrs := as }, ?_, rfl, rfl, rfl, rfl, rfl, by simp, by simpa using filled_step hf ha⟩
      rw [tsVrtx, e1, ok_bind, point_iff.2 h1, ok_bind, ha]
      rfl
    · rw [K.atom] at h1; cases h1
  · have n1 : ¬ (k = cs!"VRTX" ∨ k = cs!"PVRTX") := fun hc => by have := (isVertex_of hs).2 hc; rw [K.vertex] at this; cases this
    rw [if_neg n1, if_pos hk]
    simp only [K.vertex, K.atom, K.triangle, K.stone, K.border] at h
    rw [if_pos (by rfl), if_neg (by simp)] at h
    rw [if_neg (by simp [K.vertex])] at hb
    subst hb
    obtain ⟨⟨p, hd, rfl⟩, rfl, -, -⟩ := h
    rcases hd with ⟨h1, -⟩ | ⟨-, ⟨n, h1, h2⟩, h3⟩
    · rw [K.vertex] at h1; cases h1
    · obtain ⟨as, ha⟩ := (properties_iff _ ts.attrs (hf.sizes.trans hf.cols.symm) _).2 h3
      refine ⟨{ ts with points := ts.points ++ [p], attrs := as }, ?_, rfl, rfl, rfl, rfl, rfl, by simp, by simpa using filled_step hf ha⟩
      have h1 := third_iff.2 h1
      obtain ⟨w, g1, g2⟩ := bind_eq_ok.1 h1
      rw [tsAtom, g1, ok_bind, g2, ok_bind, at_eq_ok.2 h2, ok_bind, ha]
      rfl
  · rw [if_neg (by decide), if_neg (by decide), if_pos rfl]
    simp only [K.vertex, K.atom, K.triangle, K.stone, K.border] at h
    rw [if_neg (by simp), if_pos trivial] at h
    rw [if_neg (by simp [K.vertex])] at hb
    subst hb
    obtain ⟨rfl, ⟨t, ⟨k', a, b, c, r, i, j, m, hw, g1, g2, g3, rfl⟩, rfl⟩, -, -⟩ := h
    refine ⟨{ ts with triangles := ts.triangles ++ [(sub32 i ts.offset, sub32 j ts.offset, sub32 m ts.offset)] }, ?_, rfl, rfl, rfl, rfl, by simp, by simp, by simpa using hf⟩
    rw [tsTrgl, hw]
    simp only [index_cons_succ, index_cons_zero, ok_bind, readIndex, g1, g2, g3, ofParse_some, pure_eq]
  · rw [if_neg (by decide), if_neg (by decide), if_neg (by decide), if_pos rfl]
    simp only [K.vertex, K.atom, K.triangle, K.stone, K.border] at h
    rw [if_neg (by simp), if_neg (by simp)] at h
    rw [if_neg (by simp [K.vertex])] at hb
    subst hb
    obtain ⟨rfl, rfl, hn, -⟩ := h
    obtain ⟨n, hn⟩ := hn trivial
    refine ⟨{ ts with bstones := ts.bstones ++ [sub32 n ts.offset] }, ?_, rfl, rfl, rfl, rfl, by simp, by simp, by simpa using hf⟩
    obtain ⟨w, g1, g2⟩ := bind_eq_ok.1 (number_iff.2 hn)
    rw [tsBstone, g1, ok_bind, g2]
    rfl
  · rw [if_neg (by decide), if_neg (by decide), if_neg (by decide), if_neg (by decide), if_pos rfl]
    simp only [K.vertex, K.atom, K.triangle, K.stone, K.border] at h
    rw [if_neg (by simp), if_neg (by simp)] at h
    rw [if_neg (by simp [K.vertex])] at hb
    subst hb
    obtain ⟨rfl, rfl, -, hn⟩ := h
    obtain ⟨k', a, v, w, r, i, j, hw, g1, g2⟩ := hn trivial
    refine ⟨{ ts with borders := ts.borders ++ [(sub32 i ts.offset, sub32 j ts.offset)] }, ?_, rfl, rfl, rfl, rfl, by simp, by simp, by simpa using hf⟩
    rw [tsBorder, hw]
    simp only [index_cons_succ, index_cons_zero, ok_bind, readIndex, g1, g2, ofParse_some, pure_eq]
  · rw [if_neg n1, if_neg n2, if_neg n3, if_neg n4, if_neg n5]
    simp only [K.vertex, K.atom, K.triangle, K.stone, K.border] at h
    rw [if_neg (by simp), if_neg (by simp)] at h
    rw [if_neg (by simp [K.vertex])] at hb
    subst hb
    obtain ⟨rfl, rfl, -, -⟩ := h
    split
    · exact ⟨tsClose ts, rfl, rfl, rfl, rfl, rfl, by simp [tsClose], by simp [tsClose], by simpa [tsClose] using hf⟩
    · exact ⟨ts, rfl, rfl, rfl, rfl, rfl, by simp, by simp, by simpa using hf⟩

/-! ## The lines of an object -/

theorem defs_append {up : Bool} {es : List Nat} {base : Nat} {a b : File} {prev ps : List (Pt D)} :
    Defs up es base prev (a ++ b) ps ↔ ∃ p q, Defs up es base prev a p ∧ Defs up es base (prev ++ p) b q ∧ ps = p ++ q := by
  induction a generalizing prev ps with
  | nil =>
    constructor
    · intro h; exact ⟨[], ps, rfl, by simpa using h, rfl⟩
    · rintro ⟨p, q, rfl, h, rfl⟩; simpa using h
  | cons x a ih =>
    constructor
    · rintro ⟨p, ps', rfl, h1, h2⟩
      obtain ⟨p', q, h3, h4, rfl⟩ := ih.1 h2
      exact ⟨p :: p', q, ⟨p, p', rfl, h1, h3⟩, by simpa using h4, rfl⟩
    · rintro ⟨_, q, ⟨p, p', rfl, h1, h3⟩, h4, rfl⟩
      exact ⟨p, p' ++ q, rfl, h1, ih.2 ⟨p', q, h3, by simpa using h4, rfl⟩⟩

theorem lines_append {up : Bool} {es : List Nat} {base : Nat} {prev : List (Pt D)} {a b : File} {ps : List (Pt D)} {ts : List Tri} :
    Lines up es base prev (a ++ b) ps ts ↔
      ∃ p0 t0 p1 t1, Lines up es base prev a p0 t0 ∧ Lines up es base (prev ++ p0) b p1 t1 ∧ ps = p0 ++ p1 ∧ ts = t0 ++ t1 := by
  constructor
  · rintro ⟨h1, h2, h3, h4⟩
    rw [List.filter_append] at h1 h2
    obtain ⟨p, q, a1, a2, rfl⟩ := defs_append.1 h1
    obtain ⟨t, u, b1, b2, rfl⟩ := forall₂_append_left.1 h2
    exact ⟨p, t, q, u, ⟨a1, b1, fun l hl => h3 l (by simp [hl]), fun l hl => h4 l (by simp [hl])⟩,
      ⟨a2, b2, fun l hl => h3 l (by simp [hl]), fun l hl => h4 l (by simp [hl])⟩, rfl, rfl⟩
  · rintro ⟨p, t, q, u, ⟨a1, b1, c1, d1⟩, ⟨a2, b2, c2, d2⟩, rfl, rfl⟩
    refine ⟨?_, ?_, ?_, ?_⟩
    · rw [List.filter_append]; exact defs_append.2 ⟨p, q, a1, a2, rfl⟩
    · rw [List.filter_append]; exact List.rel_append b1 b2
    · intro l hl
      rcases List.mem_append.1 hl with hl | hl
      · exact c1 l hl
      · exact c2 l hl
    · intro l hl
      rcases List.mem_append.1 hl with hl | hl
      · exact d1 l hl
      · exact d2 l hl

theorem lines_cons {up : Bool} {es : List Nat} {base : Nat} {prev : List (Pt D)} {l : Str} {ls : File} {ps : List (Pt D)} {ts : List Tri} :
    Lines up es base prev (l :: ls) ps ts ↔
      ∃ p0 t0 p1 t1, Lines up es base prev [l] p0 t0 ∧ Lines up es base (prev ++ p0) ls p1 t1 ∧ ps = p0 ++ p1 ∧ ts = t0 ++ t1 :=
  lines_append (a := [l])

theorem lines_nil {up : Bool} {es : List Nat} {base : Nat} {prev : List (Pt D)} {ps : List (Pt D)} {ts : List Tri} :
    Lines up es base prev [] ps ts ↔ ps = [] ∧ ts = [] := by
  constructor
  · rintro ⟨h1, h2, -, -⟩
    cases h2
    exact ⟨h1, rfl⟩
  · rintro ⟨rfl, rfl⟩
    exact ⟨rfl, .nil, by simp, by simp⟩

theorem close_ext {ts : TSurf D} (hf : Filled ts.props ts.attrs ts.points.length) : Ext ts (tsClose ts) [] [] :=
  ⟨rfl, rfl, rfl, by simp [tsClose], by simp [tsClose], by simpa [tsClose] using hf⟩

theorem loop_known_fwd (f : File) (ts : TSurf D) (hf : Filled ts.props ts.attrs ts.points.length) (hne : ts.points ≠ []) {ts' : TSurf D} {rest : File}
    (h : readTfacesLoop ts f = .ok (ts', rest)) : ∃ body ps tris, Until f body rest ∧ Lines ts.crs.zPos ts.props.esizes ts.offset ts.points body ps tris ∧
      Ext ts ts' ps tris := by
  induction f generalizing ts with
  | nil => cases h
  | cons l ls ih =>
    rw [readTfacesLoop] at h
    split at h
    · cases h
    · rename_i k args hs
      split at h
      · rename_i hk
        cases h
        exact ⟨[], [], [], (until_end ((isEnd_of hs).2 hk)).2 ⟨rfl, rfl⟩, lines_nil.2 ⟨rfl, rfl⟩, close_ext hf⟩
      · rename_i hk
        have he : isEnd l = false := Bool.eq_false_iff.2 fun h => hk ((isEnd_of hs).1 h)
        have hb : split l ≠ [] := by rw [hs]; simp
        obtain ⟨ts1, h1, h2⟩ := bind_eq_ok.1 h
        obtain ⟨p0, t0, e1, l1, b1⟩ := line_forward hs hf h1
        have ho : ts1.offset = ts.offset := by unfold Base at b1; rwa [if_neg (fun hc => hne hc.2)] at b1
        have hf1 : Filled ts1.props ts1.attrs ts1.points.length := by rw [e1.props, e1.points]; exact e1.filled
        obtain ⟨b, ps, tris, u, l2, e2⟩ := ih ts1 hf1 (by rw [e1.points]; simp [hne]) h2
        rw [ho] at l1
        rw [e1.crs, e1.props, ho, e1.points] at l2
        exact ⟨l :: b, _, _, (until_cons hb he).2 u, lines_cons.2 ⟨p0, t0, ps, tris, l1, l2, rfl, rfl⟩, e1.trans e2⟩

theorem loop_known_bwd (f : File) (ts : TSurf D) (hf : Filled ts.props ts.attrs ts.points.length) (hne : ts.points ≠ []) {body rest : File}
    {ps : List (Pt D)} {tris : List Tri} (hu : Until f body rest) (hl : Lines ts.crs.zPos ts.props.esizes ts.offset ts.points body ps tris) :
    ∃ ts', readTfacesLoop ts f = .ok (ts', rest) ∧ Ext ts ts' ps tris := by
  induction f generalizing ts body ps tris with
  | nil => obtain ⟨_, e, he, _⟩ := hu; simp at he
  | cons l ls ih =>
    rw [readTfacesLoop]
    split
    · rename_i hs
      have he : isEnd l = false := by simp [isEnd, key, hs]
      obtain ⟨b, rfl⟩ := until_shape he hu
      exact absurd hs (hu.1 l (by simp)).1
    · rename_i k args hs
      split
      · rename_i hk
        obtain ⟨rfl, rfl⟩ := (until_end ((isEnd_of hs).2 hk)).1 hu
        obtain ⟨rfl, rfl⟩ := lines_nil.1 hl
        exact ⟨_, rfl, close_ext hf⟩
      · rename_i hk
        have he : isEnd l = false := Bool.eq_false_iff.2 fun h => hk ((isEnd_of hs).1 h)
        have hb : split l ≠ [] := by rw [hs]; simp
        obtain ⟨b, rfl⟩ := until_shape he hu
        obtain ⟨p0, t0, p1, t1, l1, l2, rfl, rfl⟩ := lines_cons.1 hl
        obtain ⟨ts1, h1, ho, e1⟩ := line_backward hs hf l1 (by unfold Base; rw [if_neg (fun hc => hne hc.2)])
        have hf1 : Filled ts1.props ts1.attrs ts1.points.length := by rw [e1.props, e1.points]; exact e1.filled
        obtain ⟨ts', h2, e2⟩ := ih ts1 hf1 (by rw [e1.points]; simp [hne]) ((until_cons hb he).1 hu) (by rw [e1.crs, e1.props, ho, e1.points]; exact l2)
        exact ⟨ts', by rw [h1, ok_bind, h2], e1.trans e2⟩

theorem single_vertex {up : Bool} {es : List Nat} {base : Nat} {prev : List (Pt D)} {l : Str} {ps : List (Pt D)} {ts : List Tri} (hv : isVertex l = true)
    (h : Lines up es base prev [l] ps ts) : ps ≠ [] := by
  have h1 := (lines_single.1 h).1
  rw [if_pos (by simp [isDef, hv])] at h1
  obtain ⟨p, -, rfl⟩ := h1
  simp

theorem single_other {up : Bool} {es : List Nat} {base : Nat} {l : Str} {ps : List (Pt D)} {ts : List Tri} (hv : isVertex l = false)
    (h : Lines up es base [] [l] ps ts) : isDef l = false ∧ ps = [] := by
  have h1 := (lines_single.1 h).1
  cases hd : isDef l with
  | false => rw [if_neg (by simp [hd])] at h1; exact ⟨rfl, h1⟩
  | true =>
    rw [if_pos hd] at h1
    obtain ⟨p, h2 | h2, -⟩ := h1
    · rw [hv] at h2; cases h2.1
    · obtain ⟨-, ⟨n, -, h3⟩, -⟩ := h2
      simp at h3

theorem body_vertex {up : Bool} {es : List Nat} {l : Str} {ls : File} {ps : List (Pt D)} {ts : List Tri} (hv : isVertex l = true) :
    Body up es (l :: ls) ps ts ↔ ∃ base, Number l base ∧ Lines up es base [] (l :: ls) ps ts := by
  constructor
  · rintro ⟨before, after, base, ts1, ts2, he, hb, ha, h1, h2, rfl⟩
    cases before with
    | cons x xs =>
      obtain ⟨rfl, -⟩ := List.cons.inj he
      have := hb l (by simp)
      rw [isDef, hv] at this
      cases this
    | nil =>
      obtain ⟨-, rfl⟩ := lines_nil.1 h1
      rw [List.nil_append] at he
      subst he
      exact ⟨base, (ha l (by simp)).2, h2⟩
  · rintro ⟨base, hn, h⟩
    refine ⟨[], l :: ls, base, [], ts, rfl, by simp, ?_, lines_nil.2 ⟨rfl, rfl⟩, h, rfl⟩
    intro x hx
    simp only [List.head?_cons, Option.mem_def, Option.some.injEq] at hx
    subst hx
    exact ⟨hv, hn⟩

theorem body_other {up : Bool} {es : List Nat} {l : Str} {ls : File} {ps : List (Pt D)} {ts : List Tri} (hv : isVertex l = false) :
    Body up es (l :: ls) ps ts ↔ ∃ t0 t1, Lines up es 1 [] [l] ([] : List (Pt D)) t0 ∧ Body up es ls ps t1 ∧ ts = t0 ++ t1 := by
  constructor
  · rintro ⟨before, after, base, ts1, ts2, he, hb, ha, h1, h2, rfl⟩
    cases before with
    | nil =>
      rw [List.nil_append] at he
      subst he
      rw [(ha l (by simp)).1] at hv
      cases hv
    | cons x xs =>
      obtain ⟨rfl, rfl⟩ := List.cons.inj he
      obtain ⟨p0, t0, p1, t1, l1, l2, e, rfl⟩ := lines_cons.1 h1
      obtain ⟨rfl, rfl⟩ := List.append_eq_nil_iff.1 e.symm
      exact ⟨t0, t1 ++ ts2, l1, ⟨xs, after, base, t1, ts2, rfl, fun y hy => hb y (by simp [hy]), ha, l2, h2, rfl⟩, by simp⟩
  · rintro ⟨t0, t1, h0, ⟨before, after, base, ts1, ts2, rfl, hb, ha, h1, h2, rfl⟩, rfl⟩
    refine ⟨l :: before, after, base, t0 ++ ts1, ts2, rfl, ?_, ha, lines_cons.2 ⟨[], t0, [], ts1, h0, h1, rfl, rfl⟩, h2, by simp⟩
    intro x hx
    rcases List.mem_cons.1 hx with rfl | hx
    · exact (single_other hv h0).1
    · exact hb x hx

theorem body_nil {up : Bool} {es : List Nat} {ps : List (Pt D)} {ts : List Tri} : Body up es [] ps ts ↔ ps = [] ∧ ts = [] := by
  constructor
  · rintro ⟨before, after, base, ts1, ts2, he, hb, ha, h1, h2, rfl⟩
    obtain ⟨rfl, rfl⟩ := List.append_eq_nil_iff.1 he.symm
    obtain ⟨-, rfl⟩ := lines_nil.1 h1
    obtain ⟨rfl, rfl⟩ := lines_nil.1 h2
    exact ⟨rfl, rfl⟩
  · rintro ⟨rfl, rfl⟩
    exact ⟨[], [], 1, [], [], rfl, by simp, by simp, lines_nil.2 ⟨rfl, rfl⟩, lines_nil.2 ⟨rfl, rfl⟩, rfl⟩

theorem loop_fwd (f : File) (ts : TSurf D) (hf : Filled ts.props ts.attrs ts.points.length) (hp : ts.points = []) (ho : ts.offset = 1) {ts' : TSurf D}
    {rest : File} (h : readTfacesLoop ts f = .ok (ts', rest)) : ∃ body ps tris, Until f body rest ∧ Body ts.crs.zPos ts.props.esizes body ps tris ∧
      Ext ts ts' ps tris := by
  induction f generalizing ts with
  | nil => cases h
  | cons l ls ih =>
    rw [readTfacesLoop] at h
    split at h
    · cases h
    · rename_i k args hs
      split at h
      · rename_i hk
        cases h
        exact ⟨[], [], [], (until_end ((isEnd_of hs).2 hk)).2 ⟨rfl, rfl⟩, body_nil.2 ⟨rfl, rfl⟩, close_ext hf⟩
      · rename_i hk
        have he : isEnd l = false := Bool.eq_false_iff.2 fun h => hk ((isEnd_of hs).1 h)
        have hb : split l ≠ [] := by rw [hs]; simp
        obtain ⟨ts1, h1, h2⟩ := bind_eq_ok.1 h
        obtain ⟨p0, t0, e1, l1, b1⟩ := line_forward hs hf h1
        have hf1 : Filled ts1.props ts1.attrs ts1.points.length := by rw [e1.props, e1.points]; exact e1.filled
        rw [hp] at l1
        have hq : ts1.points = p0 := by rw [e1.points, hp]; rfl
        cases hv : isVertex l with
        | true =>
          unfold Base at b1
          rw [if_pos ⟨hv, hp⟩] at b1
          obtain ⟨b, ps, tris, u, l2, e2⟩ := loop_known_fwd ls ts1 hf1 (by rw [hq]; exact single_vertex hv l1) h2
          rw [e1.crs, e1.props, hq] at l2
          exact ⟨l :: b, _, _, (until_cons hb he).2 u, (body_vertex hv).2 ⟨_, b1, lines_cons.2 ⟨p0, t0, ps, tris, l1, l2, rfl, rfl⟩⟩, e1.trans e2⟩
        | false =>
          unfold Base at b1
          rw [if_neg (by simp [hv]), ho] at b1
          rw [b1] at l1
          obtain ⟨-, rfl⟩ := single_other hv l1
          obtain ⟨b, ps, tris, u, l2, e2⟩ := ih ts1 hf1 hq b1 h2
          rw [e1.crs, e1.props] at l2
          exact ⟨l :: b, _, _, (until_cons hb he).2 u, (body_other hv).2 ⟨t0, tris, l1, l2, rfl⟩, e1.trans e2⟩

theorem loop_bwd (f : File) (ts : TSurf D) (hf : Filled ts.props ts.attrs ts.points.length) (hp : ts.points = []) (ho : ts.offset = 1) {body rest : File}
    {ps : List (Pt D)} {tris : List Tri} (hu : Until f body rest) (hl : Body ts.crs.zPos ts.props.esizes body ps tris) :
    ∃ ts', readTfacesLoop ts f = .ok (ts', rest) ∧ Ext ts ts' ps tris := by
  induction f generalizing ts body ps tris with
  | nil => obtain ⟨_, e, he, _⟩ := hu; simp at he
  | cons l ls ih =>
    rw [readTfacesLoop]
    split
    · rename_i hs
      have he : isEnd l = false := by simp [isEnd, key, hs]
      obtain ⟨b, rfl⟩ := until_shape he hu
      exact absurd hs (hu.1 l (by simp)).1
    · rename_i k args hs
      split
      · rename_i hk
        obtain ⟨rfl, rfl⟩ := (until_end ((isEnd_of hs).2 hk)).1 hu
        obtain ⟨rfl, rfl⟩ := body_nil.1 hl
        exact ⟨_, rfl, close_ext hf⟩
      · rename_i hk
        have he : isEnd l = false := Bool.eq_false_iff.2 fun h => hk ((isEnd_of hs).1 h)
        have hb : split l ≠ [] := by rw [hs]; simp
        obtain ⟨b, rfl⟩ := until_shape he hu
        cases hv : isVertex l with
        | true =>
          obtain ⟨base, hn, hl⟩ := (body_vertex hv).1 hl
          obtain ⟨p0, t0, p1, t1, l1, l2, rfl, rfl⟩ := lines_cons.1 hl
          obtain ⟨ts1, h1, ho', e1⟩ := line_backward hs hf (by rw [hp]; exact l1) (by unfold Base; rw [if_pos ⟨hv, hp⟩]; exact hn)
          have hf1 : Filled ts1.props ts1.attrs ts1.points.length := by rw [e1.props, e1.points]; exact e1.filled
          have hq : ts1.points = p0 := by rw [e1.points, hp]; rfl
          obtain ⟨ts', h2, e2⟩ := loop_known_bwd ls ts1 hf1 (by rw [hq]; exact single_vertex hv l1) ((until_cons hb he).1 hu)
            (by rw [e1.crs, e1.props, ho', hq]; exact l2)
          exact ⟨ts', by rw [h1, ok_bind, h2], e1.trans e2⟩
        | false =>
          obtain ⟨t0, t1, l1, l2, rfl⟩ := (body_other hv).1 hl
          obtain ⟨ts1, h1, ho', e1⟩ := line_backward (o := 1) hs hf (by rw [hp]; exact l1) (by unfold Base; rw [if_neg (by simp [hv]), ho])
          have hf1 : Filled ts1.props ts1.attrs ts1.points.length := by rw [e1.props, e1.points]; exact e1.filled
          have hq : ts1.points = [] := by rw [e1.points, hp]; rfl
          obtain ⟨ts', h2, e2⟩ := ih ts1 hf1 hq ho' ((until_cons hb he).1 hu) (by rw [e1.crs, e1.props]; exact l2)
          exact ⟨ts', by rw [h1, ok_bind, h2], e1.trans e2⟩

/-! ## The objects of a file -/

/-- An object: its name, its points and its triangles, by the numbers of their vertices in the object. -/
structure Object (D : Type) where
  name : Option Str
  points : List (Pt D)
  triangles : List Tri

/-- The objects of a file: each one starts at the first line `GOCAD TSurf` after the previous one, its header, its coordinate system and its properties follow, and
its lines are those after the first line `TFACE`, up to a line `END`. -/
inductive Objects : File → List (Object D) → Prop
  | none {f : File} (h : ∀ l ∈ f, startsWith l cs!"GOCAD TSurf" = false) : Objects f []
  | cons {f title f1 name f2 crs f3 f4 tface f5 body ps ts rest os} {props : PropHeader D} (h1 : First cs!"GOCAD TSurf" f title f1)
      (h2 : readHeader f1 = .ok (name, f2)) (h3 : readCrs f2 = .ok (crs, f3)) (h4 : readPropHeader [] f3 = .ok (props, f4))
      (h5 : First cs!"TFACE" f4 tface f5) (h6 : Until f5 body rest) (h7 : Body crs.zPos props.esizes body ps ts) (h8 : Objects rest os) :
      Objects f (⟨name, ps, ts⟩ :: os)

/-- A triangle of an object that is loaded when there are already `k` vertices. -/
def place (k : Nat) (t : Tri) : Tri := ((t.1 + k) % W, (t.2.1 + k) % W, (t.2.2 + k) % W)

/-- The triangles of objects that are loaded when there are already `k` vertices. -/
def placed : Nat → List (Object D) → List Tri
  | _, [] => []
  | k, o :: os => o.triangles.map (place k) ++ placed (k + o.points.length) os

/-- The corners of a triangle are among the first `n` vertices. -/
def Within (n : Nat) (t : Tri) : Prop := t.1 < n ∧ t.2.1 < n ∧ t.2.2 < n

/-- The triangles of each object are between vertices that are loaded. -/
def Fits : Nat → List (Object D) → Prop
  | _, [] => True
  | k, o :: os => (∀ t ∈ o.triangles, Within (k + o.points.length) (place k t)) ∧ Fits (k + o.points.length) os

/-- The last name. -/
def lastName : Option Str → List (Object D) → Option Str
  | n, [] => n
  | n, o :: os => lastName (o.name <|> n) os

theorem forall₂_right {α β : Type} {R : α → β → Prop} {P : β → Prop} (h : ∀ a b, R a b → P b) {as : List α} {bs : List β} (hf : List.Forall₂ R as bs) :
    ∀ b ∈ bs, P b := by
  induction hf with
  | nil => simp
  | cons h1 _ ih => intro b hb; rcases List.mem_cons.1 hb with rfl | hb; exacts [h _ _ h1, ih b hb]

theorem triangle_lt {base : Nat} {l : Str} {t : Tri} (h : Triangle base l t) : Within W t := by
  obtain ⟨_, _, _, _, _, i, j, m, -, -, -, -, rfl⟩ := h
  exact ⟨Nat.mod_lt _ (by decide), Nat.mod_lt _ (by decide), Nat.mod_lt _ (by decide)⟩

theorem body_lt {up : Bool} {es : List Nat} {ls : File} {ps : List (Pt D)} {ts : List Tri} (h : Body up es ls ps ts) : ∀ t ∈ ts, Within W t := by
  obtain ⟨_, _, _, ts1, ts2, -, -, -, h1, h2, rfl⟩ := h
  intro t ht
  rcases List.mem_append.1 ht with ht | ht
  · exact forall₂_right (P := Within W) (fun _ _ h => triangle_lt h) h1.triangles t ht
  · exact forall₂_right (P := Within W) (fun _ _ h => triangle_lt h) h2.triangles t ht

theorem place_eq {k : Nat} {t : Tri} (h : Within W t) : (if k = 0 then t else shiftTri k t) = place k t := by
  split
  · rename_i hk
    subst hk
    obtain ⟨a, b, c⟩ := t
    obtain ⟨h1, h2, h3⟩ := h
    simp only [place, Nat.add_zero, Nat.mod_eq_of_lt h1, Nat.mod_eq_of_lt h2, Nat.mod_eq_of_lt h3]
  · rfl

theorem tris_iff {k nb : Nat} {ts : List Tri} (hw : ∀ t ∈ ts, Within W t) {r : List Tri} :
    Res.mapM' (fun t => createTriangle nb (if k = 0 then t else shiftTri k t)) ts = .ok r ↔
      (∀ t ∈ ts, Within nb (place k t)) ∧ r = ts.map (place k) := by
  induction ts generalizing r with
  | nil => simp [eq_comm]
  | cons t ts ih =>
    rw [mapM'_cons, place_eq (hw t (by simp))]
    have ih := fun r => ih (fun x hx => hw x (by simp [hx])) (r := r)
    constructor
    · intro h
      obtain ⟨b, h1, h⟩ := bind_eq_ok.1 h
      obtain ⟨bs, h2, h⟩ := bind_eq_ok.1 h
      obtain ⟨h3, rfl⟩ := (ih bs).1 h2
      unfold createTriangle at h1
      split at h1
      · rename_i hc
        refine ⟨?_, ?_⟩
        · intro x hx
          rcases List.mem_cons.1 hx with rfl | hx
          · exact hc
          · exact h3 x hx
        · rw [← Res.ok.inj h, ← Res.ok.inj h1]; rfl
      · cases h1
    · rintro ⟨h1, rfl⟩
      rw [createTriangle, if_pos (show _ ∧ _ ∧ _ from h1 t (by simp)), ok_bind, (ih _).2 ⟨fun x hx => h1 x (by simp [hx]), rfl⟩]
      rfl

theorem build_fwd {m m' : Loaded Tri D} {ts : TSurf D} (hm : StoreOk m.points.length m.store) (hf : Filled ts.props ts.attrs ts.points.length)
    (hw : ∀ t ∈ ts.triangles, Within W t) (h : buildSurface m ts = .ok m') :
    (∀ t ∈ ts.triangles, Within (m.points.length + ts.points.length) (place m.points.length t)) ∧
      ∃ st, m' = { name := ts.name <|> m.name, points := m.points ++ ts.points, cells := m.cells ++ ts.triangles.map (place m.points.length), store := st } ∧
        StoreOk (m.points ++ ts.points).length st := by
  unfold buildSurface at h
  obtain ⟨r, h1, h⟩ := bind_eq_ok.1 h
  obtain ⟨h2, rfl⟩ := (tris_iff hw).1 h1
  obtain ⟨st, h3, h4⟩ := createAttributes_total (nb := (m.points ++ ts.points).length) (n := ts.points.length) (by simp) ts.props.names ts.props.esizes
    ts.props.noData ts.attrs (growStore (m.points ++ ts.points).length m.store) (growStore_ok (by simp) hm) hf.sizes hf.noData hf.cols hf.lengths
  rw [h3, ok_bind] at h
  exact ⟨by simpa using h2, st, (Res.ok.inj h).symm, h4⟩

theorem build_bwd {m : Loaded Tri D} {ts : TSurf D} (hm : StoreOk m.points.length m.store) (hf : Filled ts.props ts.attrs ts.points.length)
    (hw : ∀ t ∈ ts.triangles, Within W t) (h : ∀ t ∈ ts.triangles, Within (m.points.length + ts.points.length) (place m.points.length t)) :
    ∃ st, buildSurface m ts =
        .ok { name := ts.name <|> m.name, points := m.points ++ ts.points, cells := m.cells ++ ts.triangles.map (place m.points.length), store := st } ∧
      StoreOk (m.points ++ ts.points).length st := by
  obtain ⟨st, h3, h4⟩ := createAttributes_total (nb := (m.points ++ ts.points).length) (n := ts.points.length) (by simp) ts.props.names ts.props.esizes
    ts.props.noData ts.attrs (growStore (m.points ++ ts.points).length m.store) (growStore_ok (by simp) hm) hf.sizes hf.noData hf.cols hf.lengths
  refine ⟨st, ?_, h4⟩
  unfold buildSurface
  refine bind_eq_ok.2 ⟨_, (tris_iff hw).2 ⟨by simpa using h, rfl⟩, ?_⟩
  rw [h3]
  rfl

/-- Reading an object. -/
theorem object_iff {f : File} {ts : TSurf D} {rest : File} (h : readTSurf f = .ok (some (ts, rest))) :
    Filled ts.props ts.attrs ts.points.length ∧ ∃ title f1 f2 f3 f4 tface f5 body, First cs!"GOCAD TSurf" f title f1 ∧ readHeader f1 = .ok (ts.name, f2) ∧
      readCrs f2 = .ok (ts.crs, f3) ∧ readPropHeader [] f3 = .ok (ts.props, f4) ∧ First cs!"TFACE" f4 tface f5 ∧ Until f5 body rest ∧
      Body ts.crs.zPos ts.props.esizes body ts.points ts.triangles := by
  unfold readTSurf at h
  split at h
  · cases h
  · rename_i title f1 hg
    obtain ⟨⟨name, f2⟩, h1, h⟩ := bind_eq_ok.1 h
    obtain ⟨⟨crs, f3⟩, h2, h⟩ := bind_eq_ok.1 h
    obtain ⟨⟨props, f4⟩, h2', h⟩ := bind_eq_ok.1 h
    obtain ⟨⟨ts', rest'⟩, h3, h⟩ := bind_eq_ok.1 h
    cases h
    unfold readTfaces at h3
    obtain ⟨⟨tface, f5⟩, h4, h3⟩ := bind_eq_ok.1 h3
    dsimp only at h2 h2' h3 h4
    obtain ⟨body, ps, tris, h5, h6, e⟩ := loop_fwd _ _ (header_lengths h2') rfl rfl h3
    have e1 := e.points
    have e2 := e.triangles
    simp only [List.nil_append] at e1 e2
    have hF := e.filled
    simp only [List.nil_append] at hF
    refine ⟨by rw [e.props, e1]; exact hF, title, f1, f2, f3, f4, tface, f5, body, first_iff.1 hg, ?_, ?_, ?_, goto_iff.1 h4, h5, ?_⟩
    · rw [e.name]; exact h1
    · rw [e.crs]; exact h2
    · rw [e.props]; exact h2'
    · rw [e.crs, e.props, e1, e2]; exact h6

theorem object_read {f : File} {title : Str} {f1 : File} {name : Option Str} {f2 : File} {crs : Crs} {f3 : File} {props : PropHeader D} {f4 : File} {tface : Str}
    {f5 body rest : File} {ps : List (Pt D)} {tris : List Tri} (h1 : First cs!"GOCAD TSurf" f title f1) (h2 : readHeader f1 = .ok (name, f2))
    (h3 : readCrs f2 = .ok (crs, f3)) (h4 : readPropHeader [] f3 = .ok (props, f4)) (h5 : First cs!"TFACE" f4 tface f5) (h6 : Until f5 body rest)
    (h7 : Body crs.zPos props.esizes body ps tris) :
    ∃ ts : TSurf D, readTSurf f = .ok (some (ts, rest)) ∧ ts.name = name ∧ ts.points = ps ∧ ts.triangles = tris := by
  obtain ⟨ts, h, e⟩ := loop_bwd f5 { name, crs, props, attrs := props.names.map (fun _ => []) } (header_lengths h4) rfl rfl h6 h7
  refine ⟨ts, ?_, e.name, by simpa using e.points, by simpa using e.triangles⟩
  unfold readTSurf
  rw [first_iff.2 h1]
  dsimp only
  rw [h2, ok_bind]
  dsimp only
  rw [h3, ok_bind]
  dsimp only
  rw [h4, ok_bind]
  dsimp only
  rw [readTfaces, goto_iff.2 h5, ok_bind]
  dsimp only
  rw [h]
  rfl

theorem objects_of_read {f rest : File} {ts : TSurf D} {os : List (Object D)} (h : readTSurf f = .ok (some (ts, rest))) (h' : Objects rest os) :
    Objects f (⟨ts.name, ts.points, ts.triangles⟩ :: os) := by
  obtain ⟨-, title, f1, f2, f3, f4, tface, f5, body, g1, g2, g3, g4, g5, g6, g7⟩ := object_iff h
  exact .cons g1 g2 g3 g4 g5 g6 g7 h'

theorem none_iff {f : File} : (readTSurf f : Res (Option (TSurf D × File))) = .ok none ↔ ∀ l ∈ f, startsWith l cs!"GOCAD TSurf" = false := by
  unfold readTSurf
  cases hg : gotoKeyword? cs!"GOCAD TSurf" f with
  | none =>
    refine ⟨fun _ => ?_, fun _ => rfl⟩
    rcases goto_cases cs!"GOCAD TSurf" f with ⟨l, r, h, _⟩ | ⟨_, h⟩
    · rw [gotoKeyword, hg] at h; cases h
    · exact h
  | some x =>
    constructor
    · intro h
      obtain ⟨_, _, h⟩ := bind_eq_ok.1 h
      obtain ⟨_, _, h⟩ := bind_eq_ok.1 h
      obtain ⟨_, _, h⟩ := bind_eq_ok.1 h
      obtain ⟨_, _, h⟩ := bind_eq_ok.1 h
      cases h
    · intro h
      obtain ⟨pre, rfl, hl, _⟩ := first_iff.1 hg
      rw [h x.1 (by simp)] at hl
      cases hl

theorem loadLoop_iff (n : Nat) (m : Loaded Tri D) (f : File) (hn : f.length < n) (hm : StoreOk m.points.length m.store) (name : Option Str)
    (ps : List (Pt D)) (cells : List Tri) : (∃ st, loadTSLoop n m f = .ok { name := name, points := ps, cells := cells, store := st }) ↔
      ∃ os, Objects f os ∧ Fits m.points.length os ∧ name = lastName m.name os ∧ ps = m.points ++ os.flatMap Object.points ∧
        cells = m.cells ++ placed m.points.length os := by
  induction n generalizing m f with
  | zero => omega
  | succ n ih =>
    rw [loadTSLoop]
    have hf := (readTSurf_fwd (D := D) f).2
    constructor
    · rintro ⟨st, h⟩
      obtain ⟨r, h1, h⟩ := bind_eq_ok.1 h
      cases r with
      | none =>
        cases h
        exact ⟨[], .none (none_iff.1 h1), trivial, rfl, by simp, by simp [placed]⟩
      | some x =>
        obtain ⟨ts, rest⟩ := x
        obtain ⟨hF, title, f1, f2, f3, f4, tface, f5, body, g1, g2, g3, g4, g5, g6, g7⟩ := object_iff h1
        obtain ⟨m1, h2, h⟩ := bind_eq_ok.1 h
        obtain ⟨h3, st', rfl, hs⟩ := build_fwd hm hF (body_lt g7) h2
        obtain ⟨os, k1, k2, k3, k4, k5⟩ := (ih _ rest (by have := hf _ _ h1; omega) hs).1 ⟨st, h⟩
        refine ⟨⟨ts.name, ts.points, ts.triangles⟩ :: os, .cons g1 g2 g3 g4 g5 g6 g7 k1, ⟨h3, by simpa using k2⟩, k3, ?_, ?_⟩
        · rw [k4]; simp
        · rw [k5]; simp [placed]
    · rintro ⟨os, h1, hfit, rfl, rfl, rfl⟩
      cases h1 with
      | none h =>
        refine ⟨m.store, ?_⟩
        rw [none_iff.2 h]
        simp [lastName, placed]
      | @cons _ _ _ name1 _ _ _ _ _ _ _ ps1 ts1 rest1 os1 _ g1 g2 g3 g4 g5 g6 g7 g8 =>
        obtain ⟨ts, ho, rfl, rfl, rfl⟩ := object_read g1 g2 g3 g4 g5 g6 g7
        have hl := hf _ _ ho
        obtain ⟨hF, -⟩ := object_iff ho
        obtain ⟨st', e, hs⟩ := build_bwd hm hF (body_lt g7) hfit.1
        obtain ⟨st, h⟩ := (ih { name := ts.name <|> m.name, points := m.points ++ ts.points, cells := m.cells ++ ts.triangles.map (place m.points.length), store := st' }
          rest1 (by omega) hs).2 ⟨os1, g8, by simpa using hfit.2, rfl, by simp, by simp [placed]⟩
        refine ⟨st, ?_⟩
        rw [ho, ok_bind]
        dsimp only
        rw [e, ok_bind]
        refine h.trans ?_
        simp [lastName, placed]

/-- **C158**: the surface files that load, and the surface they give. -/
theorem surface_loads_iff (f : File) (name : Option Str) (ps : List (Pt D)) (ts : List Tri) :
    (∃ st, loadTS f = .ok { name := name, points := ps, cells := ts, store := st }) ↔
      ∃ os, Objects f os ∧ Fits 0 os ∧ name = lastName none os ∧ ps = os.flatMap Object.points ∧ ts = placed 0 os := by
  rw [loadTS, loadLoop_iff _ _ _ (by omega) (by intro p hp; cases hp)]
  simp

/-- The objects of a file are determined by its text. -/
theorem objects_unique {f : File} {os os' : List (Object D)} (h : Objects f os) (h' : Objects f os') : os = os' := by
  induction h generalizing os' with
  | none h =>
    cases h' with
    | none _ => rfl
    | cons g1 _ _ _ _ _ _ _ =>
      obtain ⟨pre, rfl, hl, _⟩ := g1
      rw [h _ (by simp)] at hl
      cases hl
  | cons g1 g2 g3 g4 g5 g6 g7 g8 ih =>
    cases h' with
    | none h =>
      obtain ⟨pre, rfl, hl, _⟩ := g1
      rw [h _ (by simp)] at hl
      cases hl
    | cons k1 k2 k3 k4 k5 k6 k7 k8 =>
      obtain ⟨ts, ho, rfl, rfl, rfl⟩ := object_read g1 g2 g3 g4 g5 g6 g7
      obtain ⟨ts', ho', rfl, rfl, rfl⟩ := object_read k1 k2 k3 k4 k5 k6 k7
      rw [ho] at ho'
      cases ho'
      rw [ih k8]

/-- **C158, the other files.**  When each line has the words of its keyword and there are no properties, a file that does not load is refused, unless an object of it
has a triangle with a number that is none of its vertices. -/
theorem surface_outcomes_partial {f : File} (h : GocadUb.Plain f) : (∃ m : Loaded Tri D, loadTS f = .ok m) ∨ (loadTS f : Res (Loaded Tri D)) = .throw ∨
    ∃ (u g : File) (title : Str) (f1 : File) (name : Option Str) (f2 : File) (crs : Crs) (f3 : File) (props : PropHeader D) (f4 : File) (tface : Str)
      (f5 body rest : File) (ps : List (Pt D)) (ts : List Tri), f = u ++ g ∧ First cs!"GOCAD TSurf" g title f1 ∧ readHeader f1 = .ok (name, f2) ∧
      readCrs f2 = .ok (crs, f3) ∧ readPropHeader [] f3 = .ok (props, f4) ∧ First cs!"TFACE" f4 tface f5 ∧ Until f5 body rest ∧
      Body crs.zPos props.esizes body ps ts ∧ ∃ t ∈ ts, ¬ Within ps.length t := by
  cases hr : (loadTS f : Res (Loaded Tri D)) with
  | ok m => exact Or.inl ⟨m, rfl⟩
  | throw => exact Or.inr (Or.inl rfl)
  | diverge => exact absurd hr (Props.TSurf.loadTS_terminates f)
  | ub =>
    refine Or.inr (Or.inr ?_)
    by_contra hno
    refine GocadUb.no_ub_ts_partial (D := D) h ?_ hr
    intro u g hf ts r he t ht
    obtain ⟨-, title, f1, f2, f3, f4, tface, f5, body, g1, g2, g3, g4, g5, g6, g7⟩ := object_iff he
    by_contra hc
    exact hno ⟨u, g, title, f1, ts.name, f2, ts.crs, f3, ts.props, f4, tface, f5, body, r, ts.points, ts.triangles, hf, g1, g2, g3, g4, g5, g6, g7, t, ht, hc⟩

/-! ## C159: the vertices of a triangle are those of its object -/

/-- C159 for surfaces: in a file that loads, the corners of a triangle are vertices of its object. -/
def OwnVertices : Prop := ∀ (f : File) (os : List (Object Int)) (m : Loaded Tri Int), Objects f os → loadTS f = .ok m →
  ∀ o ∈ os, ∀ t ∈ o.triangles, Within o.points.length t

theorem end_cases {i k n : Nat} (hi : i < W) (hk : k + n ≤ W) (h : (i + k) % W < k + n) : i < n ∨ (W ≤ i + k ∧ (i + k) % W < k) := by
  unfold W at *
  omega

theorem objects_lt {f : File} {os : List (Object D)} (h : Objects f os) : ∀ o ∈ os, ∀ t ∈ o.triangles, Within W t := by
  induction h with
  | none _ => simp
  | cons _ _ _ _ _ _ g7 _ ih =>
    intro o ho
    rcases List.mem_cons.1 ho with rfl | ho
    · exact body_lt g7
    · exact ih o ho

/-- **C159 for surfaces, the part that holds**: in a file that loads, with less than 2^32 vertices, a corner is a vertex of the object of the triangle, or it was written
as a number before the first vertex of the object, and is then a vertex of an object before. -/
theorem own_vertices_partial {f : File} {os u v : List (Object D)} {o : Object D} (h : Objects f os) (hf : Fits 0 os) (hn : (os.flatMap Object.points).length ≤ W)
    (he : os = u ++ o :: v) {t : Tri} (ht : t ∈ o.triangles) :
    ∀ i, i = t.1 ∨ i = t.2.1 ∨ i = t.2.2 → i < o.points.length ∨
      (W ≤ i + (u.flatMap Object.points).length ∧ (i + (u.flatMap Object.points).length) % W < (u.flatMap Object.points).length) := by
  have hw := objects_lt h o (by simp [he]) t ht
  have key : ∀ (k : Nat) (u : List (Object D)), Fits k (u ++ o :: v) → Within (k + (u.flatMap Object.points).length + o.points.length)
      (place (k + (u.flatMap Object.points).length) t) := by
    intro k u
    induction u generalizing k with
    | nil => intro hf; exact hf.1 t ht
    | cons x u ih =>
      intro hf
      have := ih _ hf.2
      simpa [Nat.add_assoc] using this
  rw [he] at hf
  have hc := key 0 u hf
  simp only [Nat.zero_add] at hc
  have hk : (u.flatMap Object.points).length + o.points.length ≤ W := by
    refine Nat.le_trans ?_ hn
    rw [he]
    simp only [List.flatMap_append, List.flatMap_cons, List.length_append]
    omega
  intro i hi
  rcases hi with rfl | rfl | rfl
  · exact end_cases hw.1 hk hc.1
  · exact end_cases hw.2.1 hk hc.2.1
  · exact end_cases hw.2.2 hk hc.2.2

/-- In particular the corners of the first object are vertices of it. -/
theorem first_object {f : File} {o : Object D} {os : List (Object D)} (h : Objects f (o :: os)) (hf : Fits 0 (o :: os))
    (hn : ((o :: os).flatMap Object.points).length ≤ W) : ∀ t ∈ o.triangles, Within o.points.length t := by
  intro t ht
  have := own_vertices_partial (u := []) h hf hn rfl ht
  simp only [List.flatMap_nil, List.length_nil, Nat.not_lt_zero, and_false, or_false] at this
  exact ⟨this _ (Or.inl rfl), this _ (Or.inr (Or.inl rfl)), this _ (Or.inr (Or.inr rfl))⟩

/-- A surface of two objects; the triangle of the second one names the vertex 0, and its vertices are 1 and 2. -/
def joined : File := [cs!"GOCAD TSurf 1", cs!"HEADER {", cs!"}", cs!"TFACE", cs!"VRTX 1 0 0 0", cs!"VRTX 2 1 0 0", cs!"ATOM 3 1", cs!"TRGL 1 2 3", cs!"END",
  cs!"GOCAD TSurf 1", cs!"HEADER {", cs!"}", cs!"TFACE", cs!"VRTX 1 5 5 5", cs!"VRTX 2 6 5 5", cs!"TRGL 0 1 2", cs!"END"]

/-- It loads, with a triangle that joins the two objects. -/
theorem joined_loads : (loadTS joined : Res (Loaded Tri Int)) =
    .ok { points := [⟨0, 0, 0⟩, ⟨1, 0, 0⟩, ⟨0, 0, 0⟩, ⟨5, 5, 5⟩, ⟨6, 5, 5⟩], cells := [(0, 1, 2), (2, 3, 4)] } := by decide +kernel

/-- In the first object, the same number is out of bounds. -/
theorem first_object_ub : (loadTS (joined.drop 9) : Res (Loaded Tri Int)) = .ub := by decide +kernel

/-- **C159 fails** for surfaces. -/
theorem own_vertices_fails : ¬ OwnVertices := by
  intro h
  have r1 : readTSurf joined = .ok (some (({ points := [⟨0, 0, 0⟩, ⟨1, 0, 0⟩, ⟨0, 0, 0⟩], triangles := [(0, 1, 2)], tfaceTriangles := [0, 1], tfaceVertices := [0, 3] } : TSurf Int),
    joined.drop 9)) := by decide +kernel
  have r2 : readTSurf (joined.drop 9) = .ok (some (({ points := [⟨5, 5, 5⟩, ⟨6, 5, 5⟩], triangles := [(4294967295, 0, 1)], tfaceTriangles := [0, 1], tfaceVertices := [0, 2] } :
    TSurf Int), [])) := by decide +kernel
  have e := h joined _ _ (objects_of_read r1 (objects_of_read r2 (.none (by simp)))) joined_loads _ (List.mem_cons_of_mem _ (List.mem_cons_self ..))
    (4294967295, 0, 1) (by simp)
  exact absurd e.1 (by decide)

/-- A file that loads by `surface_loads_iff`. -/
example : ∃ os : List (Object Int), Objects (joined.take 9) os ∧ Fits 0 os ∧ placed 0 os = [(0, 1, 2)] := by
  have hl : (loadTS (joined.take 9) : Res (Loaded Tri Int)) = .ok { points := [⟨0, 0, 0⟩, ⟨1, 0, 0⟩, ⟨0, 0, 0⟩], cells := [(0, 1, 2)] } := by decide +kernel
  obtain ⟨os, h1, h2, -, -, h3⟩ := (surface_loads_iff _ _ _ _).1 ⟨_, hl⟩
  exact ⟨os, h1, h2, h3.symm⟩

end Verif.Props.SurfaceOutcomes
