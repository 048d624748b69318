import Mathlib.Data.List.Forall2
import Verif.Lemmas.Shp

/-!
# Shapefiles
-/

namespace Verif.Props.Shp

open Verif Verif.Sides Verif.Shp Res

variable {P : Type} [DecidableEq P]

/-! ## Polylines (C48) -/

/-- The edge joins the two points, in one direction or the other. -/
def Joins (points : List P) (edge : List Nat) (s : P × P) : Prop :=
  ∃ i j, edge = [i, j] ∧ ((points[i]? = some s.1 ∧ points[j]? = some s.2) ∨ (points[i]? = some s.2 ∧ points[j]? = some s.1))

/-- The segments of a part. -/
def segments (pts : List P) : List (P × P) := pts.zip pts.tail

theorem Joins.append {points more : List P} {edge : List Nat} {s : P × P} (h : Joins points edge s) : Joins (points ++ more) edge s := by
  obtain ⟨i, j, e, h⟩ := h
  have up : ∀ {i : Nat} {a : P}, points[i]? = some a → (points ++ more)[i]? = some a := fun h => by
    rw [List.getElem?_append_left (List.getElem?_eq_some_iff.1 h).1]; exact h
  exact ⟨i, j, e, h.imp (fun h => ⟨up h.1, up h.2⟩) (fun h => ⟨up h.1, up h.2⟩)⟩

/-- C48 for open parts. -/
theorem open_part (r : Nat) (st : State P) {pts : List P} (h : pts.head? ≠ pts.getLast?) (hw : st.1.points.length + pts.length < W) :
    ∃ (m : Mesh P) (u : Uniques) (es : List (List Nat)), readLine r st pts = .ok (m, u) ∧ m.points = st.1.points ++ pts ∧ m.cells = st.1.cells ++ es ∧
      es.length = pts.length - 1 ∧ ∀ k < pts.length - 1, es[k]? = some [st.1.points.length + k, st.1.points.length + k + 1] := by
  have h2 : 2 ≤ pts.length := by
    match pts, h with
    | [_], h => simp at h
    | _ :: _ :: _, _ => simp
  have hd : distinct pts = pts := by unfold distinct; rw [if_neg h]
  refine ⟨_, _, _, readLine_eq r st h2 hw, by rw [hd], rfl, ?_, ?_⟩
  · unfold partEdges; simp [h, hd]
  · intro k hk
    unfold partEdges
    rw [hd]
    simp only [h, decide_false, Bool.false_eq_true, if_false, List.append_nil]
    rw [List.getElem?_map, List.getElem?_range' hk]
    simp

/-- C48 for closed parts of at least two points. -/
theorem closed_part (r : Nat) (st : State P) {pts : List P} (h : pts.head? = pts.getLast?) (h2 : 2 ≤ pts.length)
    (hw : st.1.points.length + pts.length < W) :
    ∃ (m : Mesh P) (u : Uniques) (es : List (List Nat)), readLine r st pts = .ok (m, u) ∧ m.points = st.1.points ++ pts.dropLast ∧
      m.cells = st.1.cells ++ es ∧ es.length = pts.length - 1 ∧
      (∀ k < pts.length - 2, es[k]? = some [st.1.points.length + k, st.1.points.length + k + 1]) ∧
      es[pts.length - 2]? = some [st.1.points.length, st.1.points.length + (pts.length - 2)] := by
  have hd : distinct pts = pts.dropLast := by unfold distinct; rw [if_pos h]
  have e : st.1.points.length + (pts.length - 1) - 1 = st.1.points.length + (pts.length - 2) := by omega
  have e2 : pts.length - 1 - 1 = pts.length - 2 := by omega
  refine ⟨_, _, _, readLine_eq r st h2 hw, by rw [hd], rfl, ?_, ?_, ?_⟩
  · unfold partEdges; simp [h, hd]; omega
  · intro k hk
    unfold partEdges
    simp only [h, hd, decide_true, if_true, List.length_dropLast, e2]
    rw [List.getElem?_append_left (by simpa using hk), List.getElem?_map, List.getElem?_range' hk]
    simp
  · unfold partEdges
    simp only [h, hd, decide_true, if_true, List.length_dropLast, e2, e]
    rw [List.getElem?_append_right (by simp)]
    simp

/-- The edges of a part join its consecutive points. -/
theorem part_segments {start : Nat} {before pts : List P} (hs : start = before.length) (h2 : 2 ≤ pts.length) :
    List.Forall₂ (Joins (before ++ distinct pts)) (partEdges start (distinct pts).length (decide (pts.head? = pts.getLast?))) (segments pts) := by
  subst hs
  have hd := distinct_length pts
  have hget : ∀ i < (distinct pts).length, (before ++ distinct pts)[before.length + i]? = pts[i]? := by
    intro i hi
    rw [List.getElem?_append_right (by omega)]
    have e : before.length + i - before.length = i := by omega
    rw [e]
    unfold distinct at hi ⊢
    split
    · rename_i hc
      rw [if_pos hc, List.length_dropLast] at hi
      rw [List.getElem?_dropLast, if_pos hi]
    · rfl
  have hseg : ∀ (k : Nat) (hk : k + 1 < pts.length), (segments pts)[k]? = some (pts[k], pts[k + 1]) := by
    intro k hk
    unfold segments
    rw [List.getElem?_zip_eq_some]
    exact ⟨List.getElem?_eq_getElem _, by rw [List.getElem?_tail, List.getElem?_eq_getElem]⟩
  have hl : (segments pts).length = pts.length - 1 := by unfold segments; simp
  rw [List.forall₂_iff_get]
  constructor
  · rw [hl]; unfold partEdges
    rw [hd]
    by_cases hc : pts.head? = pts.getLast?
    · simp [hc]; omega
    · simp [hc]
  · intro k hk hk'
    have hk2 : k + 1 < pts.length := by rw [hl] at hk'; omega
    have e1 : (segments pts).get ⟨k, hk'⟩ = (pts[k], pts[k + 1]) := by
      have := hseg k hk2
      rw [List.getElem?_eq_getElem hk'] at this
      exact Option.some.inj this
    rw [e1]
    have hin : ∀ E, (partEdges before.length (distinct pts).length (decide (pts.head? = pts.getLast?)))[k]? = some E →
        (partEdges before.length (distinct pts).length (decide (pts.head? = pts.getLast?))).get ⟨k, hk⟩ = E := by
      intro E h
      rw [List.getElem?_eq_getElem hk] at h
      exact Option.some.inj h
    by_cases hlast : k + 1 < (distinct pts).length
    · rw [hin [before.length + k, before.length + k + 1] ?_]
      · refine ⟨_, _, rfl, Or.inl ⟨?_, ?_⟩⟩
        · rw [hget k (by omega), List.getElem?_eq_getElem (by omega : k < pts.length)]
        · rw [Nat.add_assoc, hget (k + 1) hlast, List.getElem?_eq_getElem hk2]
      · unfold partEdges
        rw [List.getElem?_append_left (by simp; omega), List.getElem?_map, List.getElem?_range' (by omega)]
        simp
    · by_cases hc : pts.head? = pts.getLast?
      · rw [if_pos hc] at hd
        have hk3 : k = pts.length - 2 := by omega
        have hend : pts[k + 1] = pts[0] := by
          have h1 : pts.head? = some pts[0] := by rw [List.head?_eq_getElem?, List.getElem?_eq_getElem]
          have h3 : pts.getLast? = some pts[k + 1] := by
            rw [List.getLast?_eq_getElem?]
            have : pts.length - 1 = k + 1 := by omega
            rw [this, List.getElem?_eq_getElem]
          rw [h1, h3] at hc
          exact (Option.some.inj hc).symm
        rw [hin [before.length, before.length + k] ?_]
        · refine ⟨_, _, rfl, Or.inr ⟨?_, ?_⟩⟩
          · have := hget 0 (by omega)
            rw [Nat.add_zero] at this
            rw [this, List.getElem?_eq_getElem (by omega : 0 < pts.length), hend]
          · rw [hget k (by omega), List.getElem?_eq_getElem (by omega : k < pts.length)]
        · unfold partEdges
          have e4 : before.length + (distinct pts).length - 1 = before.length + k := by omega
          rw [List.getElem?_append_right (by simp; omega), e4]
          have e5 : k - (List.map (fun i => [i, i + 1]) (List.range' before.length ((distinct pts).length - 1))).length = 0 := by simp; omega
          rw [e5]
          simp [hc]
      · rw [if_neg hc] at hd; omega

/-- The parts of the features of a layer of lines. -/
def partsOf : Option (Geometry P) → List (List P)
  | some (.line pts) => [pts]
  | some (.multiLine parts) => parts
  | _ => []

theorem lineFeature_eq (r : Nat) (st : State P) {f : Option (Geometry P)} (h : f ≠ none) :
    lineFeature r st f = foldM' (readLine r) st (partsOf f) := by
  match f, h with
  | some (.line pts), _ => simp only [lineFeature, partsOf, foldM'_cons, foldM'_nil]; cases readLine r st pts <;> rfl
  | some (.multiLine _), _ => rfl
  | some (.point _), _ => rfl
  | some (.polygon _), _ => rfl
  | some (.multiPolygon _), _ => rfl
  | some .other, _ => rfl

theorem lineFeatures_eq (r : Nat) : ∀ (fs : List (Option (Geometry P))) (st : State P), (∀ f ∈ fs, f ≠ none) →
    foldM' (lineFeature r) st fs = foldM' (readLine r) st (fs.flatMap partsOf) := by
  intro fs
  induction fs with
  | nil => intro st _; rfl
  | cons f fs ih =>
    intro st h
    rw [foldM'_cons, List.flatMap_cons, foldM'_append, lineFeature_eq r st (h f (by simp))]
    congr 1
    funext st'
    exact ih st' fun g hg => h g (by simp [hg])

theorem readLines_ok (r : Nat) : ∀ (parts : List (List P)) (st : State P) (before : List (P × P)), (∀ p ∈ parts, 2 ≤ p.length) →
    st.1.points.length + (parts.map List.length).sum < W → List.Forall₂ (Joins st.1.points) st.1.cells before →
    ∃ st', foldM' (readLine r) st parts = .ok st' ∧ st'.1.points = st.1.points ++ parts.flatMap distinct ∧
      List.Forall₂ (Joins st'.1.points) st'.1.cells (before ++ parts.flatMap segments) := by
  intro parts
  induction parts with
  | nil => intro st before _ _ hb; exact ⟨st, rfl, by simp, by simpa using hb⟩
  | cons p parts ih =>
    intro st before h2 hw hb
    simp only [List.map_cons, List.sum_cons] at hw
    have hdl : (distinct p).length ≤ p.length := by rw [distinct_length]; split <;> omega
    have hj : List.Forall₂ (Joins (st.1.points ++ distinct p))
        (st.1.cells ++ partEdges st.1.points.length (distinct p).length (decide (p.head? = p.getLast?))) (before ++ segments p) :=
      List.rel_append (hb.imp fun _ _ h => h.append) (part_segments rfl (h2 p (by simp)))
    obtain ⟨st', e, e1, e2⟩ := ih (⟨st.1.points ++ distinct p,
        st.1.cells ++ partEdges st.1.points.length (distinct p).length (decide (p.head? = p.getLast?))⟩, addUniques .line r st p)
      (before ++ segments p) (fun q hq => h2 q (by simp [hq])) (by simp only [List.length_append]; omega) hj
    refine ⟨st', ?_, ?_, ?_⟩
    · rw [foldM'_cons, readLine_eq r st (h2 p (by simp)) (by omega)]; exact e
    · rw [e1]; simp
    · rw [List.flatMap_cons, ← List.append_assoc]; exact e2

/-- C48 for layers: every layer of lines whose parts have at least two points is loaded as a line with the points of the parts, without the repeated
ones, and an edge between consecutive points of the parts and no others. -/
theorem line_layer (tri : List P → List (List Nat)) (s : Section P) (l : Layer P) (hk : l.kind = .line) (hf : ∀ f ∈ l.features, f ≠ none)
    (h2 : ∀ p ∈ l.features.flatMap partsOf, 2 ≤ p.length) (hw : ((l.features.flatMap partsOf).map List.length).sum < W) :
    ∃ (m : Mesh P) (u : Uniques), readLayer tri s l = .ok { s with lines := s.lines ++ [(l.name, m)], uniques := u } ∧
      m.points = (l.features.flatMap partsOf).flatMap distinct ∧
      List.Forall₂ (Joins m.points) m.cells ((l.features.flatMap partsOf).flatMap segments) := by
  obtain ⟨st', e, e1, e2⟩ := readLines_ok s.lines.length (l.features.flatMap partsOf) ({}, s.uniques) [] h2 (by simpa using hw) List.Forall₂.nil
  refine ⟨st'.1, st'.2, ?_, by simpa using e1, by simpa using e2⟩
  unfold readLayer
  rw [hk]
  simp only
  rw [lineFeatures_eq _ _ _ hf, e]; rfl

/-- C48 is false for parts of one point, which are closed: their edges are created between vertices that do not exist. -/
theorem single_point_ub (r : Nat) (st : State P) (p : P) (hw : st.1.points.length < W) : readLine r st [p] = .ub := readLine_single r st p hw

/-- A square and an open part. -/
example : (match readLine 0 ({}, {}) [(0, 0), (1, 0), (1, 1), (0, 0)] with | .ok st => some st.1 | _ => none) =
    some (⟨[(0, 0), (1, 0), (1, 1)], [[0, 1], [1, 2], [0, 2]]⟩ : Mesh (Nat × Nat)) ∧
    (match readLine 0 ({}, {}) [(0, 0), (1, 0), (1, 1)] with | .ok st => some st.1 | _ => none) =
    some (⟨[(0, 0), (1, 0), (1, 1)], [[0, 1], [1, 2]]⟩ : Mesh (Nat × Nat)) := by decide

/-! ## Unique vertices (C49) -/

/-- Different component vertices are at different unique vertices, and only the vertex 0 of a corner has one. -/
structure Fine (u : Uniques) : Prop where
  inj : ∀ k k' x, u.of k = some x → u.of k' = some x → k = k'
  small : ∀ k x, u.of k = some x → x < u.nb
  corner : ∀ k, k.comp = .corner → (u.of k).isSome = true → k.vertex = 0

/-- Nothing assigned is forgotten. -/
def Le (u v : Uniques) : Prop := ∀ k, (u.of k).isSome = true → (v.of k).isSome = true

theorem of_addUniques (c : Comp) (r : Nat) (st : State P) (pts : List P) (k : Key) : (addUniques c r st pts).of k =
    if k.comp = c ∧ k.rank = r ∧ st.1.points.length ≤ k.vertex ∧ k.vertex < st.1.points.length + (distinct pts).length then
      some (st.2.nb + (k.vertex - st.1.points.length)) else st.2.of k := by
  unfold addUniques Uniques.of
  simp only
  rw [find_append, find_assignments]
  split <;> rfl

theorem fine_addUniques {c : Comp} (hc : c ≠ .corner) (r : Nat) (st : State P) (pts : List P) (h : Fine st.2) : Fine (addUniques c r st pts) := by
  have hnb : (addUniques c r st pts).nb = st.2.nb + (distinct pts).length := rfl
  constructor
  · intro k k' x h1 h2
    rw [of_addUniques] at h1 h2
    split at h1
    · split at h2
      · rename_i a b
        simp only [Option.some.injEq] at h1 h2
        obtain ⟨kc, kr, kv⟩ := k
        obtain ⟨kc', kr', kv'⟩ := k'
        simp only at a b h1 h2
        simp only [Key.mk.injEq]
        exact ⟨a.1.trans b.1.symm, a.2.1.trans b.2.1.symm, by omega⟩
      · simp only [Option.some.injEq] at h1
        have := h.small _ _ h2; omega
    · split at h2
      · simp only [Option.some.injEq] at h2
        have := h.small _ _ h1; omega
      · exact h.inj _ _ _ h1 h2
  · intro k x h1
    rw [of_addUniques] at h1
    rw [hnb]
    split at h1
    · simp only [Option.some.injEq] at h1; omega
    · have := h.small _ _ h1; omega
  · intro k hk h1
    rw [of_addUniques] at h1
    split at h1
    · rename_i a; exact absurd (a.1.symm.trans hk) hc
    · exact h.corner _ hk h1

/-- State in the construction of a component: its vertices are assigned. -/
structure Ready (c : Comp) (r : Nat) (u0 : Uniques) (st : State P) : Prop where
  fine : Fine st.2
  le : Le u0 st.2
  total : ∀ v < st.1.points.length, (st.2.of ⟨c, r, v⟩).isSome = true

theorem ready_add {c : Comp} (hc : c ≠ .corner) {r : Nat} {u0 : Uniques} {st : State P} (h : Ready c r u0 st) (pts : List P) (cells : List (List Nat)) :
    Ready c r u0 (⟨st.1.points ++ distinct pts, cells⟩, addUniques c r st pts) := by
  refine ⟨fine_addUniques hc r st pts h.fine, ?_, ?_⟩
  · intro k hk
    rw [of_addUniques]
    split
    · rfl
    · exact h.le k hk
  · intro v hv
    simp only [List.length_append] at hv
    rw [of_addUniques]
    simp only [true_and]
    split
    · rfl
    · exact h.total v (by omega)

theorem foldM'_keeps {α β : Type} {f : β → α → Res β} {p : β → Prop} (h : ∀ b a b', p b → f b a = .ok b' → p b') :
    ∀ (l : List α) (b b' : β), p b → foldM' f b l = .ok b' → p b' := by
  intro l
  induction l with
  | nil => intro b b' hb e; cases e; exact hb
  | cons a l ih =>
    intro b b' hb e
    rw [foldM'_cons] at e
    obtain ⟨b1, e1, e2⟩ := bind_eq_ok.1 e
    exact ih b1 b' (h b a b1 hb e1) e2

theorem ready_createEdge {r : Nat} {u0 : Uniques} {m m' : Mesh P} {u : Uniques} {a b : Nat} (h : Ready .line r u0 (m, u)) (e : createEdge m a b = .ok m') :
    Ready .line r u0 (m', u) := by
  unfold createEdge at e
  split at e
  · cases e; exact ⟨h.fine, h.le, h.total⟩
  · cases e

theorem ready_edgeLoop {r : Nat} {u0 u : Uniques} : ∀ (n p : Nat) (m m' : Mesh P), Ready .line r u0 (m, u) → edgeLoop p n m = .ok m' →
    Ready .line r u0 (m', u) := by
  intro n
  induction n with
  | zero => intro p m m' h e; cases e; exact h
  | succ n ih =>
    intro p m m' h e
    obtain ⟨m1, e1, e2⟩ := bind_eq_ok.1 e
    exact ih _ _ _ (ready_createEdge h e1) e2

theorem ready_readLine {r : Nat} {u0 : Uniques} (st : State P) (pts : List P) (st' : State P) (h : Ready .line r u0 st) (e : readLine r st pts = .ok st') :
    Ready .line r u0 st' := by
  by_cases hne : pts = []
  · subst hne; cases e
  · unfold readLine at e
    rw [readPoints_eq _ _ _ hne, ok_bind] at e
    obtain ⟨m, e1, e2⟩ := bind_eq_ok.1 e
    have hm := ready_edgeLoop _ _ _ _ (ready_add (by decide) h pts st.1.cells) e1
    rw [isClosed_eq hne, ok_bind] at e2
    split at e2
    · obtain ⟨m2, e3, e4⟩ := bind_eq_ok.1 e2
      cases e4
      exact ready_createEdge hm e3
    · cases e2; exact hm

theorem ready_readRing {tri : List P → List (List Nat)} {r : Nat} {u0 : Uniques} (st : State P) (pts : List P) (st' : State P)
    (h : Ready .surface r u0 st) (e : readRing tri r st pts = .ok st') : Ready .surface r u0 st' := by
  by_cases hne : pts = []
  · subst hne; cases e
  · rw [readRing_eq tri r st hne] at e
    cases e
    exact ready_add (by decide) h pts _

theorem ready_lineFeature {r : Nat} {u0 : Uniques} (st : State P) (f : Option (Geometry P)) (st' : State P) (h : Ready .line r u0 st)
    (e : lineFeature r st f = .ok st') : Ready .line r u0 st' := by
  by_cases hf : f = none
  · subst hf; cases e
  · rw [lineFeature_eq r st hf] at e
    exact foldM'_keeps (fun _ _ _ => ready_readLine _ _ _) _ _ _ h e

theorem ready_surfaceFeature {tri : List P → List (List Nat)} {r : Nat} {u0 : Uniques} (st : State P) (f : Option (Geometry P)) (st' : State P)
    (h : Ready .surface r u0 st) (e : surfaceFeature tri r st f = .ok st') : Ready .surface r u0 st' := by
  match f, e with
  | some (.polygon rings), e => exact foldM'_keeps (fun _ _ _ => ready_readRing _ _ _) _ _ _ h e
  | some (.multiPolygon polygons), e =>
    refine foldM'_keeps (fun a l b ha e => ?_) _ _ _ h e
    exact foldM'_keeps (fun a p b => ready_readRing a p b) l a b ha e
  | some (.point _), e => cases e; exact h
  | some (.line _), e => cases e; exact h
  | some (.multiLine _), e => cases e; exact h
  | some .other, e => cases e; exact h

/-- The corner in construction: the vertex 0 is assigned once there is a point. -/
structure CornerReady (r : Nat) (u0 : Uniques) (st : State P) : Prop where
  fine : Fine st.2
  le : Le u0 st.2
  first : 0 < st.1.points.length → (st.2.of ⟨.corner, r, 0⟩).isSome = true

theorem ready_cornerFeature {r : Nat} {u0 : Uniques} (st : State P) (f : Option (Geometry P)) (st' : State P) (h : CornerReady r u0 st)
    (e : cornerFeature r st f = .ok st') : CornerReady r u0 st' := by
  match f, e with
  | some (.point p), e =>
    cases e
    have hof : ∀ k : Key, (Uniques.of { nb := st.2.nb + 1, assigned := (⟨.corner, r, 0⟩, st.2.nb) :: st.2.assigned } k) =
        if (⟨.corner, r, 0⟩ : Key) = k then some st.2.nb else st.2.of k := fun k => rfl
    refine ⟨⟨?_, ?_, ?_⟩, ?_, ?_⟩
    · intro k k' x h1 h2
      simp only [hof] at h1 h2
      split at h1
      · split at h2
        · rename_i a b; exact a.symm.trans b
        · simp only [Option.some.injEq] at h1
          have := h.fine.small _ _ h2; omega
      · split at h2
        · simp only [Option.some.injEq] at h2
          have := h.fine.small _ _ h1; omega
        · exact h.fine.inj _ _ _ h1 h2
    · intro k x h1
      simp only [hof] at h1
      simp only
      split at h1
      · simp only [Option.some.injEq] at h1; omega
      · have := h.fine.small _ _ h1; omega
    · intro k hk h1
      simp only [hof] at h1
      split at h1
      · rename_i a; rw [← a]
      · exact h.fine.corner _ hk h1
    · intro k hk
      simp only [hof]
      split
      · rfl
      · exact h.le k hk
    · intro _
      simp only [hof, if_true]; rfl
  | some (.polygon _), e => cases e; exact h
  | some (.multiPolygon _), e => cases e; exact h
  | some (.line _), e => cases e; exact h
  | some (.multiLine _), e => cases e; exact h
  | some .other, e => cases e; exact h

/-- What is known of the unique vertices of a section. -/
structure Associated (s : Section P) : Prop where
  fine : Fine s.uniques
  lines : ∀ (i : Nat) (n : Str) (m : Mesh P), s.lines[i]? = some (n, m) → ∀ v < m.points.length, (s.uniques.of ⟨.line, i, v⟩).isSome = true
  surfaces : ∀ (i : Nat) (n : Str) (m : Mesh P), s.surfaces[i]? = some (n, m) → ∀ v < m.points.length, (s.uniques.of ⟨.surface, i, v⟩).isSome = true
  corners : ∀ (i : Nat) (n : Str) (m : Mesh P), s.corners[i]? = some (n, m) → 0 < m.points.length → (s.uniques.of ⟨.corner, i, 0⟩).isSome = true

theorem snoc_cases {α : Type} {l : List α} {a b : α} {i : Nat} (h : (l ++ [a])[i]? = some b) : l[i]? = some b ∨ (i = l.length ∧ b = a) := by
  by_cases hi : i < l.length
  · rw [List.getElem?_append_left hi] at h; exact Or.inl h
  · rw [List.getElem?_append_right (by omega)] at h
    have hlt := (List.getElem?_eq_some_iff.1 h).1
    simp only [List.length_cons, List.length_nil] at hlt
    have : i - l.length = 0 := by omega
    rw [this] at h
    exact Or.inr ⟨by omega, by simpa using h.symm⟩

theorem associated_readLayer {tri : List P → List (List Nat)} (s : Section P) (l : Layer P) (s' : Section P) (h : Associated s)
    (e : readLayer tri s l = .ok s') : Associated s' := by
  have le0 : Le s.uniques s.uniques := fun _ h => h
  unfold readLayer at e
  split at e
  · obtain ⟨st, e1, e2⟩ := bind_eq_ok.1 e
    cases e2
    have hr : CornerReady s.corners.length s.uniques st := foldM'_keeps (fun _ _ _ => ready_cornerFeature _ _ _) _ _ _ ⟨h.fine, le0, by simp⟩ e1
    refine ⟨hr.fine, fun i n m hm v hv => hr.le _ (h.lines i n m hm v hv), fun i n m hm v hv => hr.le _ (h.surfaces i n m hm v hv), ?_⟩
    intro i n m hm hp
    rcases snoc_cases hm with hm | ⟨rfl, hb⟩
    · exact hr.le _ (h.corners i n m hm hp)
    · cases hb; exact hr.first hp
  · obtain ⟨st, e1, e2⟩ := bind_eq_ok.1 e
    cases e2
    have hr : Ready .line s.lines.length s.uniques st := foldM'_keeps (fun _ _ _ => ready_lineFeature _ _ _) _ _ _ ⟨h.fine, le0, by simp⟩ e1
    refine ⟨hr.fine, ?_, fun i n m hm v hv => hr.le _ (h.surfaces i n m hm v hv), fun i n m hm hp => hr.le _ (h.corners i n m hm hp)⟩
    intro i n m hm v hv
    rcases snoc_cases hm with hm | ⟨rfl, hb⟩
    · exact hr.le _ (h.lines i n m hm v hv)
    · cases hb; exact hr.total v hv
  · obtain ⟨st, e1, e2⟩ := bind_eq_ok.1 e
    cases e2
    have hr : Ready .surface s.surfaces.length s.uniques st := foldM'_keeps (fun _ _ _ => ready_surfaceFeature _ _ _) _ _ _ ⟨h.fine, le0, by simp⟩ e1
    refine ⟨hr.fine, fun i n m hm v hv => hr.le _ (h.lines i n m hm v hv), ?_, fun i n m hm hp => hr.le _ (h.corners i n m hm hp)⟩
    intro i n m hm v hv
    rcases snoc_cases hm with hm | ⟨rfl, hb⟩
    · exact hr.le _ (h.surfaces i n m hm v hv)
    · cases hb; exact hr.total v hv
  · cases e; exact h

/-- In every loaded section, every vertex of every line and surface has a unique vertex, the first vertex of every corner too, and no two component
vertices have the same one. -/
theorem unique_vertices {tri : List P → List (List Nat)} {layers : List (Layer P)} {s : Section P} (h : loadShp tri layers = .ok s) : Associated s := by
  refine foldM'_keeps (fun _ _ _ => associated_readLayer _ _ _) _ _ _ ⟨⟨?_, ?_, ?_⟩, ?_, ?_, ?_⟩ h
  all_goals intros; simp_all [Uniques.of, find]

/-- C49 is false: the points of a layer of points, except the first one, have no unique vertex. -/
theorem other_points_loose {tri : List P → List (List Nat)} {layers : List (Layer P)} {s : Section P} (h : loadShp tri layers = .ok s) (i v : Nat)
    (hv : v ≠ 0) : s.uniques.of ⟨.corner, i, v⟩ = none := by
  have hf := (unique_vertices h).fine.corner ⟨.corner, i, v⟩ rfl
  cases hk : s.uniques.of ⟨.corner, i, v⟩ with
  | none => rfl
  | some x => rw [hk] at hf; exact absurd (hf rfl) hv

/-- C49 for layers of one point. -/
theorem single_points_partial {tri : List P → List (List Nat)} {layers : List (Layer P)} {s : Section P} (h : loadShp tri layers = .ok s) {i : Nat} {n : Str}
    {m : Mesh P} (hm : s.corners[i]? = some (n, m)) (h1 : m.points.length ≤ 1) :
    ∀ v < m.points.length, ∃ x < s.uniques.nb, s.uniques.of ⟨.corner, i, v⟩ = some x ∧ ∀ k, s.uniques.of k = some x → k = ⟨.corner, i, v⟩ := by
  intro v hv
  have : v = 0 := by omega
  subst this
  obtain ⟨x, hx⟩ := Option.isSome_iff_exists.1 ((unique_vertices h).corners i n m hm hv)
  exact ⟨x, (unique_vertices h).fine.small _ _ hx, hx, fun k hk => (unique_vertices h).fine.inj _ _ _ hk hx⟩

/-- Witness: two points, one layer. -/
example : (match loadShp (P := Nat × Nat) (fun _ => []) [⟨cs!"wells", .point, [some (.point (0, 0)), some (.point (1, 1))]⟩] with
    | .ok s => some (s.corners.map (fun c => c.2.points.length), s.uniques.nb, s.uniques.of ⟨.corner, 0, 0⟩, s.uniques.of ⟨.corner, 0, 1⟩)
    | _ => none) = some ([2], 2, some 1, none) := by decide

/-! ## Polygons -/

/-- The points of a polygon of a mesh. -/
def corners (m : Mesh P) (c : List Nat) : List (Option P) := c.map fun v => m.points[v]?

/-- A closed ring of at most 255 points is loaded as one polygon with its points. -/
theorem closed_ring (tri : List P → List (List Nat)) (r : Nat) (st : State P) {pts : List P} (hc : pts.head? = pts.getLast?) (h1 : pts ≠ [])
    (h2 : pts.length ≤ 255) :
    ∃ (m : Mesh P) (u : Uniques) (c : List Nat), readRing tri r st pts = .ok (m, u) ∧ m.points = st.1.points ++ pts.dropLast ∧
      m.cells = st.1.cells ++ [c] ∧ corners m c = pts.dropLast.map some := by
  have hd : distinct pts = pts.dropLast := by unfold distinct; rw [if_pos hc]
  refine ⟨_, _, List.range' st.1.points.length (pts.length - 1), readRing_eq tri r st h1, by rw [hd], ?_, ?_⟩
  · rw [if_pos (by omega)]
  · unfold corners
    simp only [hd]
    apply List.ext_getElem?
    intro i
    rw [List.getElem?_map, List.getElem?_map]
    by_cases hi : i < pts.length - 1
    · rw [List.getElem?_range' hi, Option.map_some, List.getElem?_append_right (by omega)]
      have e : st.1.points.length + 1 * i - st.1.points.length = i := by omega
      rw [e, List.getElem?_eq_getElem (by simpa using hi)]; rfl
    · rw [List.getElem?_eq_none (by simpa using hi), List.getElem?_eq_none (by simpa using hi)]; rfl

/-- A larger closed ring is loaded as the triangles of its triangulation. -/
theorem large_ring {tri : List P → List (List Nat)} (r : Nat) (st : State P) {pts : List P} (hc : pts.head? = pts.getLast?)
    (h2 : 255 < pts.length) (ht : ∀ t ∈ tri pts.dropLast, ∀ v ∈ t, v < pts.length - 1) :
    ∃ (m : Mesh P) (u : Uniques) (cs : List (List Nat)), readRing tri r st pts = .ok (m, u) ∧ m.points = st.1.points ++ pts.dropLast ∧
      m.cells = st.1.cells ++ cs ∧ cs.map (corners m) = (tri pts.dropLast).map fun t => t.map fun v => pts.dropLast[v]? := by
  have hd : distinct pts = pts.dropLast := by unfold distinct; rw [if_pos hc]
  have h1 : pts ≠ [] := by rintro rfl; simp at h2
  refine ⟨_, _, (tri pts.dropLast).map fun t => t.map (st.1.points.length + ·), readRing_eq tri r st h1, by rw [hd], ?_, ?_⟩
  · rw [if_neg (by omega)]
  · rw [List.map_map]
    refine List.map_congr_left fun t hm => ?_
    simp only [Function.comp, corners, List.map_map, hd]
    refine List.map_congr_left fun v hv => ?_
    simp only [Function.comp]
    rw [List.getElem?_append_right (by omega)]
    congr 1
    omega

/-- A ring that is not closed loses its last point. -/
theorem open_ring_loses (tri : List P → List (List Nat)) (r : Nat) (st : State P) {pts : List P} (hc : pts.head? ≠ pts.getLast?) (h2 : pts.length ≤ 255) :
    ∃ (m : Mesh P) (u : Uniques) (c : List Nat), readRing tri r st pts = .ok (m, u) ∧ m.points = st.1.points ++ pts ∧
      m.cells = st.1.cells ++ [c] ∧ corners m c = pts.dropLast.map some := by
  have h1 : pts ≠ [] := by rintro rfl; simp at hc
  have hd : distinct pts = pts := by unfold distinct; rw [if_neg hc]
  refine ⟨_, _, List.range' st.1.points.length (pts.length - 1), readRing_eq tri r st h1, by rw [hd], ?_, ?_⟩
  · rw [if_pos (by omega)]
  · unfold corners
    simp only [hd]
    apply List.ext_getElem?
    intro i
    rw [List.getElem?_map, List.getElem?_map, List.getElem?_dropLast]
    by_cases hi : i < pts.length - 1
    · rw [List.getElem?_range' hi, Option.map_some, List.getElem?_append_right (by omega), if_pos hi]
      have e : st.1.points.length + 1 * i - st.1.points.length = i := by omega
      rw [e, List.getElem?_eq_getElem (by omega : i < pts.length)]; rfl
    · rw [List.getElem?_eq_none (by simpa using hi), if_neg hi]; rfl

/-- The rings of a polygon, holes included, are loaded as so many polygons. -/
theorem rings_are_polygons (tri : List P → List (List Nat)) (r : Nat) : ∀ (rings : List (List P)) (st : State P), (∀ p ∈ rings, p ≠ [] ∧ p.length ≤ 255) →
    ∃ st', surfaceFeature tri r st (some (.polygon rings)) = .ok st' ∧ st'.1.cells.length = st.1.cells.length + rings.length := by
  intro rings
  induction rings with
  | nil => intro st _; exact ⟨st, rfl, rfl⟩
  | cons p rings ih =>
    intro st h
    obtain ⟨h1, h2⟩ := h p (by simp)
    have e0 := readRing_eq tri r st h1
    obtain ⟨st', e, e1⟩ := ih (⟨st.1.points ++ distinct p,
      st.1.cells ++ if p.length - 1 < 255 then [List.range' st.1.points.length (p.length - 1)]
        else (tri p.dropLast).map fun t => t.map (st.1.points.length + ·)⟩, addUniques .surface r st p) (fun q hq => h q (by simp [hq]))
    refine ⟨st', ?_, ?_⟩
    · simp only [surfaceFeature] at e ⊢
      rw [foldM'_cons, e0]; exact e
    · rw [e1, if_pos (by omega)]; simp; omega

/-- A polygon with a hole: the hole is loaded as a polygon that covers it. -/
theorem hole_filled : (match surfaceFeature (P := Nat × Nat) (fun _ => []) 0 ({}, {})
      (some (.polygon [[(0, 0), (9, 0), (9, 9), (0, 9), (0, 0)], [(3, 3), (3, 6), (6, 6), (6, 3), (3, 3)]])) with
    | .ok st => some (st.1.cells.map (corners st.1))
    | _ => none) = some [[some (0, 0), some (9, 0), some (9, 9), some (0, 9)], [some (3, 3), some (3, 6), some (6, 6), some (6, 3)]] := by decide

/-! ## Layers -/

/-- The layers of an unknown type are skipped, in any file. -/
theorem unknown_layer_skipped (tri : List P → List (List Nat)) (a b : List (Layer P)) (l : Layer P) (h : l.kind = .other) :
    loadShp tri (a ++ l :: b) = loadShp tri (a ++ b) := by
  unfold loadShp
  rw [foldM'_append, foldM'_append]
  congr 1
  funext s
  rw [foldM'_cons]
  have : readLayer tri s l = .ok s := by unfold readLayer; rw [h]
  rw [this]; rfl

/-- A feature without geometry is reported. -/
theorem missing_geometry_throws (tri : List P → List (List Nat)) (r : Nat) (st : State P) :
    cornerFeature r st none = .throw ∧ lineFeature r st none = .throw ∧ surfaceFeature tri r st none = .throw := ⟨rfl, rfl, rfl⟩

/-- Every layer of a known type gives one component with its name. -/
theorem components {tri : List P → List (List Nat)} {layers : List (Layer P)} {s : Section P} (h : loadShp tri layers = .ok s) :
    s.corners.map Prod.fst = (layers.filter fun l => l.kind = .point).map Layer.name ∧
      s.lines.map Prod.fst = (layers.filter fun l => l.kind = .line).map Layer.name ∧
      s.surfaces.map Prod.fst = (layers.filter fun l => l.kind = .polygon).map Layer.name := by
  have gen : ∀ (ls : List (Layer P)) (s0 s : Section P), foldM' (readLayer tri) s0 ls = .ok s →
      s.corners.map Prod.fst = s0.corners.map Prod.fst ++ (ls.filter fun l => l.kind = .point).map Layer.name ∧
      s.lines.map Prod.fst = s0.lines.map Prod.fst ++ (ls.filter fun l => l.kind = .line).map Layer.name ∧
      s.surfaces.map Prod.fst = s0.surfaces.map Prod.fst ++ (ls.filter fun l => l.kind = .polygon).map Layer.name := by
    intro ls
    induction ls with
    | nil => intro s0 s h; cases h; simp
    | cons l ls ih =>
      intro s0 s h
      rw [foldM'_cons] at h
      obtain ⟨s1, h1, h2⟩ := bind_eq_ok.1 h
      obtain ⟨i1, i2, i3⟩ := ih s1 s h2
      rw [i1, i2, i3]
      unfold readLayer at h1
      split at h1
      · rename_i hk
        obtain ⟨st, _, e2⟩ := bind_eq_ok.1 h1
        cases e2
        simp [List.filter_cons, hk]
      · rename_i hk
        obtain ⟨st, _, e2⟩ := bind_eq_ok.1 h1
        cases e2
        simp [List.filter_cons, hk]
      · rename_i hk
        obtain ⟨st, _, e2⟩ := bind_eq_ok.1 h1
        cases e2
        simp [List.filter_cons, hk]
      · rename_i hk
        cases h1
        simp [List.filter_cons, hk]
  simpa using gen layers {} s h

/-! ### C49, points -/

/-- The points of a layer. -/
def pointsOf (l : Layer P) : List P := l.features.filterMap fun f =>
  match f with
  | some (.point p) => some p
  | _ => none

theorem cornerFeatures_points (r : Nat) : ∀ (fs : List (Option (Geometry P))) (st st' : State P), foldM' (cornerFeature r) st fs = .ok st' →
    st'.1.cells = st.1.cells ∧ st'.1.points = st.1.points ++ fs.filterMap fun f =>
      match f with
      | some (.point p) => some p
      | _ => none := by
  intro fs
  induction fs with
  | nil => intro st st' h; cases h; simp
  | cons f fs ih =>
    intro st st' h
    rw [foldM'_cons] at h
    obtain ⟨st1, h1, h2⟩ := bind_eq_ok.1 h
    obtain ⟨i1, i2⟩ := ih st1 st' h2
    rw [i1, i2]
    match f with
    | none => cases h1
    | some (.point p) => cases h1; simp
    | some (.line _) | some (.multiLine _) | some (.polygon _) | some (.multiPolygon _) | some .other => cases h1; simp

/-- The mesh of the corner of each layer of points has the points of the layer, in their order, and nothing else. -/
theorem corner_points {tri : List P → List (List Nat)} {layers : List (Layer P)} {s : Section P} (h : loadShp tri layers = .ok s) :
    s.corners = (layers.filter fun l => l.kind = .point).map fun l => (l.name, { points := pointsOf l }) := by
  have gen : ∀ (ls : List (Layer P)) (s0 s : Section P), foldM' (readLayer tri) s0 ls = .ok s →
      s.corners = s0.corners ++ (ls.filter fun l => l.kind = .point).map fun l => (l.name, { points := pointsOf l }) := by
    intro ls
    induction ls with
    | nil => intro s0 s h; cases h; simp
    | cons l ls ih =>
      intro s0 s h
      rw [foldM'_cons] at h
      obtain ⟨s1, h1, h2⟩ := bind_eq_ok.1 h
      rw [ih s1 s h2]
      unfold readLayer at h1
      split at h1
      · rename_i hk
        obtain ⟨st, e1, e2⟩ := bind_eq_ok.1 h1
        cases e2
        obtain ⟨c1, c2⟩ := cornerFeatures_points _ _ _ _ e1
        have : st.1 = { points := pointsOf l } := by
          obtain ⟨⟨a, b⟩, u⟩ := st
          simp only at c1 c2
          subst c1 c2
          rfl
        simp [List.filter_cons, hk, this]
      · rename_i hk
        obtain ⟨st, _, e2⟩ := bind_eq_ok.1 h1
        cases e2
        simp [List.filter_cons, hk]
      · rename_i hk
        obtain ⟨st, _, e2⟩ := bind_eq_ok.1 h1
        cases e2
        simp [List.filter_cons, hk]
      · rename_i hk
        cases h1
        simp [List.filter_cons, hk]
  simpa using gen layers {} s h

example : (match loadShp (P := Nat) (fun _ => []) [⟨cs!"a", .point, [some (.point 4), some .other, some (.point 5)]⟩] with
    | .ok s => decide (s.corners = [(cs!"a", ⟨[4, 5], []⟩)])
    | _ => false) = true := by decide

end Verif.Props.Shp
