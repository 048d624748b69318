import Verif.Lemmas.Text
import Verif.Lemmas.Sides
import Verif.Model.Shp

/-!
# Lines, rings and unique vertices of shapefiles
-/

namespace Verif.Shp

open Verif Verif.Sides Res

variable {P : Type} [DecidableEq P]

/-- The points of a part without the last one when it repeats the first. -/
def distinct (pts : List P) : List P := if pts.head? = pts.getLast? then pts.dropLast else pts

theorem isClosed_eq {pts : List P} (h : pts ≠ []) : isClosed pts = .ok (decide (pts.head? = pts.getLast?)) := by
  unfold isClosed
  have hl : 0 < pts.length := List.length_pos_iff.2 h
  rw [index_of_lt hl, ok_bind, index_of_lt (by omega : pts.length - 1 < pts.length), ok_bind]
  have h1 : pts.head? = some pts[0] := by rw [List.head?_eq_getElem?, List.getElem?_eq_getElem hl]
  have h2 : pts.getLast? = some pts[pts.length - 1] := by
    rw [List.getLast?_eq_getElem?, List.getElem?_eq_getElem]
  rw [h1, h2]
  simp

/-- The unique vertices after the points of a part. -/
def addUniques (c : Comp) (r : Nat) (st : State P) (pts : List P) : Uniques :=
  { nb := st.2.nb + (distinct pts).length, assigned := assignments c r st.1.points.length st.2.nb (distinct pts).length ++ st.2.assigned }

theorem distinct_length (pts : List P) : (distinct pts).length = if pts.head? = pts.getLast? then pts.length - 1 else pts.length := by
  unfold distinct; split <;> simp

theorem readPoints_eq (c : Comp) (r : Nat) (st : State P) {pts : List P} (h : pts ≠ []) :
    readPoints c r st pts = .ok ({ st.1 with points := st.1.points ++ distinct pts }, addUniques c r st pts) := by
  unfold readPoints
  rw [isClosed_eq h, ok_bind]
  unfold addUniques
  rw [distinct_length]
  unfold distinct
  by_cases hc : pts.head? = pts.getLast?
  · simp [hc, List.dropLast_eq_take]
  · simp [hc]

theorem edgeLoop_eq (p n : Nat) (m : Mesh P) (h : p + n < m.points.length) :
    edgeLoop p n m = .ok { m with cells := m.cells ++ (List.range' p n).map fun k => [k, k + 1] } := by
  induction n generalizing p m with
  | zero => simp [edgeLoop]
  | succ n ih =>
    rw [edgeLoop]
    unfold createEdge
    rw [if_pos ⟨by omega, by omega⟩, ok_bind, ih _ _ (by simp only; omega)]
    simp [List.range'_succ]

/-- The edges of a part with `k` distinct points. -/
def partEdges (start k : Nat) (closed : Bool) : List (List Nat) :=
  (List.range' start (k - 1)).map (fun i => [i, i + 1]) ++ if closed then [[start, start + k - 1]] else []

theorem readLine_eq (r : Nat) (st : State P) {pts : List P} (h2 : 2 ≤ pts.length) (hw : st.1.points.length + pts.length < W) :
    readLine r st pts = .ok (⟨st.1.points ++ distinct pts,
      st.1.cells ++ partEdges st.1.points.length (distinct pts).length (decide (pts.head? = pts.getLast?))⟩, addUniques .line r st pts) := by
  have hne : pts ≠ [] := by rintro rfl; simp at h2
  have hd := distinct_length pts
  have hk : 1 ≤ (distinct pts).length ∧ (distinct pts).length ≤ pts.length := by rw [hd]; split <;> omega
  unfold readLine
  rw [readPoints_eq .line r st hne, ok_bind]
  simp only [List.length_append]
  have hs : sub32 (st.1.points.length + (distinct pts).length) 1 = st.1.points.length + (distinct pts).length - 1 := sub32_of_le (by omega) (by omega)
  rw [hs, edgeLoop_eq _ _ _ (by simp only [List.length_append]; omega), ok_bind, isClosed_eq hne, ok_bind]
  have e : st.1.points.length + (distinct pts).length - 1 - st.1.points.length = (distinct pts).length - 1 := by omega
  rw [e]
  unfold partEdges
  by_cases hc : pts.head? = pts.getLast?
  · simp only [hc, decide_true, if_true]
    unfold createEdge
    rw [if_pos (by simp only [List.length_append]; omega), ok_bind]
    simp
  · simp [hc]

theorem readLine_single (r : Nat) (st : State P) (p : P) (hw : st.1.points.length < W) : readLine r st [p] = .ub := by
  unfold readLine
  rw [readPoints_eq .line r st (by simp), ok_bind]
  have e : distinct [p] = [] := by simp [distinct]
  rw [e]
  simp only [List.append_nil]
  cases hn : st.1.points.length with
  | zero =>
    have : sub32 0 1 - 0 = 4294967294 + 1 := by decide
    rw [this, edgeLoop]
    unfold createEdge
    rw [if_neg (by simp only; omega)]; rfl
  | succ n =>
    rw [sub32_of_le (by omega) (by omega)]
    have : n + 1 - 1 - (n + 1) = 0 := by omega
    rw [this, edgeLoop, ok_bind, isClosed_eq (by simp), ok_bind]
    simp only [List.head?_cons, List.getLast?_singleton, decide_true, if_true]
    unfold createEdge
    rw [if_neg (by simp only; omega)]; rfl

theorem readLine_empty (r : Nat) (st : State P) : readLine r st [] = .ub := rfl

theorem readRing_eq (tri : List P → List (List Nat)) (r : Nat) (st : State P) {pts : List P} (h : pts ≠ []) :
    readRing tri r st pts = .ok (⟨st.1.points ++ distinct pts,
      st.1.cells ++ if pts.length - 1 < 255 then [List.range' st.1.points.length (pts.length - 1)]
        else (tri pts.dropLast).map fun t => t.map (st.1.points.length + ·)⟩, addUniques .surface r st pts) := by
  unfold readRing
  rw [readPoints_eq .surface r st h, ok_bind]
  by_cases hs : pts.length - 1 < 255
  · simp only [hs, if_true, pure_eq]
  · simp only [hs, if_false, pure_eq]
    have hm : mapM' (fun p => Res.index (st.1.points ++ distinct pts) (st.1.points.length + p)) (List.range (pts.length - 1)) = .ok pts.dropLast := by
      have : ∀ p ∈ List.range (pts.length - 1), Res.index (st.1.points ++ distinct pts) (st.1.points.length + p) = .ok ((pts[p]?).getD (pts.head h)) := by
        intro p hp
        have hp := List.mem_range.1 hp
        rw [index_eq_ok, List.getElem?_append_right (by omega)]
        have e : st.1.points.length + p - st.1.points.length = p := by omega
        rw [e, List.getElem?_eq_getElem (by omega : p < pts.length)]
        unfold distinct
        split
        · rw [List.getElem?_dropLast, if_pos hp, List.getElem?_eq_getElem (by omega : p < pts.length)]; rfl
        · rw [List.getElem?_eq_getElem (by omega : p < pts.length)]; rfl
      rw [mapM'_ok this]
      congr 1
      apply List.ext_getElem?
      intro i
      rw [List.getElem?_map, List.getElem?_dropLast]
      by_cases hi : i < pts.length - 1
      · rw [List.getElem?_range hi, if_pos hi, List.getElem?_eq_getElem (by omega : i < pts.length)]
        simp [List.getElem?_eq_getElem (by omega : i < pts.length)]
      · rw [if_neg hi, List.getElem?_eq_none (by simpa using hi)]; rfl
    rw [hm, ok_bind]

/-! ## Assignments -/

theorem find_assignments (c : Comp) (r v u n : Nat) (k : Key) :
    find (assignments c r v u n) k = if k.comp = c ∧ k.rank = r ∧ v ≤ k.vertex ∧ k.vertex < v + n then some (u + (k.vertex - v)) else none := by
  induction n generalizing v u with
  | zero => rw [if_neg (by omega)]; rfl
  | succ n ih =>
    rw [assignments, find_append, ih]
    obtain ⟨kc, kr, kv⟩ := k
    simp only [find, Key.mk.injEq]
    by_cases hcr : kc = c ∧ kr = r
    · obtain ⟨rfl, rfl⟩ := hcr
      simp only [true_and]
      by_cases hv : v = kv
      · subst hv
        rw [if_neg (by omega), if_pos (by omega), if_pos (by omega)]
        simp
      · by_cases h1 : v + 1 ≤ kv ∧ kv < v + 1 + n
        · rw [if_pos h1, Option.some_or, if_pos (by omega)]
          simp only [Option.some.injEq]; omega
        · rw [if_neg h1, if_neg hv, if_neg (by omega)]; rfl
    · rw [if_neg (fun h => hcr ⟨h.1, h.2.1⟩), if_neg (fun h => hcr ⟨h.1.symm, h.2.1.symm⟩), if_neg (fun h => hcr ⟨h.1, h.2.1⟩)]; rfl

end Verif.Shp
