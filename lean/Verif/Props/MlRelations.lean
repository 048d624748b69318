import Verif.Props.MlUniques
import Verif.Props.MlOutcomes

/-!
# The lines internal to the surfaces of a loaded `.ml` file

Which lines are on the boundary of a surface and which are internal to it, for any number of line starts, and through the whole of `build_lines`.
-/

set_option linter.unusedSectionVars false

namespace Verif.Props.MlRelations

open Verif Verif.Res Verif.MlLines Verif.Props.MlLines Verif.Props.MlUniques Verif.Props.MlOutcomes

variable {P : Type} [DecidableEq P]

theorem lastLine_eq {l : List Nat} {a b : Nat} (ha : l[l.length - 2]? = some a) (hb : l[l.length - 1]? = some b) (h2 : 2 ≤ l.length) :
    lastLine l = if a ≠ b then [(true, b)] else [] := by
  have e : l.reverse[0]? = some b := by
    rw [List.getElem?_reverse (by omega)]
    exact hb
  have e' : l.reverse[1]? = some a := by
    rw [List.getElem?_reverse (by omega)]
    exact (show l[l.length - 1 - 1]? = some a by rw [Nat.sub_sub]; exact ha)
  unfold lastLine
  match hr : l.reverse with
  | [] => rw [hr] at e; cases e
  | [_] => rw [hr] at e'; cases e'
  | x :: y :: r =>
    rw [hr] at e e'
    cases e
    cases e'
    rfl

/-- The lines of the starts of a surface are related to it as the surfaces of a region are to the region. -/
theorem lineRelations_eq {ns : List Nat} (h2 : 2 ≤ ns.length) : Ml.relations ns = .ok (lineRelations ns) := by
  have hl : 2 ≤ (Ml.sortNat ns).length := by rw [(Ml.sortNat_perm ns).length_eq]; exact h2
  unfold Ml.relations lineRelations
  dsimp only
  generalize Ml.sortNat ns = l at hl
  have ha : l[l.length - 2]? = some l[l.length - 2] := List.getElem?_eq_getElem (by omega)
  have hb : l[l.length - 1]? = some l[l.length - 1] := List.getElem?_eq_getElem (by omega)
  rw [if_neg (by omega), if_neg (by omega), lastLine_eq ha hb hl, index_eq_ok.2 ha, ok_bind, index_eq_ok.2 hb, ok_bind]
  rfl

/-- **The relations of the lines of a surface**, for any line starts: with less than two starts, none; otherwise a line is internal once for each two of its
starts, and on the boundary when one start is left, unless it is the last line and has other starts. -/
theorem lines_related (ns : List Nat) :
    (ns.length < 2 → lineRelations ns = []) ∧
    (2 ≤ ns.length → Bounds ns (((lineRelations ns).filter fun r => r.1).map Prod.snd) (((lineRelations ns).filter fun r => !r.1).map Prod.snd)) := by
  constructor
  · intro h
    unfold lineRelations
    dsimp only
    rw [if_pos (by rw [(Ml.sortNat_perm ns).length_eq]; exact h)]
  · intro h
    obtain ⟨rel, h1, h2, _⟩ := relations_bounds h
    rw [lineRelations_eq h] at h1
    rw [Res.ok.inj h1]
    exact h2

/-- Three starts on one line that is not the last: internal and on the boundary; on the last one: internal only. -/
example : lineRelations [4, 4, 4, 5] = [(false, 4), (true, 4), (true, 5)] ∧ lineRelations [3, 4, 4, 4] = [(true, 3), (false, 4)] := by decide

theorem mem_tiedInternals {pieces : List Piece} {n k : Nat} : k ∈ tiedInternals pieces n ↔ 2 ≤ ((pieces.filter fun p => p.surface = n).map Piece.line).count k := by
  unfold tiedInternals
  generalize (pieces.filter fun p => p.surface = n).map Piece.line = ns
  have e : ((lineRelations ns).filter fun r => r.1 = false) = (lineRelations ns).filter fun r => !r.1 := by
    congr 1
    funext r
    cases r.1 <;> rfl
  rw [e]
  by_cases h : 2 ≤ ns.length
  · have := ((lines_related ns).2 h).internals k
    rw [← List.count_pos_iff, this]
    omega
  · rw [(lines_related ns).1 (by omega)]
    have := List.count_le_length (a := k) (l := ns)
    simp
    omega

/-! ### Vertices that are not tied -/

theorem set_all {v : Nat} : ∀ (xs : List (Nat × Nat)) (u : List (Option Nat)), v < u.length → ((∃ w, u[v]? = some (some w)) ∨ ∃ w, (v, w) ∈ xs) →
    ∃ w, (xs.foldl (fun u x => u.set x.1 (some x.2)) u)[v]? = some (some w)
  | [], u, _, h => by
    rcases h with h | ⟨w, h⟩
    · exact h
    · cases h
  | x :: xs, u, hv, h => by
    rw [List.foldl_cons]
    refine set_all xs _ (by rw [List.length_set]; exact hv) ?_
    by_cases hx : x.1 = v
    · left
      refine ⟨x.2, ?_⟩
      rw [hx, List.getElem?_set_self hv]
    · rcases h with ⟨w, h⟩ | ⟨w, h⟩
      · exact .inl ⟨w, by rw [List.getElem?_set_ne hx]; exact h⟩
      · rcases List.mem_cons.1 h with rfl | h
        · exact absurd rfl hx
        · exact .inr ⟨w, h⟩

theorem tied_all' {vertices : List (List Nat)} {v : Nat} : ∀ (ps : List Piece) (u : List (Option Nat)), v < u.length →
    ((∃ w, u[v]? = some (some w)) ∨ ∃ p ∈ ps, ∃ w, TiedTo vertices p v w) → ∃ w, (ps.foldl (tie vertices) u)[v]? = some (some w)
  | [], u, _, h => by
    rcases h with h | ⟨p, h, _⟩
    · exact h
    · cases h
  | q :: ps, u, hv, h => by
    rw [List.foldl_cons]
    refine tied_all' ps _ (by rw [tie_length]; exact hv) ?_
    rcases h with h | ⟨p, h, w, ht⟩
    · exact .inl (set_all _ _ hv (.inl h))
    · rcases List.mem_cons.1 h with rfl | h
      · refine .inl (set_all _ _ hv (.inr ⟨w, ?_⟩))
        obtain ⟨i, vs, h1, h2, h3⟩ := ht
        rw [h1]
        exact List.mem_of_getElem? (List.getElem?_zip_eq_some.2 ⟨h2, h3⟩)
      · exact .inr ⟨p, h, w, ht⟩

/-- The vertex `v` of the surface of number `n` is at no corner, and at no vertex of the lines of the pieces that are tied. -/
def Loose (vertices : List (List Nat)) (pieces : List Piece) (n : Nat) (s : USurface P) (v : Nat) : Prop :=
  v < s.nb ∧ s.corner v = none ∧ ∀ p ∈ tied (pieces.filter fun p => p.surface = n), ∀ w, ¬TiedTo vertices p v w

theorem loose_iff {vertices : List (List Nat)} {pieces : List Piece} {n : Nat} {s : USurface P} {v : Nat} :
    (tiedUniques vertices pieces n s)[v]? = some none ↔ Loose vertices pieces n s v := by
  have hlen := (tiedUniques_at vertices pieces n s).1
  have hl0 : ((List.range s.nb).map s.corner).length = s.nb := by simp
  constructor
  · intro h
    have hv : v < s.nb := by
      have := (List.getElem?_eq_some_iff.1 h).1
      omega
    have hno : ∀ w, (tiedUniques vertices pieces n s)[v]? ≠ some (some w) := by
      intro w hw
      rw [h] at hw
      cases hw
    refine ⟨hv, ?_, ?_⟩
    · cases hc : s.corner v with
      | none => rfl
      | some c =>
        obtain ⟨w, hw⟩ := tied_all' (vertices := vertices) (v := v) (tied (pieces.filter fun p => p.surface = n)) ((List.range s.nb).map s.corner) (by omega)
          (.inl ⟨c, by rw [corner_at s hv, hc]⟩)
        exact absurd hw (hno w)
    · intro p hp w ht
      obtain ⟨w, hw⟩ := tied_all' (vertices := vertices) (v := v) (tied (pieces.filter fun p => p.surface = n)) ((List.range s.nb).map s.corner) (by omega)
        (.inr ⟨p, hp, w, ht⟩)
      exact absurd hw (hno w)
  · rintro ⟨hv, hc, hp⟩
    rcases (foldl_tie vertices v (tied (pieces.filter fun p => p.surface = n)) ((List.range s.nb).map s.corner)).2 with h | ⟨w, _, p, h1, h2⟩
    · unfold tiedUniques
      rw [h, corner_at s hv, hc]
    · exact absurd h2 (hp p h1 w)

/-! ### The whole of `build_lines` -/

/-- The line `k` lies on a surface with the unique vertices `us`, and has the only vertex found at the place of a loose vertex of the surface. -/
def Found (close : P → P → Bool) (search : List P) (vertices : List (List Nat)) (pieces : List Piece) (n : Nat) (s : USurface P) (us : List (Option Nat))
    (k : Nat) : Prop :=
  ∃ line, vertices[k]? = some line ∧ (∀ x ∈ line, some x ∈ us) ∧
    ∃ v w, Loose vertices pieces n s v ∧ neighbours close search (s.point v) = [w] ∧ w ∈ line

/-- **C166, the lines internal to a surface of a loaded model** are those that two of its line starts gave, and those found at its loose vertices. -/
theorem built_internals {close : P → P → Bool} {nb : Nat} {surfaces : List (USurface P)} (hk : CornersKnown nb (surfaces.map USurface.toMSurface))
    {starts : List (Nat × Nat × Nat)} {b : Built P} (h : buildLines close nb surfaces starts = .ok b) :
    ∃ pieces search, createLines close (surfaces.map USurface.toMSurface) starts = .ok (b.lines, pieces) ∧
      searchPoints b.lines b.vertices (nbUniques nb b.lines) = .ok search ∧
      ∀ n s, surfaces[n]? = some s → ∃ us ints, b.surfaces[n]? = some (us, ints) ∧
        ∀ k, k ∈ ints ↔ 2 ≤ ((pieces.filter fun p => p.surface = n).map Piece.line).count k ∨ Found close search b.vertices pieces n s us k := by
  unfold buildLines at h
  obtain ⟨⟨lines, pieces⟩, h1, h⟩ := Res.bind_eq_ok.1 h
  obtain ⟨search, h2, h⟩ := Res.bind_eq_ok.1 h
  obtain ⟨done, h3, h⟩ := Res.bind_eq_ok.1 h
  cases h
  simp only at h2 h3 ⊢
  refine ⟨pieces, search, h1, h2, ?_⟩
  have hg := createLines_good hk h1
  have hlt : ∀ l ∈ lineVertices nb lines, ∀ x ∈ l, x < nbUniques nb lines := by
    intro vs hv x hx
    rcases mem_lineVertices hv hx with ⟨l, hl, rfl | rfl⟩ | h
    · exact Nat.lt_of_lt_of_le (hg l hl).2.1 (nbUniques_le _ _)
    · exact Nat.lt_of_lt_of_le (hg l hl).2.2 (nbUniques_le _ _)
    · exact h.2
  obtain ⟨lo, l0, lm, hl⟩ := missingAll_at hlt h3
  have hlo : ∀ i, nbUniques nb lines ≤ lo i := by
    intro i
    induction i with
    | zero => rw [l0]; exact Nat.le_refl _
    | succ i ih => exact Nat.le_trans ih (lm i)
  intro n s hs
  obtain ⟨us, ints, h4, h5⟩ := hl n s hs
  rw [Nat.zero_add] at h5
  refine ⟨us, ints, h4, fun k => ?_⟩
  have hul := (tiedUniques_at (lineVertices nb lines) pieces n s).1
  rw [internals_lie (fun l hl' x hx => Nat.lt_of_lt_of_le (hlt l hl' x hx) (hlo n)) (by rw [hul]; exact h5) k, mem_tiedInternals]
  refine or_congr Iff.rfl ?_
  unfold Found
  refine exists_congr fun line => and_congr Iff.rfl (and_congr Iff.rfl ?_)
  constructor
  · rintro ⟨v, h6, w, h7, h8⟩
    exact ⟨v, w, loose_iff.1 h6, h7, h8⟩
  · rintro ⟨v, w, h6, h7, h8⟩
    exact ⟨v, loose_iff.2 h6, w, h7, h8⟩

/-- The triangle 0 1 2 with a corner at 0 and one at 1, and a fourth vertex at the place of the third. -/
def doubled : List (USurface Nat) :=
  [{ fwd := ⟨[(0, 1), (1, 2), (2, 0)], fun i => (i + 1) % 3⟩, back := ⟨[(1, 0), (2, 1), (0, 2)], fun i => (i + 2) % 3⟩,
     point := fun v => if v = 3 then 2 else v, corner := fun v => if v < 2 then some v else none, nb := 4 }]

theorem doubled_known : CornersKnown 2 (doubled.map USurface.toMSurface) := by
  intro s hs v c hc
  simp only [doubled, List.map_cons, List.map_nil, List.mem_cons, List.not_mem_nil, or_false] at hs
  subst hs
  simp only at hc
  split at hc
  · cases hc; omega
  · cases hc

/-- The boundary lines of a surface after `create_line_surface_relationships`. -/
def boundaryLines (pieces : List Piece) (n : Nat) : List Nat :=
  ((lineRelations ((pieces.filter fun p => p.surface = n).map Piece.line)).filter fun r => r.1).map Prod.snd

/-- The property: a boundary line of a surface is not internal to it. -/
def BoundaryOnly (P : Type) : Prop := ∀ (close : P → P → Bool) (nb : Nat) (surfaces : List (USurface P)) (starts : List (Nat × Nat × Nat)) (b : Built P)
  (lines : List (Line P)) (pieces : List Piece), CornersKnown nb (surfaces.map USurface.toMSurface) → buildLines close nb surfaces starts = .ok b →
  createLines close (surfaces.map USurface.toMSurface) starts = .ok (lines, pieces) → ∀ n us ints, b.surfaces[n]? = some (us, ints) →
  ∀ k ∈ boundaryLines pieces n, k ∉ ints

/-- What is seen of a model that is built. -/
def seen : Res (Built Nat) → Option (List (List Nat) × List (List (Option Nat) × List Nat))
  | .ok b => some (b.vertices, b.surfaces)
  | _ => none

/-- **C167 fails**: with two vertices at one place of its boundary, a surface has a boundary line as internal line. -/
theorem boundary_only_fails : ¬BoundaryOnly Nat := by
  intro h
  have h1 : seen (buildLines (fun a b => decide (a = b)) 2 doubled [(0, 0, 2), (0, 1, 0)]) =
      some ([[0, 2, 1], [1, 0]], [([some 0, some 1, some 2, some 2], [0])]) := by decide +kernel
  have h2 : (match createLines (fun a b : Nat => decide (a = b)) (doubled.map USurface.toMSurface) [(0, 0, 2), (0, 1, 0)] with
      | .ok r => decide (0 ∈ boundaryLines r.2 0)
      | _ => false) = true := by decide +kernel
  cases hb : buildLines (fun a b => decide (a = b)) 2 doubled [(0, 0, 2), (0, 1, 0)] with
  | ok b =>
    rw [hb] at h1
    have hs : b.surfaces = [([some 0, some 1, some 2, some 2], [0])] := (Prod.mk.inj (Option.some.inj h1)).2
    cases hc : createLines (fun a b : Nat => decide (a = b)) (doubled.map USurface.toMSurface) [(0, 0, 2), (0, 1, 0)] with
    | ok r =>
      rw [hc] at h2
      exact h _ _ _ _ b r.1 r.2 doubled_known hb hc 0 _ _ (by rw [hs]; rfl) 0 (by simpa using h2) (by simp)
    | throw => rw [hc] at h2; cases h2
    | ub => rw [hc] at h2; cases h2
    | diverge => rw [hc] at h2; cases h2
  | throw => rw [hb] at h1; cases h1
  | ub => rw [hb] at h1; cases h1
  | diverge => rw [hb] at h1; cases h1

/-- **C167 in part**: a line with one start on a surface that has other starts is a boundary of the surface, and is internal to it only when it is found at a
loose vertex of the surface. -/
theorem boundary_only_partial {close : P → P → Bool} {nb : Nat} {surfaces : List (USurface P)} (hk : CornersKnown nb (surfaces.map USurface.toMSurface))
    {starts : List (Nat × Nat × Nat)} {b : Built P} (h : buildLines close nb surfaces starts = .ok b) :
    ∃ pieces search, createLines close (surfaces.map USurface.toMSurface) starts = .ok (b.lines, pieces) ∧
      searchPoints b.lines b.vertices (nbUniques nb b.lines) = .ok search ∧
      ∀ n s, surfaces[n]? = some s → 2 ≤ (pieces.filter fun p => p.surface = n).length →
        (∀ v, Loose b.vertices pieces n s v → neighbours close search (s.point v) = []) →
        ∃ us ints, b.surfaces[n]? = some (us, ints) ∧ ∀ k, ((pieces.filter fun p => p.surface = n).map Piece.line).count k = 1 → k ∈ boundaryLines pieces n ∧ k ∉ ints := by
  obtain ⟨pieces, search, h1, h2, h3⟩ := built_internals hk h
  refine ⟨pieces, search, h1, h2, fun n s hs hl hno => ?_⟩
  obtain ⟨us, ints, h4, h5⟩ := h3 n s hs
  refine ⟨us, ints, h4, fun k hc => ⟨?_, ?_⟩⟩
  · have := ((lines_related ((pieces.filter fun p => p.surface = n).map Piece.line)).2 (by rw [List.length_map]; exact hl)).boundaries k
    unfold boundaryLines
    rw [← List.count_pos_iff, this, hc]
    simp
  · rw [h5 k]
    rintro (h6 | ⟨line, _, _, v, w, h6, h7, _⟩)
    · omega
    · rw [hno v h6] at h7
      cases h7

end Verif.Props.MlRelations
