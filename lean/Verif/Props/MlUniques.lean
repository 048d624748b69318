import Verif.Model.MlUniques
import Verif.Props.MlLines

/-!
# Unique vertices of `.ml` files

Two vertices of the model are at one place when they have the same unique vertex.
-/

set_option linter.unusedSectionVars false

namespace Verif.Props.MlUniques

open Verif Verif.MlLines Verif.Props.MlLines Res

variable {P : Type}

/-! ## The lines made -/

theorem follow_ne_nil {s : MSurface P} {b : LsoLines.Border} : ∀ {n i : Nat} {r : List Nat}, follow s b n i = .ok r → r ≠ [] := by
  intro n i r h
  cases n with
  | zero => cases h
  | succ n =>
    rw [follow] at h
    obtain ⟨e, _, h⟩ := Res.bind_eq_ok.1 h
    split at h
    · cases h; simp
    · obtain ⟨r', _, h⟩ := Res.bind_eq_ok.1 h
      cases h; simp

theorem computeLine_two {s : MSurface P} {start : Nat × Nat} {d : LineData P} (h : computeLine s start = .ok d) : 2 ≤ d.points.length := by
  unfold computeLine at h
  split at h
  · cases h
  · obtain ⟨r, hr, h⟩ := Res.bind_eq_ok.1 h
    have hne : r ≠ [] := by
      unfold followStart at hr
      split at hr
      · exact follow_ne_nil hr
      · split at hr
        · exact follow_ne_nil hr
        · cases hr
    unfold endLine at h
    split at h
    · cases h
    · cases h
      simp only [List.length_map, List.length_cons]
      have := List.length_pos_iff.2 hne
      omega

/-- What is known of the lines made: two points at least, and corners of the surfaces at the ends. -/
def LineGood (nb : Nat) (l : Line P) : Prop := 2 ≤ l.points.length ∧ l.corner0 < nb ∧ l.corner1 < nb

/-- The corners of the surfaces are corners of the model. -/
def CornersKnown (nb : Nat) (surfaces : List (MSurface P)) : Prop := ∀ s ∈ surfaces, ∀ v c, s.corner v = some c → c < nb

theorem lineStep_good {close : P → P → Bool} {nb : Nat} {surfaces : List (MSurface P)} (hk : CornersKnown nb surfaces)
    {st st' : List (Line P) × List Piece} {x : Nat × Nat × Nat} (h : ∀ l ∈ st.1, LineGood nb l) (hs : lineStep close surfaces st x = .ok st') :
    ∀ l ∈ st'.1, LineGood nb l := by
  unfold lineStep at hs
  obtain ⟨s, hsx, hs⟩ := Res.bind_eq_ok.1 hs
  obtain ⟨d, hd, hs⟩ := Res.bind_eq_ok.1 hs
  cases hs
  have hsm := List.mem_of_getElem? (Res.index_eq_ok.1 hsx)
  have ho := computeLine_data hd
  have h2 := computeLine_two hd
  have hne : d.indices ≠ [] := by
    intro e
    rw [ho.points, e] at h2
    simp at h2
  have hg : LineGood nb ⟨d.corner0, d.corner1, d.points⟩ :=
    ⟨h2, hk s hsm _ _ (ho.first _ (List.head?_eq_some_head hne)), hk s hsm _ _ (ho.last _ (List.getLast?_eq_some_getLast hne))⟩
  intro l hl
  unfold findOrCreate at hl
  split at hl
  · exact h l hl
  · split at hl
    · exact h l hl
    · rcases List.mem_append.1 hl with hl | hl
      · exact h l hl
      · rw [List.mem_singleton.1 hl]; exact hg

theorem createLines_good {close : P → P → Bool} {nb : Nat} {surfaces : List (MSurface P)} (hk : CornersKnown nb surfaces)
    {starts : List (Nat × Nat × Nat)} {lines : List (Line P)} {pieces : List Piece} (h : createLines close surfaces starts = .ok (lines, pieces)) :
    ∀ l ∈ lines, LineGood nb l := by
  have : ∀ (xs : List (Nat × Nat × Nat)) (st st' : List (Line P) × List Piece), (∀ l ∈ st.1, LineGood nb l) →
      Res.foldM' (lineStep close surfaces) st xs = .ok st' → ∀ l ∈ st'.1, LineGood nb l := by
    intro xs
    induction xs with
    | nil => intro st st' hi he; cases he; exact hi
    | cons x xs ih =>
      intro st st' hi he
      rw [Res.foldM'_cons] at he
      obtain ⟨st1, h1, he⟩ := Res.bind_eq_ok.1 he
      exact ih st1 st' (lineStep_good hk hi h1) he
  exact this starts ([], []) (lines, pieces) (by simp) h

/-! ## The unique vertices of the lines -/

theorem lineVertices_length : ∀ (lines : List (Line P)) (f : Nat), (lineVertices f lines).length = lines.length
  | [], _ => rfl
  | l :: ls, f => by rw [lineVertices, List.length_cons, List.length_cons, lineVertices_length ls]

theorem nbUniques_cons (f : Nat) (l : Line P) (ls : List (Line P)) : nbUniques f (l :: ls) = nbUniques (f + (l.points.length - 2)) ls := by
  unfold nbUniques
  rw [List.map_cons, List.sum_cons]
  omega

theorem nbUniques_le (f : Nat) (ls : List (Line P)) : f ≤ nbUniques f ls := by unfold nbUniques; omega

/-- **The vertices of a line**: the ends have the unique vertices of the corners, the others have unique vertices of their own. -/
structure LineNumbered (nb hi : Nat) (l : Line P) (vs : List Nat) : Prop where
  length : vs.length = l.points.length
  first : vs.head? = some l.corner0
  last : vs.getLast? = some l.corner1
  inner : ∀ i, 0 < i → i + 1 < vs.length → ∃ u, vs[i]? = some u ∧ nb ≤ u ∧ u < hi

theorem line_numbered : ∀ {lines : List (Line P)} {f k : Nat} {l : Line P}, lines[k]? = some l → 2 ≤ l.points.length →
    ∃ vs, (lineVertices f lines)[k]? = some vs ∧ LineNumbered f (nbUniques f lines) l vs
  | [], _, _, _, h, _ => by simp at h
  | l' :: ls, f, 0, l, h, h2 => by
    rw [List.getElem?_cons_zero] at h
    cases h
    refine ⟨_, by rw [lineVertices, List.getElem?_cons_zero], ?_, rfl, by simp [List.getLast?_cons], ?_⟩
    · simp only [List.length_cons, List.length_append, List.length_map, List.length_range, List.length_nil]; omega
    · intro i hi hl
      simp only [List.length_cons, List.length_append, List.length_map, List.length_range, List.length_nil] at hl
      refine ⟨f + (i - 1), ?_, by omega, ?_⟩
      · obtain ⟨j, rfl⟩ : ∃ j, i = j + 1 := ⟨i - 1, by omega⟩
        rw [List.getElem?_cons_succ, List.getElem?_append_left (by simp; omega), List.getElem?_map, List.getElem?_range (by omega)]
        simp
      · rw [nbUniques_cons]
        have := nbUniques_le (f + (l'.points.length - 2)) ls
        omega
  | l' :: ls, f, k + 1, l, h, h2 => by
    rw [List.getElem?_cons_succ] at h
    obtain ⟨vs, h1, hn⟩ := line_numbered (f := f + (l'.points.length - 2)) h h2
    refine ⟨vs, by rw [lineVertices, List.getElem?_cons_succ]; exact h1, hn.length, hn.first, hn.last, ?_⟩
    intro i hi hl
    obtain ⟨u, a, b, c⟩ := hn.inner i hi hl
    exact ⟨u, a, by omega, by rw [nbUniques_cons]; exact c⟩

/-- Every unique vertex that is not one of a corner is one of a vertex of a line. -/
theorem inner_found : ∀ {lines : List (Line P)} {f u : Nat}, f ≤ u → u < nbUniques f lines → ∃ (k : Nat) (vs : List Nat), (lineVertices f lines)[k]? = some vs ∧ u ∈ vs
  | [], f, u, h1, h2 => by simp [nbUniques] at h2; omega
  | l :: ls, f, u, h1, h2 => by
    by_cases hu : u < f + (l.points.length - 2)
    · refine ⟨0, _, by rw [lineVertices, List.getElem?_cons_zero], ?_⟩
      refine List.mem_cons_of_mem _ (List.mem_append_left _ (List.mem_map.2 ⟨u - f, List.mem_range.2 (by omega), by omega⟩))
    · rw [nbUniques_cons] at h2
      obtain ⟨k, vs, h, hm⟩ := inner_found (by omega) h2
      exact ⟨k + 1, vs, by rw [lineVertices, List.getElem?_cons_succ]; exact h, hm⟩

/-- What the unique vertices of the lines are. -/
theorem mem_lineVertices : ∀ {lines : List (Line P)} {f : Nat} {vs : List Nat} {u : Nat}, vs ∈ lineVertices f lines → u ∈ vs →
    (∃ l ∈ lines, u = l.corner0 ∨ u = l.corner1) ∨ (f ≤ u ∧ u < nbUniques f lines)
  | [], _, _, _, h, _ => by simp [lineVertices] at h
  | l :: ls, f, vs, u, h, hu => by
    rw [lineVertices] at h
    rcases List.mem_cons.1 h with rfl | h
    · rcases List.mem_cons.1 hu with rfl | hu
      · exact .inl ⟨l, by simp, .inl rfl⟩
      · rcases List.mem_append.1 hu with hu | hu
        · obtain ⟨i, hi, rfl⟩ := List.mem_map.1 hu
          rw [List.mem_range] at hi
          refine .inr ⟨by omega, ?_⟩
          rw [nbUniques_cons]
          have := nbUniques_le (f + (l.points.length - 2)) ls
          omega
        · rw [List.mem_singleton.1 hu]
          exact .inl ⟨l, by simp, .inr rfl⟩
    · rcases mem_lineVertices h hu with ⟨l', hl', h1⟩ | ⟨h1, h2⟩
      · exact .inl ⟨l', List.mem_cons_of_mem _ hl', h1⟩
      · exact .inr ⟨by omega, by rw [nbUniques_cons]; exact h2⟩

/-- **A unique vertex that is not one of a corner is one of a single vertex of a single line.** -/
theorem inner_once : ∀ {lines : List (Line P)} {f : Nat} {j k i i' : Nat} {vs ws : List Nat} {u : Nat},
    (∀ l ∈ lines, l.corner0 < f ∧ l.corner1 < f) → f ≤ u →
    (lineVertices f lines)[j]? = some vs → (lineVertices f lines)[k]? = some ws → vs[i]? = some u → ws[i']? = some u → j = k ∧ i = i' := by
  have key : ∀ {lines : List (Line P)} {c f : Nat} {j i : Nat} {vs : List Nat} {u : Nat},
      (∀ l ∈ lines, l.corner0 < c ∧ l.corner1 < c) → c ≤ u → (lineVertices f lines)[j]? = some vs → vs[i]? = some u →
      ∃ l, lines[j]? = some l ∧ 0 < i ∧ u + 1 = nbUniques f (lines.take j) + i ∧ i ≤ l.points.length - 2 := by
    intro lines
    induction lines with
    | nil => intro c f j i vs u _ _ h; simp [lineVertices] at h
    | cons l ls ih =>
      intro c f j i vs u hc hu h hi
      cases j with
      | zero =>
        rw [lineVertices, List.getElem?_cons_zero] at h
        cases h
        refine ⟨l, rfl, ?_⟩
        have hl := hc l (by simp)
        cases i with
        | zero =>
          rw [List.getElem?_cons_zero] at hi
          cases hi; omega
        | succ i =>
          rw [List.getElem?_cons_succ] at hi
          by_cases hlt : i < l.points.length - 2
          · rw [List.getElem?_append_left (by simpa using hlt), List.getElem?_map, List.getElem?_range hlt] at hi
            cases hi
            refine ⟨by omega, ?_, by omega⟩
            simp [nbUniques]; omega
          · rw [List.getElem?_append_right (by simp; omega)] at hi
            have := List.mem_of_getElem? hi
            rw [List.mem_singleton] at this
            omega
      | succ j =>
        rw [lineVertices, List.getElem?_cons_succ] at h
        obtain ⟨l', h1, h2, h3, h4⟩ := ih (fun x hx => hc x (List.mem_cons_of_mem _ hx)) hu h hi
        exact ⟨l', by rw [List.getElem?_cons_succ]; exact h1, h2, by rw [List.take_succ_cons, nbUniques_cons]; exact h3, h4⟩
  intro lines f j k i i' vs ws u hc hu hj hk hi hi'
  obtain ⟨l, a1, a2, a3, a4⟩ := key hc hu hj hi
  obtain ⟨l', b1, b2, b3, b4⟩ := key hc hu hk hi'
  have step : ∀ {j k : Nat} {l : Line P}, lines[j]? = some l → j < k → nbUniques f (lines.take j) + (l.points.length - 2) ≤ nbUniques f (lines.take k) := by
    intro j k l hl hjk
    have hp : (lines.take (j + 1)).map (fun l => l.points.length - 2) <+: (lines.take k).map fun l => l.points.length - 2 := by
      refine List.IsPrefix.map _ ?_
      exact List.take_prefix_take_left (by omega)
    obtain ⟨t, ht⟩ := hp
    unfold nbUniques
    rw [← ht, List.sum_append, List.take_add_one, hl]
    simp only [Option.toList_some, List.map_append, List.map_cons, List.map_nil, List.sum_append, List.sum_cons, List.sum_nil]
    omega
  rcases Nat.lt_trichotomy j k with h | h | h
  · have := step a1 h
    omega
  · subst h
    exact ⟨rfl, by omega⟩
  · have := step b1 h
    omega

/-! ## The search of points -/

/-- The unique vertex `u` is that of a vertex of a line at the point `p`. -/
def AtLine (lines : List (Line P)) (vertices : List (List Nat)) (u : Nat) (p : P) : Prop :=
  ∃ (k i : Nat) (l : Line P) (vs : List Nat), lines[k]? = some l ∧ vertices[k]? = some vs ∧ vs[i]? = some u ∧ l.points[i]? = some p

/-- A corner at the end of a line. -/
def EndsLine (lines : List (Line P)) (c : Nat) : Prop := ∃ l ∈ lines, l.corner0 = c ∨ l.corner1 = c

theorem searchPoint_cases {nb : Nat} {lines : List (Line P)} (hg : ∀ l ∈ lines, LineGood nb l) (u : Nat) :
    ((∀ vs ∈ lineVertices nb lines, u ∉ vs) ∧ searchPoint lines (lineVertices nb lines) u = .throw) ∨
    ((∃ vs ∈ lineVertices nb lines, u ∈ vs) ∧ ∃ p, searchPoint lines (lineVertices nb lines) u = .ok p ∧ AtLine lines (lineVertices nb lines) u p) := by
  cases hf : (lineVertices nb lines).findIdx? (·.contains u) with
  | none =>
    left
    refine ⟨fun vs hv hu => ?_, by unfold searchPoint; rw [hf]⟩
    have := List.findIdx?_eq_none_iff.1 hf vs hv
    simp [hu] at this
  | some k =>
    right
    obtain ⟨hk, hc, _⟩ := List.findIdx?_eq_some_iff_getElem.1 hf
    have hk' : k < lines.length := by rw [lineVertices_length] at hk; exact hk
    have hl : lines[k]? = some lines[k] := List.getElem?_eq_getElem hk'
    obtain ⟨vs, hv, hn⟩ := line_numbered (f := nb) hl (hg _ (List.getElem_mem hk')).1
    have hvs : (lineVertices nb lines)[k] = vs := by
      rw [List.getElem?_eq_getElem hk] at hv
      exact Option.some.inj hv
    rw [hvs] at hc
    have hu : u ∈ vs := by simpa using hc
    have hi : vs.idxOf u < lines[k].points.length := by rw [← hn.length]; exact List.idxOf_lt_length_iff.2 hu
    refine ⟨⟨vs, List.mem_of_getElem? hv, hu⟩, lines[k].points[vs.idxOf u], ?_, k, vs.idxOf u, lines[k], vs, hl, hv, ?_, List.getElem?_eq_getElem hi⟩
    · unfold searchPoint
      rw [hf]
      simp only [Res.index_eq_ok.2 hl, Res.index_eq_ok.2 hv, Res.ok_bind]
      exact Res.index_eq_ok.2 (List.getElem?_eq_getElem hi)
    · rw [List.getElem?_eq_getElem (List.idxOf_lt_length_iff.2 hu), List.getElem_idxOf]

theorem mem_some_line {nb : Nat} {lines : List (Line P)} (hg : ∀ l ∈ lines, LineGood nb l) {u : Nat} (hu : u < nbUniques nb lines) :
    (∃ vs ∈ lineVertices nb lines, u ∈ vs) ↔ nb ≤ u ∨ EndsLine lines u := by
  constructor
  · rintro ⟨vs, hv, hm⟩
    rcases mem_lineVertices hv hm with ⟨l, hl, h⟩ | h
    · exact .inr ⟨l, hl, h.imp Eq.symm Eq.symm⟩
    · exact .inl h.1
  · rintro (h | ⟨l, hl, h⟩)
    · obtain ⟨k, vs, h1, h2⟩ := inner_found h hu
      exact ⟨vs, List.mem_of_getElem? h1, h2⟩
    · obtain ⟨k, hk⟩ := List.getElem?_of_mem hl
      obtain ⟨vs, hv, hn⟩ := line_numbered (f := nb) hk (hg l hl).1
      refine ⟨vs, List.mem_of_getElem? hv, ?_⟩
      rcases h with rfl | rfl
      · exact List.mem_of_mem_head? hn.first
      · exact List.mem_of_getLast? hn.last

theorem mapM'_ok_or_throw {A B : Type} {f : A → Res B} : ∀ {l : List A}, (∀ a ∈ l, f a = .throw ∨ ∃ b, f a = .ok b) →
    (Res.mapM' f l = .throw ∧ ∃ a ∈ l, f a = .throw) ∨ ∃ r, Res.mapM' f l = .ok r ∧ List.Forall₂ (fun a b => f a = .ok b) l r
  | [], _ => .inr ⟨[], rfl, .nil⟩
  | a :: l, h => by
    rw [mapM'_cons]
    rcases h a (by simp) with ha | ⟨b, ha⟩
    · exact .inl ⟨by rw [ha]; rfl, a, by simp, ha⟩
    · rw [ha, Res.ok_bind]
      rcases mapM'_ok_or_throw (l := l) fun x hx => h x (List.mem_cons_of_mem _ hx) with ⟨h1, x, hx, h2⟩ | ⟨r, h1, h2⟩
      · exact .inl ⟨by rw [h1]; rfl, x, List.mem_cons_of_mem _ hx, h2⟩
      · exact .inr ⟨b :: r, by rw [h1]; rfl, .cons ha h2⟩

/-- **The search is refused exactly when a corner ends no line**; otherwise each unique vertex has the point of a vertex of a line. -/
theorem search_points {nb : Nat} {lines : List (Line P)} (hg : ∀ l ∈ lines, LineGood nb l) :
    ((∃ c < nb, ¬EndsLine lines c) ∧ searchPoints lines (lineVertices nb lines) (nbUniques nb lines) = .throw) ∨
    ((∀ c < nb, EndsLine lines c) ∧ ∃ search, searchPoints lines (lineVertices nb lines) (nbUniques nb lines) = .ok search ∧
      search.length = nbUniques nb lines ∧ ∀ u p, search[u]? = some p → AtLine lines (lineVertices nb lines) u p) := by
  have hall : ∀ u ∈ List.range (nbUniques nb lines), searchPoint lines (lineVertices nb lines) u = .throw ∨
      ∃ p, searchPoint lines (lineVertices nb lines) u = .ok p := by
    intro u _
    rcases searchPoint_cases hg u with ⟨_, h⟩ | ⟨_, p, h, _⟩
    · exact .inl h
    · exact .inr ⟨p, h⟩
  rcases mapM'_ok_or_throw hall with ⟨h, u, hu, ht⟩ | ⟨r, h, hr⟩
  · left
    rw [List.mem_range] at hu
    rcases searchPoint_cases hg u with ⟨hn, _⟩ | ⟨_, p, hp, _⟩
    · have : ¬(nb ≤ u ∨ EndsLine lines u) := fun hh => by
        obtain ⟨vs, hv, hm⟩ := (mem_some_line hg hu).2 hh
        exact hn vs hv hm
      exact ⟨⟨u, by omega, fun he => this (.inr he)⟩, h⟩
    · rw [hp] at ht; cases ht
  · right
    have hlen : r.length = nbUniques nb lines := by rw [← hr.length_eq, List.length_range]
    have hat : ∀ (u : Nat) (p : P), r[u]? = some p → searchPoint lines (lineVertices nb lines) u = .ok p := by
      intro u p hp
      have hu : u < r.length := (List.getElem?_eq_some_iff.1 hp).1
      have hu' : u < (List.range (nbUniques nb lines)).length := by rw [hr.length_eq]; exact hu
      have := List.Forall₂.get hr hu' hu
      simp only [List.get_eq_getElem, List.getElem_range] at this
      rw [this, (List.getElem?_eq_some_iff.1 hp).2]
    refine ⟨fun c hc => ?_, r, h, hlen, ?_⟩
    · have hc' : c < nbUniques nb lines := Nat.lt_of_lt_of_le hc (nbUniques_le nb lines)
      have hp := hat c r[c] (List.getElem?_eq_getElem (by rw [hlen]; exact hc'))
      rcases searchPoint_cases hg c with ⟨_, ht⟩ | ⟨hm, _⟩
      · rw [ht] at hp; cases hp
      · rcases (mem_some_line hg hc').1 hm with h1 | h1
        · omega
        · exact h1
    · intro u p hp
      have h1 := hat u p hp
      rcases searchPoint_cases hg u with ⟨_, ht⟩ | ⟨_, q, hq, ha⟩
      · rw [ht] at h1; cases h1
      · rw [hq] at h1; cases h1; exact ha

/-- **A corner that ends no line is refused.** -/
theorem lone_corner {close : P → P → Bool} {nb : Nat} {surfaces : List (USurface P)} (hk : CornersKnown nb (surfaces.map USurface.toMSurface))
    {starts : List (Nat × Nat × Nat)} {lines : List (Line P)} {pieces : List Piece}
    (h : createLines close (surfaces.map USurface.toMSurface) starts = .ok (lines, pieces)) {c : Nat} (hc : c < nb) (hl : ¬EndsLine lines c) :
    buildLines close nb surfaces starts = .throw := by
  unfold buildLines
  rw [h, Res.ok_bind]
  rcases search_points (createLines_good hk h) with ⟨_, ht⟩ | ⟨ha, _⟩
  · simp only [ht, Res.throw_bind]
  · exact absurd (ha c hc) hl

/-! ## The pieces tied to lines -/

theorem insertPiece_perm (p : Piece) : ∀ ps : List Piece, (insertPiece p ps).Perm (p :: ps)
  | [] => .refl _
  | q :: qs => by
    rw [insertPiece]
    split
    · exact .refl _
    · exact ((insertPiece_perm p qs).cons q).trans (.swap p q qs)

theorem sortPieces_perm : ∀ ps : List Piece, (sortPieces ps).Perm ps
  | [] => .refl _
  | p :: ps => (insertPiece_perm p _).trans ((sortPieces_perm ps).cons p)

theorem mem_tiedPairs : ∀ {ps : List Piece} {p : Piece}, p ∈ tiedPairs ps → p ∈ ps
  | [], p, h => by simp [tiedPairs] at h
  | [_], p, h => by simp [tiedPairs] at h
  | a :: b :: r, p, h => by
    rw [tiedPairs] at h
    split at h
    · rcases List.mem_cons.1 h with rfl | h
      · simp
      · exact List.mem_cons_of_mem _ (mem_tiedPairs h)
    · rcases List.mem_cons.1 h with rfl | h
      · simp
      · rcases List.mem_cons.1 h with rfl | h
        · simp
        · exact List.mem_cons_of_mem _ (List.mem_cons_of_mem _ (mem_tiedPairs h))

theorem mem_tiedLast {ps : List Piece} {p : Piece} (h : p ∈ tiedLast ps) : p ∈ ps := by
  unfold tiedLast at h
  split at h
  · rename_i a b r e
    split at h
    · rw [List.mem_singleton.1 h, ← List.mem_reverse, e]
      simp
    · simp at h
  · simp at h

theorem mem_tied {ps : List Piece} {p : Piece} (h : p ∈ tied ps) : p ∈ ps := by
  refine (sortPieces_perm ps).mem_iff.1 ?_
  rcases List.mem_append.1 h with h | h
  · exact mem_tiedPairs h
  · exact mem_tiedLast h

theorem tiedLast_cons (p : Piece) {l : List Piece} (h : 2 ≤ l.length) : tiedLast (p :: l) = tiedLast l := by
  unfold tiedLast
  rw [List.reverse_cons]
  have : 2 ≤ l.reverse.length := by rw [List.length_reverse]; exact h
  match hr : l.reverse, this with
  | q :: p' :: t, _ => rfl

theorem tied_all : ∀ {ps : List Piece}, 2 ≤ ps.length → (∀ k, (ps.map Piece.line).count k ≤ 2) → tiedPairs ps ++ tiedLast ps = ps
  | [], h, _ => by simp at h
  | [_], h, _ => by simp at h
  | a :: b :: r, _, hc => by
    have hb : ∀ k, ((b :: r).map Piece.line).count k ≤ 2 := fun k =>
      Nat.le_trans (by rw [List.map_cons (l := b :: r), List.count_cons]; omega) (hc k)
    have hr : ∀ k, (r.map Piece.line).count k ≤ 2 := fun k =>
      Nat.le_trans (by rw [List.map_cons (l := r), List.count_cons]; omega) (hb k)
    rw [tiedPairs]
    by_cases hab : a.line ≠ b.line
    · rw [if_pos hab, List.cons_append]
      congr 1
      cases r with
      | nil =>
        have e : tiedLast [a, b] = if a.line ≠ b.line then [b] else [] := rfl
        rw [e, if_pos hab]
        rfl
      | cons c r =>
        rw [tiedLast_cons a (by simp)]
        exact tied_all (by simp) hb
    · rw [if_neg hab, List.cons_append, List.cons_append]
      have hab : a.line = b.line := Classical.not_not.1 hab
      congr 2
      match r, hc, hr with
      | [], _, _ =>
        have e : tiedLast [a, b] = if a.line ≠ b.line then [b] else [] := rfl
        rw [e, if_neg (fun hh => hh hab)]
        rfl
      | [c], hc, _ =>
        have e : tiedLast [a, b, c] = if b.line ≠ c.line then [c] else [] := rfl
        have hbc : b.line ≠ c.line := by
          intro hbc
          have := hc c.line
          simp [hab, hbc] at this
        rw [e, if_pos hbc]
        rfl
      | c :: d :: r, _, hr =>
        rw [tiedLast_cons a (by simp), tiedLast_cons b (by simp)]
        exact tied_all (by simp) hr

/-- **All the pieces of a surface are tied to their lines** when it has at least two and no line is met more than twice. -/
theorem pieces_tied_partial {ps : List Piece} (h2 : 2 ≤ ps.length) (hc : ∀ k, (ps.map Piece.line).count k ≤ 2) : (tied ps).Perm ps := by
  have hp := sortPieces_perm ps
  unfold tied
  rw [tied_all (by rw [hp.length_eq]; exact h2) fun k => by rw [(hp.map Piece.line).count_eq]; exact hc k]
  exact hp

/-- The property one would want: every piece is tied to its line. -/
def PiecesTied : Prop := ∀ ps : List Piece, ∀ p ∈ ps, p ∈ tied ps

/-- A single piece is not. -/
theorem pieces_not_tied : ¬PiecesTied := by
  intro h
  have := h [⟨0, 0, [0, 1]⟩] _ (List.mem_singleton.2 rfl)
  revert this
  decide

theorem tie_length (vertices : List (List Nat)) (u : List (Option Nat)) (p : Piece) : (tie vertices u p).length = u.length := by
  unfold tie
  have : ∀ (xs : List (Nat × Nat)) (u : List (Option Nat)), (xs.foldl (fun u x => u.set x.1 (some x.2)) u).length = u.length := by
    intro xs
    induction xs with
    | nil => intro u; rfl
    | cons x xs ih => intro u; rw [List.foldl_cons, ih, List.length_set]
  exact this _ _

/-- The unique vertex `w` is that of a vertex of the line of the piece, at the place of the vertex `v` of the surface. -/
def TiedTo (vertices : List (List Nat)) (p : Piece) (v w : Nat) : Prop :=
  ∃ (i : Nat) (vs : List Nat), vertices[p.line]? = some vs ∧ p.indices[i]? = some v ∧ vs[i]? = some w

theorem tie_at (vertices : List (List Nat)) (u : List (Option Nat)) (p : Piece) (v : Nat) :
    (tie vertices u p)[v]? = u[v]? ∨ ∃ w, (tie vertices u p)[v]? = some (some w) ∧ TiedTo vertices p v w := by
  have key : ∀ (xs : List (Nat × Nat)) (u : List (Option Nat)), (xs.foldl (fun u x => u.set x.1 (some x.2)) u)[v]? = u[v]? ∨
      ∃ w, (xs.foldl (fun u x => u.set x.1 (some x.2)) u)[v]? = some (some w) ∧ (v, w) ∈ xs := by
    intro xs
    induction xs with
    | nil => intro u; exact .inl rfl
    | cons x xs ih =>
      intro u
      rw [List.foldl_cons]
      rcases ih (u.set x.1 (some x.2)) with h | ⟨w, h, hw⟩
      · rw [h, List.getElem?_set]
        split
        · rename_i e
          split
          · refine .inr ⟨x.2, rfl, ?_⟩
            rw [← e]
            exact List.mem_cons_self
          · rename_i hlt
            left
            rw [← e, List.getElem?_eq_none (by omega)]
        · exact .inl rfl
      · exact .inr ⟨w, h, List.mem_cons_of_mem _ hw⟩
  rcases key (p.indices.zip (vertices[p.line]?.getD [])) u with h | ⟨w, h, hw⟩
  · exact .inl h
  · refine .inr ⟨w, h, ?_⟩
    obtain ⟨i, hi⟩ := List.getElem?_of_mem hw
    obtain ⟨h1, h2⟩ := List.getElem?_zip_eq_some.1 hi
    cases hv : vertices[p.line]? with
    | none => rw [hv] at h2; simp at h2
    | some vs =>
      rw [hv] at h2
      exact ⟨i, vs, hv, h1, h2⟩

theorem foldl_tie (vertices : List (List Nat)) (v : Nat) : ∀ (ps : List Piece) (u : List (Option Nat)),
    (ps.foldl (tie vertices) u).length = u.length ∧
    ((ps.foldl (tie vertices) u)[v]? = u[v]? ∨ ∃ w, (ps.foldl (tie vertices) u)[v]? = some (some w) ∧ ∃ p ∈ ps, TiedTo vertices p v w)
  | [], u => ⟨rfl, .inl rfl⟩
  | p :: ps, u => by
    rw [List.foldl_cons]
    obtain ⟨h1, h2⟩ := foldl_tie vertices v ps (tie vertices u p)
    refine ⟨h1.trans (tie_length _ _ _), ?_⟩
    rcases h2 with h2 | ⟨w, h2, q, hq, ht⟩
    · rw [h2]
      rcases tie_at vertices u p v with h3 | ⟨w, h3, ht⟩
      · exact .inl h3
      · exact .inr ⟨w, h3, p, by simp, ht⟩
    · exact .inr ⟨w, h2, q, List.mem_cons_of_mem _ hq, ht⟩

theorem corner_at (s : USurface P) {v : Nat} (hv : v < s.nb) : ((List.range s.nb).map s.corner)[v]? = some (s.corner v) := by
  rw [List.getElem?_map, List.getElem?_range hv]
  rfl

theorem tiedUniques_at (vertices : List (List Nat)) (pieces : List Piece) (n : Nat) (s : USurface P) :
    (tiedUniques vertices pieces n s).length = s.nb ∧ ∀ v w, (tiedUniques vertices pieces n s)[v]? = some (some w) →
      s.corner v = some w ∨ ∃ p ∈ pieces, p.surface = n ∧ TiedTo vertices p v w := by
  refine ⟨?_, ?_⟩
  · unfold tiedUniques
    rw [(foldl_tie vertices 0 _ _).1]
    simp
  · intro v w h
    unfold tiedUniques at h
    rcases (foldl_tie vertices v (tied (pieces.filter fun p => p.surface = n)) ((List.range s.nb).map s.corner)).2 with h2 | ⟨w', h2, p, hp, ht⟩
    · rw [h2] at h
      have hv : v < s.nb := by
        have := (List.getElem?_eq_some_iff.1 h).1
        simpa using this
      rw [corner_at s hv] at h
      exact .inl (Option.some.inj h)
    · rw [h2] at h
      cases h
      have := List.mem_filter.1 (mem_tied hp)
      exact .inr ⟨p, this.1, by simpa using this.2, ht⟩

/-! ## The unique vertices of the surfaces -/

theorem missingAll_at {close : P → P → Bool} {search : List P} {vertices : List (List Nat)} {pieces : List Piece} :
    ∀ {ss : List (USurface P)} {n f : Nat} {rs : List (List (Option Nat) × List Nat)}, (∀ l ∈ vertices, ∀ x ∈ l, x < f) →
    missingAll close search vertices pieces n f ss = .ok rs → ∃ lo : Nat → Nat, lo 0 = f ∧ (∀ i, lo i ≤ lo (i + 1)) ∧
      ∀ i s, ss[i]? = some s → ∃ us ints, rs[i]? = some (us, ints) ∧
        missingLines (fun v => neighbours close search (s.point v)) vertices (List.range s.nb)
          (tiedUniques vertices pieces (n + i) s, tiedInternals pieces (n + i), lo i) = .ok (us, ints, lo (i + 1))
  | [], n, f, rs, _, h => ⟨fun _ => f, rfl, fun _ => Nat.le_refl _, by intro i s hs; simp at hs⟩
  | s :: ss, n, f, rs, hf, h => by
    rw [missingAll] at h
    obtain ⟨⟨us, ints, f'⟩, h1, h⟩ := Res.bind_eq_ok.1 h
    obtain ⟨rs', h2, h⟩ := Res.bind_eq_ok.1 h
    cases h
    have hg : f ≤ f' := (pass_ok List.nodup_range hf h1).grows
    obtain ⟨lo, l0, lm, hl⟩ := missingAll_at (fun l hl x hx => Nat.lt_of_lt_of_le (hf l hl x hx) hg) h2
    refine ⟨fun i => match i with | 0 => f | i + 1 => lo i, rfl, ?_, ?_⟩
    · intro i
      cases i with
      | zero => simp only; rw [l0]; exact hg
      | succ i => exact lm i
    · intro i t ht
      cases i with
      | zero =>
        rw [List.getElem?_cons_zero] at ht
        cases ht
        refine ⟨us, ints, rfl, ?_⟩
        simp only [Nat.add_zero, l0]
        exact h1
      | succ i =>
        rw [List.getElem?_cons_succ] at ht
        obtain ⟨us', ints', h3, h4⟩ := hl i t ht
        refine ⟨us', ints', by rw [List.getElem?_cons_succ]; exact h3, ?_⟩
        rw [show n + (i + 1) = n + 1 + i by omega]
        exact h4

/-- What reading leaves for the vertex `v` of a surface with the unique vertex `u`. -/
structure Placed (close : P → P → Bool) (nb : Nat) (lines : List (Line P)) (vertices : List (List Nat)) (search : List P) (s : USurface P) (lo hi v u : Nat) :
    Prop where
  /-- The unique vertex is that of the corner recorded at the vertex, that of a vertex of a line at its place, or a new one. -/
  place : s.corner v = some u ∨ (∃ q, AtLine lines vertices u q ∧ (q = s.point v ∨ close q (s.point v) = true)) ∨ (lo ≤ u ∧ u < hi)
  /-- A new one is only given when no line has a vertex at the place, as far as the search sees. -/
  fresh : nbUniques nb lines ≤ u → ∀ q ∈ search, close q (s.point v) = false

theorem mem_neighbours {close : P → P → Bool} {search : List P} {p : P} {u : Nat} : u ∈ neighbours close search p ↔ ∃ q, search[u]? = some q ∧ close q p = true := by
  unfold neighbours
  rw [List.mem_filter, List.mem_range]
  constructor
  · rintro ⟨hu, h⟩
    rw [List.getElem?_eq_getElem hu] at h
    exact ⟨search[u], List.getElem?_eq_getElem hu, h⟩
  · rintro ⟨q, hq, h⟩
    refine ⟨(List.getElem?_eq_some_iff.1 hq).1, ?_⟩
    rw [hq]
    exact h

/-- What a built model is made of. -/
theorem buildLines_ok {close : P → P → Bool} {nb : Nat} {surfaces : List (USurface P)} (hk : CornersKnown nb (surfaces.map USurface.toMSurface))
    {starts : List (Nat × Nat × Nat)} {b : Built P} (h : buildLines close nb surfaces starts = .ok b) :
    b.vertices = lineVertices nb b.lines ∧ (∀ l ∈ b.lines, LineGood nb l) ∧ (∀ c < nb, EndsLine b.lines c) ∧
    ∃ (search : List P) (lo : Nat → Nat), searchPoints b.lines b.vertices (nbUniques nb b.lines) = .ok search ∧ search.length = nbUniques nb b.lines ∧ (∀ u p, search[u]? = some p → AtLine b.lines b.vertices u p) ∧
      lo 0 = nbUniques nb b.lines ∧ (∀ i, lo i ≤ lo (i + 1)) ∧
      ∀ n s, surfaces[n]? = some s → ∃ us ints, b.surfaces[n]? = some (us, ints) ∧ us.length = s.nb ∧
        ∀ v < s.nb, ∃ u, us[v]? = some (some u) ∧ Placed close nb b.lines b.vertices search s (lo n) (lo (n + 1)) v u ∧
          ∀ v' < s.nb, us[v']? = some (some u) → nbUniques nb b.lines ≤ u → v = v' := by
  unfold buildLines at h
  obtain ⟨⟨lines, pieces⟩, h1, h⟩ := Res.bind_eq_ok.1 h
  obtain ⟨search, h2, h⟩ := Res.bind_eq_ok.1 h
  obtain ⟨done, h3, h⟩ := Res.bind_eq_ok.1 h
  cases h
  simp only at h2 h3 ⊢
  have hg := createLines_good hk h1
  rcases search_points hg with ⟨_, ht⟩ | ⟨hends, search', hs, hlen, hat⟩
  · rw [ht] at h2; cases h2
  rw [hs] at h2
  cases h2
  have hlt : ∀ l ∈ lineVertices nb lines, ∀ x ∈ l, x < nbUniques nb lines := by
    intro vs hv x hx
    rcases mem_lineVertices hv hx with ⟨l, hl, rfl | rfl⟩ | h
    · exact Nat.lt_of_lt_of_le (hg l hl).2.1 (nbUniques_le _ _)
    · exact Nat.lt_of_lt_of_le (hg l hl).2.2 (nbUniques_le _ _)
    · exact h.2
  obtain ⟨lo, l0, lm, hl⟩ := missingAll_at hlt h3
  have hlo : ∀ i, nbUniques nb lines ≤ lo i := by
    intro i
    induction i with
    | zero => rw [l0]; exact Nat.le_refl _
    | succ i ih => exact Nat.le_trans ih (lm i)
  refine ⟨trivial, hg, hends, search, lo, hs, hlen, hat, l0, lm, ?_⟩
  intro n s hn
  obtain ⟨us, ints, h4, h5⟩ := hl n s hn
  rw [Nat.zero_add] at h5
  obtain ⟨hul, hu⟩ := tiedUniques_at (lineVertices nb lines) pieces n s
  have hva := vertices_attached (fun l hl' x hx => Nat.lt_of_lt_of_le (hlt l hl' x hx) (hlo n)) (by rw [hul]; exact h5)
  rw [hul] at hva
  -- what was there before has a number of a line or of a corner
  have hold : ∀ v w, (tiedUniques (lineVertices nb lines) pieces n s)[v]? = some (some w) → w < nbUniques nb lines ∧
      (s.corner v = some w ∨ ∃ q, AtLine lines (lineVertices nb lines) w q ∧ (q = s.point v ∨ close q (s.point v) = true)) := by
    intro v w hw
    rcases hu v w hw with hc | ⟨p, hp, hpn, i, vs, ht1, ht2, ht3⟩
    · have hm : s.toMSurface ∈ surfaces.map USurface.toMSurface := List.mem_map_of_mem (List.mem_of_getElem? hn)
      exact ⟨Nat.lt_of_lt_of_le (hk _ hm v w hc) (nbUniques_le _ _), .inl hc⟩
    · refine ⟨hlt vs (List.mem_of_getElem? ht1) w (List.mem_of_getElem? ht3), .inr ?_⟩
      obtain ⟨s', l, hs', hl', ho⟩ := pieces_on_lines h1 p hp
      rw [hpn, List.getElem?_map, hn] at hs'
      cases hs'
      have hi : i < p.indices.length := (List.getElem?_eq_some_iff.1 ht2).1
      have hi' : i < l.points.length := by rw [ho.points.length_eq]; exact hi
      have hpt := List.Forall₂.get ho.points hi' hi
      simp only [List.get_eq_getElem] at hpt
      rw [(List.getElem?_eq_some_iff.1 ht2).2] at hpt
      exact ⟨l.points[i], ⟨p.line, i, l, vs, hl', ht1, ht3, List.getElem?_eq_getElem hi'⟩, hpt⟩
  have hcase : ∀ v < s.nb, ∀ u, us[v]? = some (some u) → (∃ w, (tiedUniques (lineVertices nb lines) pieces n s)[v]? = some (some w) ∧ u = w) ∨
      ((tiedUniques (lineVertices nb lines) pieces n s)[v]? = some none ∧ neighbours close search (s.point v) = [u]) ∨
      ((tiedUniques (lineVertices nb lines) pieces n s)[v]? = some none ∧ neighbours close search (s.point v) = [] ∧ lo n ≤ u ∧ u < lo (n + 1)) := by
    intro v hv u hu1
    obtain ⟨_, _, ha⟩ := hva.2.1 v hv
    cases ho : (tiedUniques (lineVertices nb lines) pieces n s)[v]? with
    | none => rw [List.getElem?_eq_none_iff] at ho; omega
    | some o =>
      cases o with
      | some w =>
        have := ha.kept w ho
        rw [this] at hu1
        cases hu1
        exact .inl ⟨_, rfl, rfl⟩
      | none =>
        have h1 := ha.unique ho
        cases hnb : neighbours close search (s.point v) with
        | nil =>
          obtain ⟨w, a, c, d⟩ := ha.made ho hnb
          rw [d] at hu1
          cases hu1
          exact .inr (.inr ⟨rfl, rfl, a, c⟩)
        | cons w t =>
          cases t with
          | nil =>
            have := ha.found w ho hnb
            rw [this] at hu1
            cases hu1
            exact .inr (.inl ⟨rfl, rfl⟩)
          | cons _ _ => rw [hnb] at h1; simp at h1
  refine ⟨us, ints, h4, hva.1, ?_⟩
  intro v hv
  obtain ⟨u, hu1, _⟩ := hva.2.1 v hv
  refine ⟨u, hu1, ?_, ?_⟩
  · rcases hcase v hv u hu1 with ⟨w, h6, rfl⟩ | ⟨_, h7⟩ | ⟨_, h7, h8, h9⟩
    · obtain ⟨h7, h8⟩ := hold v u h6
      refine ⟨?_, fun hh => absurd h7 (by omega)⟩
      rcases h8 with h8 | h8
      · exact .inl h8
      · exact .inr (.inl h8)
    · obtain ⟨q, hq, hc⟩ := mem_neighbours.1 (h7 ▸ List.mem_singleton_self u : u ∈ neighbours close search (s.point v))
      refine ⟨.inr (.inl ⟨q, hat u q hq, .inr hc⟩), fun hh => ?_⟩
      have := (List.getElem?_eq_some_iff.1 hq).1
      omega
    · refine ⟨.inr (.inr ⟨h8, h9⟩), fun _ q hq => ?_⟩
      obtain ⟨i, hi⟩ := List.getElem?_of_mem hq
      cases hc : close q (s.point v) with
      | false => rfl
      | true =>
        have := mem_neighbours.2 ⟨q, hi, hc⟩
        rw [h7] at this
        simp at this
  · intro v' hv' hu2 hbig
    have key : ∀ x < s.nb, us[x]? = some (some u) → (tiedUniques (lineVertices nb lines) pieces n s)[x]? = some none ∧ neighbours close search (s.point x) = [] := by
      intro x hx hxu
      rcases hcase x hx u hxu with ⟨w, h6, rfl⟩ | ⟨_, h7⟩ | ⟨h6, h7, _⟩
      · have := (hold x u h6).1
        omega
      · obtain ⟨q, hq, _⟩ := mem_neighbours.1 (h7 ▸ List.mem_singleton_self u : u ∈ neighbours close search (s.point x))
        have := (List.getElem?_eq_some_iff.1 hq).1
        omega
      · exact ⟨h6, h7⟩
    exact hva.2.2 v v' (key v hv hu1).1 (key v' hv' hu2).1 (key v hv hu1).2 (key v' hv' hu2).2 (hu1.trans hu2.symm)

/-- The unique vertex of a vertex of a surface. -/
def uniqueOf (b : Built P) (n v : Nat) : Option Nat :=
  match b.surfaces[n]? with
  | some r => r.1[v]?.join
  | none => none

/-- **Every vertex of every surface has a unique vertex**: that of its corner, that of a vertex of a line at its place, or, when the search finds no vertex of
a line there, one that no line has. -/
theorem vertices_placed {close : P → P → Bool} {nb : Nat} {surfaces : List (USurface P)} (hk : CornersKnown nb (surfaces.map USurface.toMSurface))
    {starts : List (Nat × Nat × Nat)} {b : Built P} (h : buildLines close nb surfaces starts = .ok b) {n v : Nat} {s : USurface P}
    (hs : surfaces[n]? = some s) (hv : v < s.nb) :
    ∃ u, uniqueOf b n v = some u ∧ (s.corner v = some u ∨ (∃ q, AtLine b.lines b.vertices u q ∧ (q = s.point v ∨ close q (s.point v) = true)) ∨
      (nbUniques nb b.lines ≤ u ∧ ∀ search, searchPoints b.lines b.vertices (nbUniques nb b.lines) = .ok search → ∀ q ∈ search, close q (s.point v) = false)) := by
  obtain ⟨_, _, _, search, lo, hse, _, _, l0, lm, hall⟩ := buildLines_ok hk h
  obtain ⟨us, ints, h1, _, h2⟩ := hall n s hs
  obtain ⟨u, h3, h4, _⟩ := h2 v hv
  refine ⟨u, by unfold uniqueOf; rw [h1]; simp [h3], ?_⟩
  have hlo : ∀ i, nbUniques nb b.lines ≤ lo i := by
    intro i
    induction i with
    | zero => rw [l0]; exact Nat.le_refl _
    | succ i ih => exact Nat.le_trans ih (lm i)
  rcases h4.place with h5 | h5 | h5
  · exact .inl h5
  · exact .inr (.inl h5)
  · refine .inr (.inr ⟨Nat.le_trans (hlo n) h5.1, fun search' h6 => ?_⟩)
    rw [hse] at h6
    cases h6
    exact h4.fresh (Nat.le_trans (hlo n) h5.1)

/-- **A unique vertex that no line has is that of one vertex of one surface.** -/
theorem own_vertices {close : P → P → Bool} {nb : Nat} {surfaces : List (USurface P)} (hk : CornersKnown nb (surfaces.map USurface.toMSurface))
    {starts : List (Nat × Nat × Nat)} {b : Built P} (h : buildLines close nb surfaces starts = .ok b) {n m v w u : Nat} {s t : USurface P}
    (hs : surfaces[n]? = some s) (hv : v < s.nb) (ht : surfaces[m]? = some t) (hw : w < t.nb) (hu : nbUniques nb b.lines ≤ u)
    (h1 : uniqueOf b n v = some u) (h2 : uniqueOf b m w = some u) : n = m ∧ v = w := by
  obtain ⟨hvs, hg, _, search, lo, _, _, _, l0, lm, hall⟩ := buildLines_ok hk h
  have key : ∀ {n v : Nat} {s : USurface P}, surfaces[n]? = some s → v < s.nb → uniqueOf b n v = some u → lo n ≤ u ∧ u < lo (n + 1) ∧
      ∀ v' < s.nb, uniqueOf b n v' = some u → v = v' := by
    intro n v s hs hv h1
    obtain ⟨us, ints, g1, g2, g3⟩ := hall n s hs
    have un : ∀ x < s.nb, uniqueOf b n x = some u → us[x]? = some (some u) := by
      intro x hx hxu
      obtain ⟨u', g4, _⟩ := g3 x hx
      unfold uniqueOf at hxu
      rw [g1] at hxu
      simp only [g4] at hxu
      rw [g4]
      exact congrArg some hxu
    obtain ⟨u', g4, g5, g6⟩ := g3 v hv
    have e := un v hv h1
    rw [e] at g4
    cases g4
    refine ⟨?_, ?_, fun v' hv' hh => g6 v' hv' (un v' hv' hh) hu⟩
    all_goals
      rcases g5.place with hc | ⟨q, ⟨k, i, l, vs, a1, a2, a3, _⟩, _⟩ | hc
      · have hm : s.toMSurface ∈ surfaces.map USurface.toMSurface := List.mem_map_of_mem (List.mem_of_getElem? hs)
        have := hk _ hm v u hc
        have := nbUniques_le nb b.lines
        omega
      · rw [hvs] at a2
        rcases mem_lineVertices (List.mem_of_getElem? a2) (List.mem_of_getElem? a3) with ⟨l', hl', rfl | rfl⟩ | hh
        · have := (hg l' hl').2.1
          have := nbUniques_le nb b.lines
          omega
        · have := (hg l' hl').2.2
          have := nbUniques_le nb b.lines
          omega
        · omega
      · omega
  obtain ⟨a1, a2, a3⟩ := key hs hv h1
  obtain ⟨b1, b2, _⟩ := key ht hw h2
  have mono : ∀ {i j : Nat}, i ≤ j → lo i ≤ lo j := by
    intro i j hij
    induction hij with
    | refl => exact Nat.le_refl _
    | step _ ih => exact Nat.le_trans ih (lm _)
  have hnm : n = m := by
    rcases Nat.lt_trichotomy n m with hh | hh | hh
    · have := mono (i := n + 1) (j := m) hh; omega
    · exact hh
    · have := mono (i := m + 1) (j := n) hh; omega
  subst hnm
  rw [hs] at ht
  cases ht
  exact ⟨rfl, a3 w hw h2⟩

/-- **The vertices of the lines**: the ends have the unique vertices of the corners and the others have unique vertices that no other vertex of a line has. -/
theorem lines_numbered {close : P → P → Bool} {nb : Nat} {surfaces : List (USurface P)} (hk : CornersKnown nb (surfaces.map USurface.toMSurface))
    {starts : List (Nat × Nat × Nat)} {b : Built P} (h : buildLines close nb surfaces starts = .ok b) :
    (∀ (k : Nat) (l : Line P), b.lines[k]? = some l → ∃ vs, b.vertices[k]? = some vs ∧ LineNumbered nb (nbUniques nb b.lines) l vs) ∧
    ∀ {j k i i' : Nat} {vs ws : List Nat} {u : Nat}, nb ≤ u → b.vertices[j]? = some vs → b.vertices[k]? = some ws → vs[i]? = some u → ws[i']? = some u →
      j = k ∧ i = i' := by
  obtain ⟨hvs, hg, _⟩ := buildLines_ok hk h
  rw [hvs]
  exact ⟨fun k l hl => line_numbered hl (hg l (List.mem_of_getElem? hl)).1,
    fun hu h1 h2 h3 h4 => inner_once (fun l hl => (hg l hl).2) hu h1 h2 h3 h4⟩

/-- **Corners end lines** in every model built. -/
theorem corners_end_lines {close : P → P → Bool} {nb : Nat} {surfaces : List (USurface P)} (hk : CornersKnown nb (surfaces.map USurface.toMSurface))
    {starts : List (Nat × Nat × Nat)} {b : Built P} (h : buildLines close nb surfaces starts = .ok b) : ∀ c < nb, EndsLine b.lines c :=
  (buildLines_ok hk h).2.2.1

/-! ## Two triangles with a common edge -/

/-- The triangles 0 1 2 and 1 0 3, with corners at 0 and 1. -/
def pair : List (USurface Nat) :=
  [{ fwd := ⟨[(0, 1), (1, 2), (2, 0)], fun i => (i + 1) % 3⟩, back := ⟨[(1, 0), (2, 1), (0, 2)], fun i => (i + 2) % 3⟩, point := id,
     corner := fun v => if v < 2 then some v else none, nb := 3 },
   { fwd := ⟨[(0, 1), (1, 2), (2, 0)], fun i => (i + 1) % 3⟩, back := ⟨[(1, 0), (2, 1), (0, 2)], fun i => (i + 2) % 3⟩,
     point := fun v => if v = 0 then 1 else if v = 1 then 0 else 3, corner := fun v => if v = 0 then some 1 else if v = 1 then some 0 else none, nb := 3 }]

theorem pair_known : CornersKnown 2 (pair.map USurface.toMSurface) := by
  intro s hs v c hc
  simp only [pair, List.map_cons, List.map_nil, List.mem_cons, List.not_mem_nil, or_false] at hs
  rcases hs with rfl | rfl
  · simp only at hc
    split at hc
    · cases hc; omega
    · cases hc
  · simp only at hc
    split at hc
    · cases hc; omega
    · split at hc
      · cases hc; omega
      · cases hc

/-- The common edge is one line, and the third vertices are on lines of their own. -/
example : (match buildLines (fun a b => decide (a = b)) 2 pair [(0, 0, 2), (0, 1, 0), (1, 0, 2), (1, 1, 0)] with
    | .ok b => some (b.vertices, b.surfaces.map Prod.fst)
    | _ => none) = some ([[0, 2, 1], [1, 0], [1, 3, 0]], [[some 0, some 1, some 2], [some 1, some 0, some 3]]) := by decide +kernel

/-- A third corner that no line ends is refused. -/
example : (match buildLines (fun a b => decide (a = b)) 3 pair [(0, 0, 2), (0, 1, 0), (1, 0, 2), (1, 1, 0)] with
    | .throw => true
    | _ => false) = true := by decide +kernel

end Verif.Props.MlUniques
