import Verif.Props.MlUniques
import Verif.Props.LsoLines

/-!
# Lines along the border of a surface
-/

namespace Verif.Props.MlBorders

open Verif Verif.LsoLines Verif.MlLines Verif.Props.MlLines Verif.Props.MlUniques Res

variable {P : Type}

/-! ## Positions -/

theorem pairs_at : ∀ {l : List Nat} {i a b : Nat}, l[i]? = some a → l[i + 1]? = some b → (a, b) ∈ pairs l
  | [], _, _, _, h, _ => by simp at h
  | [x], i, _, _, _, h => by simp at h
  | x :: y :: l, 0, a, b, h1, h2 => by
    simp only [List.getElem?_cons_zero, List.getElem?_cons_succ, Option.some.injEq] at h1 h2
    subst h1 h2
    simp [pairs]
  | x :: y :: l, i + 1, a, b, h1, h2 => by
    rw [pairs]
    rw [List.getElem?_cons_succ] at h1 h2
    exact List.mem_cons_of_mem _ (pairs_at h1 h2)

theorem mem_pairs_at : ∀ {l : List Nat} {a b : Nat}, (a, b) ∈ pairs l → ∃ i, l[i]? = some a ∧ l[i + 1]? = some b
  | [], _, _, h => by simp [pairs] at h
  | [x], _, _, h => by simp [pairs] at h
  | x :: y :: l, a, b, h => by
    rw [pairs] at h
    rcases List.mem_cons.1 h with h | h
    · cases h; exact ⟨0, rfl, rfl⟩
    · obtain ⟨i, h1, h2⟩ := mem_pairs_at h
      exact ⟨i + 1, h1, h2⟩

theorem triples_at : ∀ {l : List Nat} {i a b c : Nat}, l[i]? = some a → l[i + 1]? = some b → l[i + 2]? = some c → (a, b, c) ∈ triples l
  | [], _, _, _, _, h, _, _ => by simp at h
  | [x], i, _, _, _, _, h, _ => by simp at h
  | [x, y], i, _, _, _, _, _, h => by simp at h
  | x :: y :: z :: l, 0, a, b, c, h1, h2, h3 => by
    simp only [List.getElem?_cons_zero, List.getElem?_cons_succ, Option.some.injEq] at h1 h2 h3
    subst h1 h2 h3
    simp [triples]
  | x :: y :: z :: l, i + 1, a, b, c, h1, h2, h3 => by
    rw [triples]
    rw [List.getElem?_cons_succ] at h1 h2 h3
    exact List.mem_cons_of_mem _ (triples_at h1 h2 h3)

/-- The border goes through a vertex once. -/
def Simple (b : Border) : Prop := (b.ends.map Prod.fst).Nodup

theorem ends_inj {b : Border} (h : NextOk b) (hs : Simple b) {e e' : Nat × Nat} (he : e ∈ b.ends) (he' : e' ∈ b.ends) (h2 : e.2 = e'.2) : e = e' := by
  obtain ⟨i, hi⟩ := List.mem_iff_getElem?.1 he
  obtain ⟨j, hj⟩ := List.mem_iff_getElem?.1 he'
  have hil := (List.getElem?_eq_some_iff.1 hi).1
  have hjl := (List.getElem?_eq_some_iff.1 hj).1
  have a1 := List.getElem?_eq_getElem (h.lt i hil)
  have a2 := List.getElem?_eq_getElem (h.lt j hjl)
  have b1 := h.meets i _ _ hi a1
  have b2 := h.meets j _ _ hj a2
  have : b.ends[b.next i]'(h.lt i hil) = b.ends[b.next j]'(h.lt j hjl) :=
    List.inj_on_of_nodup_map hs (List.getElem_mem _) (List.getElem_mem _) (by rw [b1, b2, h2])
  have hnd : b.ends.Nodup := List.Nodup.of_map _ hs
  have hij := h.inj i hil j hjl ((List.Nodup.getElem_inj_iff hnd).1 this)
  subst hij
  rw [hi] at hj
  exact Option.some.inj hj

/-- An edge is on one line only, once. -/
theorem run_pos {b : Border} (h : NextOk b) (hs : Simple b) {corners : List Nat} {s s' : Nat × Nat} {l l' : List Nat} (hl : LineOf b corners s l)
    (hl' : LineOf b corners s' l') (hc : s.1 ∈ corners) (hc' : s'.1 ∈ corners) : ∀ {i j a a' c : Nat}, l[i]? = some a → l[i + 1]? = some c →
    l'[j]? = some a' → l'[j + 1]? = some c → i = j ∧ s = s' := by
  intro i
  induction i with
  | zero =>
    intro j a a' c h1 h2 h3 h4
    have e : (a, c) = (a', c) := ends_inj h hs (hl.along _ (pairs_at h1 h2)) (hl'.along _ (pairs_at h3 h4)) rfl
    cases e
    obtain ⟨r, hr⟩ := hl.begins
    obtain ⟨r', hr'⟩ := hl'.begins
    subst hr
    simp only [List.getElem?_cons_zero, List.getElem?_cons_succ, Option.some.injEq] at h1 h2
    cases j with
    | zero =>
      subst hr'
      simp only [List.getElem?_cons_zero, List.getElem?_cons_succ, Option.some.injEq] at h3 h4
      exact ⟨rfl, Prod.ext (h1.trans h3.symm) (h2.trans h4.symm)⟩
    | succ j =>
      exfalso
      have hj : j < l'.length := by have := (List.getElem?_eq_some_iff.1 h3).1; omega
      have := hl'.inside _ (triples_at (List.getElem?_eq_getElem hj) h3 h4)
      exact this (h1 ▸ hc)
  | succ i ih =>
    intro j a a' c h1 h2 h3 h4
    have e : (a, c) = (a', c) := ends_inj h hs (hl.along _ (pairs_at h1 h2)) (hl'.along _ (pairs_at h3 h4)) rfl
    cases e
    have hi : i < l.length := by have := (List.getElem?_eq_some_iff.1 h1).1; omega
    cases j with
    | zero =>
      exfalso
      obtain ⟨r', hr'⟩ := hl'.begins
      subst hr'
      simp only [List.getElem?_cons_zero, Option.some.injEq] at h3
      have := hl.inside _ (triples_at (List.getElem?_eq_getElem hi) h1 h2)
      exact this (h3 ▸ hc')
    | succ j =>
      have hj : j < l'.length := by have := (List.getElem?_eq_some_iff.1 h3).1; omega
      obtain ⟨r1, r2⟩ := ih (List.getElem?_eq_getElem hi) h1 (List.getElem?_eq_getElem hj) h3
      exact ⟨by omega, r2⟩

/-- Inside a line there are no corners. -/
theorem inner_not_corner {b : Border} {corners : List Nat} {s : Nat × Nat} {l : List Nat} (hl : LineOf b corners s l) {i v : Nat} (h0 : 0 < i) (h1 : i + 1 < l.length)
    (hv : l[i]? = some v) : v ∉ corners := by
  obtain ⟨i, rfl⟩ : ∃ k, i = k + 1 := ⟨i - 1, by omega⟩
  exact hl.inside _ (triples_at (List.getElem?_eq_getElem (by omega)) hv (List.getElem?_eq_getElem (by omega)))

/-! ## The pieces of the line starts -/

/-- The piece of a line start. -/
def PieceOf (close : P → P → Bool) (surfaces : List (MSurface P)) (lines : List (Line P)) (x : Nat × Nat × Nat) (p : Piece) : Prop :=
  p.surface = x.1 ∧ ∃ s d l, surfaces[x.1]? = some s ∧ computeLine s x.2 = .ok d ∧ lines[p.line]? = some l ∧ OnLine close s l p.indices ∧
    (p.indices = d.indices ∨ p.indices = d.indices.reverse)

theorem findOrCreate_indices (close : P → P → Bool) (lines : List (Line P)) (d : LineData P) :
    (findOrCreate close lines d).2.2 = d.indices ∨ (findOrCreate close lines d).2.2 = d.indices.reverse := by
  unfold findOrCreate
  split
  · exact .inl rfl
  · split
    · exact .inr rfl
    · exact .inl rfl

theorem PieceOf.more {close : P → P → Bool} {surfaces : List (MSurface P)} {lines : List (Line P)} {x : Nat × Nat × Nat} {p : Piece}
    (h : PieceOf close surfaces lines x p) (more : List (Line P)) : PieceOf close surfaces (lines ++ more) x p := by
  obtain ⟨h0, s, d, l, h1, h2, h3, h4⟩ := h
  refine ⟨h0, s, d, l, h1, h2, ?_, h4⟩
  rw [List.getElem?_append_left (List.getElem?_eq_some_iff.1 h3).1]
  exact h3

theorem steps_pieces {close : P → P → Bool} {surfaces : List (MSurface P)} : ∀ (xs done : List (Nat × Nat × Nat)) (st st' : List (Line P) × List Piece),
    List.Forall₂ (PieceOf close surfaces st.1) done st.2 → Res.foldM' (lineStep close surfaces) st xs = .ok st' →
    List.Forall₂ (PieceOf close surfaces st'.1) (done ++ xs) st'.2
  | [], done, st, st', h, hf => by
    cases hf
    rw [List.append_nil]
    exact h
  | x :: xs, done, st, st', h, hf => by
    rw [foldM'_cons] at hf
    obtain ⟨st1, h1, hf⟩ := bind_eq_ok.1 hf
    have := steps_pieces xs (done ++ [x]) st1 st' ?_ hf
    · simpa using this
    · unfold lineStep at h1
      obtain ⟨s, hsx, h1⟩ := Res.bind_eq_ok.1 h1
      obtain ⟨d, hd, h1⟩ := Res.bind_eq_ok.1 h1
      cases h1
      obtain ⟨more, l, e, hl, ho, _⟩ := findOrCreate_spec close st.1 (computeLine_data hd)
      refine List.rel_append ?_ (List.Forall₂.cons ?_ .nil)
      · rw [e]
        exact h.imp fun _ _ hp => hp.more more
      · exact ⟨rfl, s, d, l, Res.index_eq_ok.1 hsx, hd, by rw [e]; exact hl, ho, findOrCreate_indices _ _ _⟩

theorem createLines_pieces {close : P → P → Bool} {surfaces : List (MSurface P)} {starts : List (Nat × Nat × Nat)} {lines : List (Line P)} {pieces : List Piece}
    (h : createLines close surfaces starts = .ok (lines, pieces)) : List.Forall₂ (PieceOf close surfaces lines) starts pieces := by
  have := steps_pieces starts [] ([], []) (lines, pieces) .nil h
  simpa using this

theorem zip_rel {A B : Type} {R : A → B → Prop} : ∀ {l : List A} {m : List B}, List.Forall₂ R l m → ∀ z ∈ l.zip m, R z.1 z.2
  | _, _, .nil, z, hz => by simp at hz
  | _, _, .cons h t, z, hz => by
    rw [List.zip_cons_cons] at hz
    rcases List.mem_cons.1 hz with rfl | hz
    · exact h
    · exact zip_rel t z hz

theorem zip_right {A B : Type} {R : A → B → Prop} : ∀ {l : List A} {m : List B}, List.Forall₂ R l m → (l.zip m).map Prod.snd = m ∧ (l.zip m).map Prod.fst = l
  | _, _, .nil => ⟨rfl, rfl⟩
  | _, _, .cons _ t => by
    rw [List.zip_cons_cons, List.map_cons, List.map_cons, (zip_right t).1, (zip_right t).2]
    exact ⟨rfl, rfl⟩

/-- A line that starts on the border walked backwards goes along it. -/
theorem computed_along {s : MSurface P} (hb : NextOk s.back) {corners : List Nat} (hc : CornersAre s corners) {start : Nat × Nat} {d : LineData P}
    (hs : start ∈ s.back.ends) (h : computeLine s start = .ok d) : start.1 ∈ corners ∧ LineOf s.back corners start d.indices := by
  unfold computeLine at h
  cases hc0 : s.corner start.1 with
  | none => rw [hc0] at h; cases h
  | some c0 =>
    refine ⟨(hc _).1 (by rw [hc0]; rfl), ?_⟩
    rw [hc0] at h
    obtain ⟨r, hr, h⟩ := Res.bind_eq_ok.1 h
    obtain ⟨i, hi⟩ := findIdx?_of_mem hs
    have hfs : followStart s start = follow s s.back s.back.ends.length i := by
      have : followStart s start = match s.back.ends.findIdx? (fun x => decide (x = start)) with
        | some i => follow s s.back s.back.ends.length i
        | none => match s.fwd.ends.findIdx? (fun x => decide (x = start)) with
          | some i => follow s s.fwd s.fwd.ends.length i
          | none => .throw := rfl
      rw [this, hi]
    rw [hfs] at hr
    have hl := run_lineOf hb (follow_run hc hr) (findIdx?_eq hi)
    unfold endLine at h
    split at h
    · cases h
    · cases h
      exact hl

/-! ## Ties -/

theorem tie_hit (vertices : List (List Nat)) (u : List (Option Nat)) (p : Piece) {v w : Nat} (hv : v < u.length) (h : TiedTo vertices p v w) :
    ∃ w', (tie vertices u p)[v]? = some (some w') ∧ TiedTo vertices p v w' := by
  have key : ∀ (xs : List (Nat × Nat)) (u : List (Option Nat)), (xs.foldl (fun u x => u.set x.1 (some x.2)) u)[v]? = u[v]? ∨
      ∃ w, (xs.foldl (fun u x => u.set x.1 (some x.2)) u)[v]? = some (some w) ∧ (v, w) ∈ xs := by
    intro xs
    induction xs with
    | nil => intro u; exact .inl rfl
    | cons x xs ih =>
      intro u
      rw [List.foldl_cons]
      rcases ih (u.set x.1 (some x.2)) with h | ⟨w, h1, h2⟩
      · by_cases e : x.1 = v
        · by_cases hl : v < u.length
          · refine .inr ⟨x.2, ?_, ?_⟩
            · rw [h, e]; simp [hl]
            · rw [← e]; exact List.mem_cons_self
          · left
            rw [h, List.getElem?_eq_none (by simp; omega), List.getElem?_eq_none (by omega)]
        · left
          rw [h, List.getElem?_set_ne e]
      · exact .inr ⟨w, h1, List.mem_cons_of_mem _ h2⟩
  have hit : ∀ (xs : List (Nat × Nat)) (u : List (Option Nat)), v < u.length → (v, w) ∈ xs →
      ∃ w', (xs.foldl (fun u x => u.set x.1 (some x.2)) u)[v]? = some (some w') ∧ (v, w') ∈ xs := by
    intro xs
    induction xs with
    | nil => intro u _ h; cases h
    | cons x xs ih =>
      intro u hu hm
      rw [List.foldl_cons]
      rcases List.mem_cons.1 hm with rfl | hm
      · rcases key xs (u.set v (some w)) with h | ⟨w', h1, h2⟩
        · exact ⟨w, by rw [h]; simp [hu], List.mem_cons_self⟩
        · exact ⟨w', h1, List.mem_cons_of_mem _ h2⟩
      · obtain ⟨w', h1, h2⟩ := ih (u.set x.1 (some x.2)) (by simpa using hu) hm
        exact ⟨w', h1, List.mem_cons_of_mem _ h2⟩
  obtain ⟨i, vs, h1, h2, h3⟩ := h
  have hm : (v, w) ∈ p.indices.zip (vertices[p.line]?.getD []) := by
    rw [h1]
    exact List.mem_of_getElem? (List.getElem?_zip_eq_some.2 ⟨h2, h3⟩)
  obtain ⟨w', a1, a2⟩ := hit _ u hv hm
  obtain ⟨j, hj⟩ := List.getElem?_of_mem a2
  rw [h1] at hj
  obtain ⟨b1, b2⟩ := List.getElem?_zip_eq_some.1 hj
  exact ⟨w', a1, j, vs, h1, b1, b2⟩

theorem ties_hit (vertices : List (List Nat)) {v : Nat} : ∀ (ps : List Piece) (u : List (Option Nat)), v < u.length →
    (∃ p ∈ ps, ∃ w, TiedTo vertices p v w) → ∃ w, (ps.foldl (tie vertices) u)[v]? = some (some w) ∧ ∃ p ∈ ps, TiedTo vertices p v w
  | [], _, _, h => by obtain ⟨p, hp, _⟩ := h; cases hp
  | p :: ps, u, hu, h => by
    rw [List.foldl_cons]
    by_cases hr : ∃ p ∈ ps, ∃ w, TiedTo vertices p v w
    · obtain ⟨w, h1, q, h2, h3⟩ := ties_hit vertices ps (tie vertices u p) (by rw [tie_length]; exact hu) hr
      exact ⟨w, h1, q, List.mem_cons_of_mem _ h2, h3⟩
    · obtain ⟨q, hq, w, hw⟩ := h
      rcases List.mem_cons.1 hq with rfl | hq
      · obtain ⟨w', a1, a2⟩ := tie_hit vertices u q hu hw
        rcases (foldl_tie vertices v ps (tie vertices u q)).2 with h1 | ⟨w2, h1, q2, h2, h3⟩
        · exact ⟨w', by rw [h1]; exact a1, q, by simp, a2⟩
        · exact ⟨w2, h1, q2, List.mem_cons_of_mem _ h2, h3⟩
      · exact absurd ⟨q, hq, w, hw⟩ hr

/-! ## The vertices along a piece -/

/-- What is known of the piece `p` of the line start `x` of the surface `s`, on the line `l` of unique vertices `vs`. -/
structure PieceFacts (close : P → P → Bool) (nb : Nat) (lines : List (Line P)) (s : MSurface P) (corners : List Nat) (x : Nat × Nat × Nat) (p : Piece)
    (d : LineData P) (l : Line P) (vs : List Nat) : Prop where
  computed : computeLine s x.2 = .ok d
  corner : x.2.1 ∈ corners
  along : LineOf s.back corners x.2 d.indices
  line : lines[p.line]? = some l
  on : OnLine close s l p.indices
  order : p.indices = d.indices ∨ p.indices = d.indices.reverse
  vertices : (lineVertices nb lines)[p.line]? = some vs
  numbered : LineNumbered nb (nbUniques nb lines) l vs
  length : vs.length = p.indices.length
  points : l.points.length = p.indices.length
  two : 2 ≤ p.indices.length

theorem piece_facts {close : P → P → Bool} {nb : Nat} {surfaces : List (MSurface P)} (hk : CornersKnown nb surfaces) {starts : List (Nat × Nat × Nat)}
    {lines : List (Line P)} {pieces : List Piece} (h : createLines close surfaces starts = .ok (lines, pieces)) {n : Nat} {s : MSurface P}
    (hs : surfaces[n]? = some s) (hb : NextOk s.back) {corners : List Nat} (hc : CornersAre s corners) (hst : ∀ x ∈ starts, x.1 = n → x.2 ∈ s.back.ends)
    {x : Nat × Nat × Nat} {p : Piece} (hz : (x, p) ∈ starts.zip pieces) (hn : x.1 = n) :
    ∃ d l vs, PieceFacts close nb lines s corners x p d l vs := by
  obtain ⟨_, s', d, l, h1, h2, h3, h4, h5⟩ := zip_rel (createLines_pieces h) _ hz
  simp only at h1 h2 h3 h4 h5
  rw [hn, hs] at h1
  cases h1
  have hx : x ∈ starts := (List.of_mem_zip hz).1
  obtain ⟨g1, g2⟩ := computed_along hb hc (hst x hx hn) h2
  have hg := (createLines_good hk h l (List.mem_of_getElem? h3)).1
  obtain ⟨vs, v1, v2⟩ := line_numbered (f := nb) h3 hg
  have hp := h4.points.length_eq
  exact ⟨d, l, vs, h2, g1, g2, h3, h4, h5, v1, v2, by rw [v2.length, hp], hp, by omega⟩

theorem reverse_at {l : List Nat} {i v : Nat} (h : l.reverse[i]? = some v) : i < l.length ∧ l[l.length - 1 - i]? = some v := by
  have hi : i < l.length := by
    have := (List.getElem?_eq_some_iff.1 h).1
    rwa [List.length_reverse] at this
  rw [List.getElem?_reverse hi] at h
  exact ⟨hi, h⟩

section

variable {close : P → P → Bool} {nb : Nat} {lines : List (Line P)} {s : MSurface P} {corners : List Nat} {x x' : Nat × Nat × Nat} {p p' : Piece}
  {d d' : LineData P} {l l' : Line P} {vs vs' : List Nat}

/-- A vertex inside a piece, where it is on the border. -/
theorem PieceFacts.inner (F : PieceFacts close nb lines s corners x p d l vs) {i v : Nat} (hv : p.indices[i]? = some v) (h0 : 0 < i) (h1 : i + 1 < p.indices.length) :
    v ∉ corners ∧ ∃ k a, d.indices[k]? = some a ∧ d.indices[k + 1]? = some v ∧ ((p.indices = d.indices ∧ k + 1 = i) ∨ (p.indices = d.indices.reverse ∧ k + 2 + i = p.indices.length)) := by
  rcases F.order with e | e
  · rw [e] at hv h1
    refine ⟨inner_not_corner F.along h0 h1 hv, i - 1, _, List.getElem?_eq_getElem (by omega), ?_, .inl ⟨e, by omega⟩⟩
    rw [Nat.sub_add_cancel h0]
    exact hv
  · rw [e] at hv h1
    obtain ⟨hl, hv⟩ := reverse_at hv
    rw [List.length_reverse] at h1
    refine ⟨inner_not_corner F.along (by omega) (by omega) hv, d.indices.length - 2 - i, _, List.getElem?_eq_getElem (by omega), ?_, .inr ⟨e, ?_⟩⟩
    · rw [← hv]
      congr 1
      omega
    · rw [e, List.length_reverse]
      omega

/-- At a corner, the piece and the line have its unique vertex. -/
theorem PieceFacts.at_corner (F : PieceFacts close nb lines s corners x p d l vs) (hc : CornersAre s corners) {i v c : Nat} (hv : p.indices[i]? = some v)
    (h : s.corner v = some c) : vs[i]? = some c := by
  have hi := (List.getElem?_eq_some_iff.1 hv).1
  have hm : v ∈ corners := (hc v).1 (by rw [h]; rfl)
  by_cases h0 : i = 0
  · subst h0
    have := F.on.first v (by rw [List.head?_eq_getElem?]; exact hv)
    rw [h] at this
    rw [← List.head?_eq_getElem?, F.numbered.first, Option.some.inj this]
  · by_cases h1 : i + 1 < p.indices.length
    · exact absurd hm (F.inner hv (by omega) h1).1
    · have hi' : i = p.indices.length - 1 := by omega
      have := F.on.last v (by rw [List.getLast?_eq_getElem?, ← hi']; exact hv)
      rw [h] at this
      have hl := F.numbered.last
      rw [List.getLast?_eq_getElem?, F.length, ← hi'] at hl
      rw [hl, Option.some.inj this]

/-- Elsewhere, the vertex is inside the piece. -/
theorem PieceFacts.inside (F : PieceFacts close nb lines s corners x p d l vs) {i v : Nat} (hv : p.indices[i]? = some v) (h : s.corner v = none) :
    0 < i ∧ i + 1 < p.indices.length := by
  have hi := (List.getElem?_eq_some_iff.1 hv).1
  constructor
  · rcases Nat.eq_zero_or_pos i with rfl | h0
    · have := F.on.first v (by rw [List.head?_eq_getElem?]; exact hv)
      rw [h] at this
      cases this
    · exact h0
  · by_contra h1
    have hi' : i = p.indices.length - 1 := by omega
    have := F.on.last v (by rw [List.getLast?_eq_getElem?, ← hi']; exact hv)
    rw [h] at this
    cases this

/-- A vertex is inside one piece only, once. -/
theorem PieceFacts.inner_one (F : PieceFacts close nb lines s corners x p d l vs) (F' : PieceFacts close nb lines s corners x' p' d' l' vs')
    (hb : NextOk s.back) (hs : Simple s.back) {i i' v : Nat} (hv : p.indices[i]? = some v) (hv' : p'.indices[i']? = some v) (h : s.corner v = none) : x.2 = x'.2 := by
  obtain ⟨h0, h1⟩ := F.inside hv h
  obtain ⟨h0', h1'⟩ := F'.inside hv' h
  obtain ⟨_, k, a, k1, k2, _⟩ := F.inner hv h0 h1
  obtain ⟨_, k', a', k1', k2', _⟩ := F'.inner hv' h0' h1'
  exact (run_pos hb hs F.along F'.along F.corner F'.corner k1 k2 k1' k2').2

theorem PieceFacts.inner_pos (F : PieceFacts close nb lines s corners x p d l vs) (hb : NextOk s.back) (hs : Simple s.back) {i i' v : Nat}
    (hv : p.indices[i]? = some v) (hv' : p.indices[i']? = some v) (h : s.corner v = none) : i = i' := by
  obtain ⟨h0, h1⟩ := F.inside hv h
  obtain ⟨h0', h1'⟩ := F.inside hv' h
  rcases F.order with e | e
  · rw [e] at hv hv'
    obtain ⟨i, rfl⟩ : ∃ k, i = k + 1 := ⟨i - 1, by omega⟩
    obtain ⟨i', rfl⟩ : ∃ k, i' = k + 1 := ⟨i' - 1, by omega⟩
    rw [e] at h1 h1'
    have := (run_pos hb hs F.along F.along F.corner F.corner (List.getElem?_eq_getElem (by omega)) hv (List.getElem?_eq_getElem (by omega)) hv').1
    omega
  · rw [e] at hv hv'
    obtain ⟨hl, hv⟩ := reverse_at hv
    obtain ⟨hl', hv'⟩ := reverse_at hv'
    rw [e, List.length_reverse] at h1 h1'
    have e1 : d.indices.length - 1 - i = (d.indices.length - 2 - i) + 1 := by omega
    have e2 : d.indices.length - 1 - i' = (d.indices.length - 2 - i') + 1 := by omega
    rw [e1] at hv
    rw [e2] at hv'
    have := (run_pos hb hs F.along F.along F.corner F.corner (List.getElem?_eq_getElem (by omega)) hv (List.getElem?_eq_getElem (by omega)) hv').1
    omega

end

/-! ## Pieces on one line -/

/-- A vertex is at a point, as far as lines are compared. -/
def Here (close : P → P → Bool) (s : MSurface P) (q : P) (v : Nat) : Prop := q = s.point v ∨ close q (s.point v) = true

/-- An edge is between two points, in one direction or the other. -/
def EdgeAt (close : P → P → Bool) (s : MSurface P) (q r : P) (e : Nat × Nat) : Prop :=
  (Here close s q e.1 ∧ Here close s r e.2) ∨ (Here close s r e.1 ∧ Here close s q e.2)

/-- No three edges of the border of a surface are between the same two points. -/
def EdgesTwice (close : P → P → Bool) (s : MSurface P) : Prop := ∀ q r, ∀ a ∈ s.back.ends, ∀ b ∈ s.back.ends, ∀ c ∈ s.back.ends,
  EdgeAt close s q r a → EdgeAt close s q r b → EdgeAt close s q r c → a = b ∨ a = c ∨ b = c

theorem PieceFacts.here {close : P → P → Bool} {nb : Nat} {lines : List (Line P)} {s : MSurface P} {corners : List Nat} {x : Nat × Nat × Nat} {p : Piece}
    {d : LineData P} {l : Line P} {vs : List Nat} (F : PieceFacts close nb lines s corners x p d l vs) {i v : Nat} (hv : p.indices[i]? = some v) :
    ∃ q, l.points[i]? = some q ∧ Here close s q v := by
  have hi := (List.getElem?_eq_some_iff.1 hv).1
  have hi' : i < l.points.length := by rw [F.points]; exact hi
  have hpt := List.Forall₂.get F.on.points hi' hi
  simp only [List.get_eq_getElem] at hpt
  rw [(List.getElem?_eq_some_iff.1 hv).2] at hpt
  exact ⟨_, List.getElem?_eq_getElem hi', hpt⟩

/-- Every piece has an edge between the first two points of its line. -/
theorem PieceFacts.first_edge {close : P → P → Bool} {nb : Nat} {lines : List (Line P)} {s : MSurface P} {corners : List Nat} {x : Nat × Nat × Nat} {p : Piece}
    {d : LineData P} {l : Line P} {vs : List Nat} (F : PieceFacts close nb lines s corners x p d l vs) {q r : P} (hq : l.points[0]? = some q)
    (hr : l.points[1]? = some r) : ∃ (k a c : Nat), d.indices[k]? = some a ∧ d.indices[k + 1]? = some c ∧ EdgeAt close s q r (a, c) := by
  have h2 := F.two
  obtain ⟨q', hq', h0⟩ := F.here (List.getElem?_eq_getElem (show 0 < p.indices.length by omega))
  obtain ⟨r', hr', h1⟩ := F.here (List.getElem?_eq_getElem (show 1 < p.indices.length by omega))
  rw [hq] at hq'
  rw [hr] at hr'
  cases hq'
  cases hr'
  rcases F.order with e | e
  · refine ⟨0, p.indices[0], p.indices[1], ?_, ?_, .inl ⟨h0, h1⟩⟩
    · rw [← e]; exact List.getElem?_eq_getElem _
    · rw [← e]; exact List.getElem?_eq_getElem _
  · have a0 : d.indices.reverse[0]? = some p.indices[0] := by rw [← e]; exact List.getElem?_eq_getElem _
    have a1 : d.indices.reverse[1]? = some p.indices[1] := by rw [← e]; exact List.getElem?_eq_getElem _
    obtain ⟨b0, c0⟩ := reverse_at a0
    obtain ⟨b1, c1⟩ := reverse_at a1
    refine ⟨d.indices.length - 1 - 1, p.indices[1], p.indices[0], c1, ?_, .inr ⟨h1, h0⟩⟩
    rw [show d.indices.length - 1 - 1 + 1 = d.indices.length - 1 - 0 by omega]
    exact c0

section

variable {close : P → P → Bool} {nb : Nat} {surfaces : List (MSurface P)} {starts : List (Nat × Nat × Nat)} {lines : List (Line P)} {pieces : List Piece}
  {n : Nat} {s : MSurface P} {corners : List Nat}

/-- A surface has at most two pieces on a line. -/
theorem pieces_twice (hk : CornersKnown nb surfaces) (hnd : starts.Nodup) (h : createLines close surfaces starts = .ok (lines, pieces))
    (hs : surfaces[n]? = some s) (hb : NextOk s.back) (hsi : Simple s.back) (hc : CornersAre s corners)
    (hst : ∀ x ∈ starts, x.1 = n → x.2 ∈ s.back.ends) (ht : EdgesTwice close s) (k : Nat) :
    ((pieces.filter fun p => decide (p.surface = n)).map Piece.line).count k ≤ 2 := by
  obtain ⟨z1, z2⟩ := zip_right (createLines_pieces h)
  have hcount : ((pieces.filter fun p => decide (p.surface = n)).map Piece.line).count k =
      ((starts.zip pieces).filter fun z => decide (z.2.surface = n ∧ z.2.line = k)).length := by
    rw [← List.countP_eq_length_filter]
    conv_lhs => rw [← z1]
    rw [List.count, List.countP_map, List.countP_filter, List.countP_map]
    apply List.countP_congr
    intro z _
    simp [and_comm]
  rw [hcount]
  by_contra hlt
  match hZ : (starts.zip pieces).filter fun z => decide (z.2.surface = n ∧ z.2.line = k) with
  | [] => rw [hZ] at hlt; simp at hlt
  | [_] => rw [hZ] at hlt; simp at hlt
  | [_, _] => rw [hZ] at hlt; simp at hlt
  | a :: b :: c :: r =>
    have hsub : ((starts.zip pieces).filter fun z => decide (z.2.surface = n ∧ z.2.line = k)).map Prod.fst |>.Nodup := by
      refine List.Nodup.sublist (List.Sublist.map _ List.filter_sublist) ?_
      rw [z2]
      exact hnd
    rw [hZ] at hsub
    have hmem : ∀ z ∈ a :: b :: c :: r, z ∈ starts.zip pieces ∧ z.2.surface = n ∧ z.2.line = k := by
      intro z hz
      rw [← hZ] at hz
      simpa using List.mem_filter.1 hz
    have hfact : ∀ z ∈ a :: b :: c :: r, ∃ d l vs, PieceFacts close nb lines s corners z.1 z.2 d l vs ∧ lines[k]? = some l ∧ z.1.1 = n := by
      intro z hz
      obtain ⟨m1, m2, m3⟩ := hmem z hz
      have : z.1.1 = n := by
        have := (zip_rel (createLines_pieces h) z m1).1
        rw [← this]
        exact m2
      obtain ⟨d, l, vs, F⟩ := piece_facts hk h hs hb hc hst (x := z.1) (p := z.2) m1 this
      exact ⟨d, l, vs, F, m3 ▸ F.line, this⟩
    obtain ⟨da, l, va, Fa, la, na⟩ := hfact a (by simp)
    obtain ⟨db, l', vb, Fb, lb, nb'⟩ := hfact b (by simp)
    obtain ⟨dc, l'', vc, Fc, lc, nc⟩ := hfact c (by simp)
    rw [la] at lb lc
    cases lb
    cases lc
    have h2 : 2 ≤ l.points.length := by rw [Fa.points]; exact Fa.two
    have hq := List.getElem?_eq_getElem (show 0 < l.points.length by omega)
    have hr := List.getElem?_eq_getElem (show 1 < l.points.length by omega)
    obtain ⟨ka, a1, a2, ea1, ea2, ea3⟩ := Fa.first_edge hq hr
    obtain ⟨kb, b1, b2, eb1, eb2, eb3⟩ := Fb.first_edge hq hr
    obtain ⟨kc, c1, c2, ec1, ec2, ec3⟩ := Fc.first_edge hq hr
    have hsame : ∀ {z z' : (Nat × Nat × Nat) × Piece}, z.1.1 = n → z'.1.1 = n → z.1.2 = z'.1.2 → z.1 = z'.1 := fun h1 h2 h3 => Prod.ext (h1.trans h2.symm) h3
    simp only [List.map_cons, List.nodup_cons, List.mem_cons, not_or] at hsub
    rcases ht _ _ _ (Fa.along.along _ (pairs_at ea1 ea2)) _ (Fb.along.along _ (pairs_at eb1 eb2)) _ (Fc.along.along _ (pairs_at ec1 ec2)) ea3 eb3 ec3 with e | e | e
    · cases e
      exact hsub.1.1 (hsame na nb' (run_pos hb hsi Fa.along Fb.along Fa.corner Fb.corner ea1 ea2 eb1 eb2).2)
    · cases e
      exact hsub.1.2.1 (hsame na nc (run_pos hb hsi Fa.along Fc.along Fa.corner Fc.corner ea1 ea2 ec1 ec2).2)
    · cases e
      exact hsub.2.1.1 (hsame nb' nc (run_pos hb hsi Fb.along Fc.along Fb.corner Fc.corner eb1 eb2 ec1 ec2).2)

/-- Pieces of a surface that meet have one unique vertex there. -/
theorem pieces_agree (hk : CornersKnown nb surfaces) (hnd : starts.Nodup) (h : createLines close surfaces starts = .ok (lines, pieces))
    (hs : surfaces[n]? = some s) (hb : NextOk s.back) (hsi : Simple s.back) (hc : CornersAre s corners)
    (hst : ∀ x ∈ starts, x.1 = n → x.2 ∈ s.back.ends) {p p' : Piece} (hp : p ∈ pieces) (hp' : p' ∈ pieces) (hn : p.surface = n) (hn' : p'.surface = n)
    {v w w' : Nat} (hw : TiedTo (lineVertices nb lines) p v w) (hw' : TiedTo (lineVertices nb lines) p' v w') : w = w' := by
  obtain ⟨z1, z2⟩ := zip_right (createLines_pieces h)
  have hx : ∀ p ∈ pieces, p.surface = n → ∃ x, (x, p) ∈ starts.zip pieces ∧ x.1 = n := by
    intro p hp hn
    rw [← z1] at hp
    obtain ⟨z, hz, rfl⟩ := List.mem_map.1 hp
    refine ⟨z.1, hz, ?_⟩
    rw [← (zip_rel (createLines_pieces h) z hz).1]
    exact hn
  obtain ⟨x, x1, x2⟩ := hx p hp hn
  obtain ⟨x', x1', x2'⟩ := hx p' hp' hn'
  obtain ⟨d, l, vs, F⟩ := piece_facts hk h hs hb hc hst x1 x2
  obtain ⟨d', l', vs', F'⟩ := piece_facts hk h hs hb hc hst x1' x2'
  obtain ⟨i, us, h1, h2, h3⟩ := hw
  obtain ⟨i', us', h1', h2', h3'⟩ := hw'
  rw [F.vertices] at h1
  rw [F'.vertices] at h1'
  cases h1
  cases h1'
  cases hcv : s.corner v with
  | some c =>
    have e := F.at_corner hc h2 hcv
    have e' := F'.at_corner hc h2' hcv
    rw [h3] at e
    rw [h3'] at e'
    exact (Option.some.inj e).trans (Option.some.inj e').symm
  | none =>
    have hxx : x = x' := Prod.ext (x2.trans x2'.symm) (F.inner_one F' hb hsi h2 h2' hcv)
    subst hxx
    have hpp : (x, p) = (x, p') := List.inj_on_of_nodup_map (z2.symm ▸ hnd) x1 x1' rfl
    cases hpp
    have := F.inner_pos hb hsi h2 h2' hcv
    subst this
    have hv := F.vertices
    rw [F'.vertices] at hv
    cases hv
    rw [h3] at h3'
    exact Option.some.inj h3'

end

/-! ## The border of a surface is on the lines -/

/-- The hypotheses on one surface of a file: the border goes once through a vertex, the lines start on it at the corners, and no three edges are between the
same two points. -/
structure GoodBorder (close : P → P → Bool) (starts : List (Nat × Nat × Nat)) (n : Nat) (s : USurface P) : Prop where
  next : NextOk s.back
  simple : Simple s.back
  range : ∀ e ∈ s.back.ends, e.1 < s.nb ∧ e.2 < s.nb
  corners : CornersAre s.toMSurface ((starts.filter fun x => decide (x.1 = n)).map fun x => x.2.1)
  starts : ∀ x ∈ starts, x.1 = n → x.2 ∈ s.back.ends
  twice : EdgesTwice close s.toMSurface
  refl : ∀ v < s.nb, close (s.point v) (s.point v) = true

/-- **The unique vertices along the border of a surface are those of the lines**, in order, in one direction or the other. -/
theorem border_joined {close : P → P → Bool} {nb : Nat} {surfaces : List (USurface P)}
    (hk : CornersKnown nb (surfaces.map USurface.toMSurface)) {starts : List (Nat × Nat × Nat)} (hnd : starts.Nodup) {b : Built P}
    (h : buildLines close nb surfaces starts = .ok b) {n : Nat} {s : USurface P} (hs : surfaces[n]? = some s) (g : GoodBorder close starts n s) :
    ∀ x ∈ starts, x.1 = n → ∃ (d : LineData P) (k : Nat) (l : Line P) (vs idx : List Nat), computeLine s.toMSurface x.2 = .ok d ∧ b.lines[k]? = some l ∧ b.vertices[k]? = some vs ∧
      OnLine close s.toMSurface l idx ∧ (idx = d.indices ∨ idx = d.indices.reverse) ∧ List.Forall₂ (fun v u => uniqueOf b n v = some u) idx vs := by
  intro x hx hxn
  unfold MlLines.buildLines at h
  obtain ⟨⟨lines, pieces⟩, h1, h⟩ := Res.bind_eq_ok.1 h
  obtain ⟨search, h2, h⟩ := Res.bind_eq_ok.1 h
  obtain ⟨done, h3, h⟩ := Res.bind_eq_ok.1 h
  cases h
  simp only at h2 h3 ⊢
  have hg := createLines_good hk h1
  rcases search_points hg with ⟨_, ht⟩ | ⟨hends, search', hse, hlen, hat⟩
  · rw [ht] at h2; cases h2
  rw [hse] at h2
  cases h2
  have hlt : ∀ l ∈ lineVertices nb lines, ∀ x ∈ l, x < nbUniques nb lines := by
    intro vs hv x hx
    rcases mem_lineVertices hv hx with ⟨l, hl, rfl | rfl⟩ | h
    · exact Nat.lt_of_lt_of_le (hg l hl).2.1 (nbUniques_le _ _)
    · exact Nat.lt_of_lt_of_le (hg l hl).2.2 (nbUniques_le _ _)
    · exact h.2
  obtain ⟨lo, l0, lm, hl⟩ := missingAll_at hlt h3
  have hlo : ∀ i, nbUniques nb lines ≤ lo i := by
    intro i
    induction i with
    | zero => rw [l0]; exact Nat.le_refl _
    | succ i ih => exact Nat.le_trans ih (lm i)
  obtain ⟨us, ints, h4, h5⟩ := hl n s hs
  rw [Nat.zero_add] at h5
  obtain ⟨hul, hu⟩ := tiedUniques_at (lineVertices nb lines) pieces n s
  have hva := vertices_attached (fun l hl' x hx => Nat.lt_of_lt_of_le (hlt l hl' x hx) (hlo n)) (by rw [hul]; exact h5)
  rw [hul] at hva
  have hsm : (surfaces.map USurface.toMSurface)[n]? = some s.toMSurface := by rw [List.getElem?_map, hs]; rfl
  obtain ⟨z1, z2⟩ := zip_right (createLines_pieces h1)
  have hz : ∃ p, (x, p) ∈ starts.zip pieces := by
    rw [← z2] at hx
    obtain ⟨z, hz, rfl⟩ := List.mem_map.1 hx
    exact ⟨z.2, hz⟩
  obtain ⟨p, hz⟩ := hz
  have hp : p ∈ pieces := (List.of_mem_zip hz).2
  have hpn : p.surface = n := by rw [(zip_rel (createLines_pieces h1) _ hz).1]; exact hxn
  obtain ⟨d, l, vs, F⟩ := piece_facts hk h1 hsm g.next g.corners g.starts hz hxn
  refine ⟨d, p.line, l, vs, p.indices, F.computed, F.line, F.vertices, F.on, F.order, ?_⟩
  have hrange : ∀ v ∈ p.indices, v < s.nb := by
    have hd : ∀ v ∈ d.indices, v < s.nb := by
      intro v hv
      obtain ⟨k, hk'⟩ := List.getElem?_of_mem hv
      have hlen : 2 ≤ d.indices.length := by
        have := F.two
        rcases F.order with e | e <;> rw [e] at this
        · exact this
        · rwa [List.length_reverse] at this
      cases k with
      | zero => exact (g.range _ (F.along.along _ (pairs_at hk' (List.getElem?_eq_getElem (by omega))))).1
      | succ k =>
        have := (List.getElem?_eq_some_iff.1 hk').1
        exact (g.range _ (F.along.along _ (pairs_at (List.getElem?_eq_getElem (by omega)) hk'))).2
    intro v hv
    rcases F.order with e | e <;> rw [e] at hv
    · exact hd v hv
    · exact hd v (List.mem_reverse.1 hv)
  refine List.forall₂_iff_get.2 ⟨F.length.symm, ?_⟩
  intro i hi hi'
  simp only [List.get_eq_getElem]
  have hv : p.indices[i]? = some p.indices[i] := List.getElem?_eq_getElem hi
  have hw : vs[i]? = some vs[i] := List.getElem?_eq_getElem hi'
  generalize p.indices[i] = v at hv ⊢
  generalize vs[i] = w at hw ⊢
  have hvn : v < s.nb := hrange v (List.mem_of_getElem? hv)
  obtain ⟨w1, hw1, ha⟩ := hva.2.1 v hvn
  suffices hus : us[v]? = some (some w) by
    unfold uniqueOf
    simp only [h4, hus]
    rfl
  by_cases hmany : 2 ≤ (pieces.filter fun p => decide (p.surface = n)).length
  · -- tied
    have hperm := pieces_tied_partial hmany (pieces_twice hk hnd h1 hsm g.next g.simple g.corners g.starts g.twice)
    have hmem : ∀ q, q ∈ tied (pieces.filter fun p => decide (p.surface = n)) ↔ q ∈ pieces ∧ q.surface = n := by
      intro q
      rw [hperm.mem_iff, List.mem_filter]
      simp
    have hto : TiedTo (lineVertices nb lines) p v w := ⟨i, vs, F.vertices, hv, hw⟩
    obtain ⟨w2, a1, q, a2, a3⟩ := ties_hit (lineVertices nb lines) (v := v) (tied (pieces.filter fun p => decide (p.surface = n)))
      ((List.range s.nb).map s.corner) (by simpa using hvn) ⟨p, (hmem p).2 ⟨hp, hpn⟩, w, hto⟩
    obtain ⟨q1, q2⟩ := (hmem q).1 a2
    have := pieces_agree hk hnd h1 hsm g.next g.simple g.corners g.starts hp q1 hpn q2 hto a3
    subst this
    exact ha.kept w a1
  · -- a single piece: its vertices are found by the search
    have hone : tiedUniques (lineVertices nb lines) pieces n s = (List.range s.nb).map s.corner := by
      unfold tiedUniques tied
      have hsl := (sortPieces_perm (pieces.filter fun p => decide (p.surface = n))).length_eq
      generalize sortPieces (pieces.filter fun p => decide (p.surface = n)) = ps at hsl
      match ps, hsl with
      | [], _ => rfl
      | [_], _ => rfl
      | _ :: _ :: _, hsl => rw [List.length_cons, List.length_cons] at hsl; omega
    have hold : (tiedUniques (lineVertices nb lines) pieces n s)[v]? = some (s.corner v) := by rw [hone]; exact corner_at s hvn
    cases hcv : s.corner v with
    | some c =>
      have := F.at_corner g.corners hv hcv
      rw [hw] at this
      cases this
      exact ha.kept _ (by rw [hold, hcv])
    | none =>
      obtain ⟨i0, i1⟩ := F.inside hv hcv
      obtain ⟨u', hu', u1, u2⟩ := F.numbered.inner i i0 (by rw [F.length]; exact i1)
      rw [hw] at hu'
      cases hu'
      have hws : w < search.length := by rw [hlen]; exact u2
      have hsw : search[w]? = some search[w] := List.getElem?_eq_getElem hws
      obtain ⟨k', i', l', vs', b1, b2, b3, b4⟩ := hat w _ hsw
      obtain ⟨e1, e2⟩ := inner_once (fun l hl => (hg l hl).2) u1 F.vertices b2 hw b3
      subst e1 e2
      rw [F.line] at b1
      cases b1
      obtain ⟨q, hq, hh⟩ := F.here hv
      rw [b4] at hq
      cases hq
      have hcl : close search[w] (s.point v) = true := by
        rcases hh with hh | hh
        · rw [hh]; exact g.refl v hvn
        · exact hh
      have hin : w ∈ neighbours close search (s.point v) := mem_neighbours.2 ⟨_, hsw, hcl⟩
      have hnear : neighbours close search (s.point v) = [w] := by
        have := ha.unique (by rw [hold, hcv])
        match hn : neighbours close search (s.point v), this with
        | [], _ => rw [hn] at hin; simp at hin
        | [y], _ =>
          rw [hn] at hin
          rw [List.mem_singleton.1 hin]
        | _ :: _ :: _, this => rw [List.length_cons, List.length_cons] at this; omega
      exact ha.found w (by rw [hold, hcv]) hnear

/-- **Every edge of the border of a surface is an edge of a line.** -/
theorem border_edges {close : P → P → Bool} {nb : Nat} {surfaces : List (USurface P)}
    (hk : CornersKnown nb (surfaces.map USurface.toMSurface)) {starts : List (Nat × Nat × Nat)} (hnd : starts.Nodup) {b : Built P}
    (h : buildLines close nb surfaces starts = .ok b) {n : Nat} {s : USurface P} (hs : surfaces[n]? = some s) (g : GoodBorder close starts n s)
    {x : Nat × Nat × Nat} (hx : x ∈ starts) (hn : x.1 = n) {d : LineData P} (hd : computeLine s.toMSurface x.2 = .ok d) {e : Nat × Nat} (he : e ∈ pairs d.indices) :
    ∃ vs ∈ b.vertices, ∃ u1 u2, uniqueOf b n e.1 = some u1 ∧ uniqueOf b n e.2 = some u2 ∧ onLine vs (u1, u2) = true := by
  obtain ⟨d', k, l, vs, idx, h1, h2, h3, h4, h5, h6⟩ := border_joined hk hnd h hs g x hx hn
  rw [hd] at h1
  cases h1
  obtain ⟨i, hi1, hi2⟩ := mem_pairs_at (l := d.indices) (a := e.1) (b := e.2) he
  have hlen := h6.length_eq
  have key : ∀ {j v : Nat}, idx[j]? = some v → ∃ u, vs[j]? = some u ∧ uniqueOf b n v = some u := by
    intro j v hj
    have hjl := (List.getElem?_eq_some_iff.1 hj).1
    have := List.Forall₂.get h6 hjl (by omega)
    simp only [List.get_eq_getElem] at this
    rw [(List.getElem?_eq_some_iff.1 hj).2] at this
    exact ⟨_, List.getElem?_eq_getElem (by omega), this⟩
  have hil := (List.getElem?_eq_some_iff.1 hi2).1
  refine ⟨vs, List.mem_of_getElem? h3, ?_⟩
  rcases h5 with rfl | rfl
  · obtain ⟨u1, a1, a2⟩ := key hi1
    obtain ⟨u2, b1, b2⟩ := key hi2
    exact ⟨u1, u2, a2, b2, Verif.Props.LsoLines.onLine_iff.2 (.inl (pairs_at a1 b1))⟩
  · have r1 : d.indices.reverse[d.indices.length - 2 - i]? = some e.2 := by
      rw [List.getElem?_reverse (by omega), ← hi2]
      congr 1
      omega
    have r2 : d.indices.reverse[d.indices.length - 2 - i + 1]? = some e.1 := by
      rw [List.getElem?_reverse (by omega), ← hi1]
      congr 1
      omega
    obtain ⟨u2, b1, b2⟩ := key r1
    obtain ⟨u1, a1, a2⟩ := key r2
    exact ⟨u1, u2, a2, b2, Verif.Props.LsoLines.onLine_iff.2 (.inr (pairs_at b1 a1))⟩

/-! ## When lines are read -/

/-- Lines are read when all their starts are on borders. -/
theorem createLines_returns {close : P → P → Bool} {surfaces : List (MSurface P)} {starts : List (Nat × Nat × Nat)}
    (h : ∀ x ∈ starts, ∃ s d, surfaces[x.1]? = some s ∧ computeLine s x.2 = .ok d) : ∃ lines pieces, createLines close surfaces starts = .ok (lines, pieces) := by
  have : ∀ (xs : List (Nat × Nat × Nat)) (st : List (Line P) × List Piece), (∀ x ∈ xs, ∃ s d, surfaces[x.1]? = some s ∧ computeLine s x.2 = .ok d) →
      ∃ st', Res.foldM' (lineStep close surfaces) st xs = .ok st' := by
    intro xs
    induction xs with
    | nil => intro st _; exact ⟨st, rfl⟩
    | cons x xs ih =>
      intro st hx
      obtain ⟨s, d, h1, h2⟩ := hx x (by simp)
      have hst : lineStep close surfaces st x = .ok ((findOrCreate close st.1 d).1, st.2 ++ [⟨x.1, (findOrCreate close st.1 d).2.1, (findOrCreate close st.1 d).2.2⟩]) := by
        unfold lineStep
        rw [Res.index_eq_ok.2 h1, ok_bind, h2, ok_bind]
        rfl
      rw [foldM'_cons, hst, ok_bind]
      exact ih _ fun y hy => hx y (List.mem_cons_of_mem _ hy)
  obtain ⟨st, hst⟩ := this starts ([], []) h
  exact ⟨st.1, st.2, hst⟩

/-- The search stops at the first vertex that has two. -/
theorem missingAll_ok_or_throw {close : P → P → Bool} {search : List P} {vertices : List (List Nat)} {pieces : List Piece} :
    ∀ (ss : List (USurface P)) (n f : Nat), (∃ rs, missingAll close search vertices pieces n f ss = .ok rs) ∨
      (missingAll close search vertices pieces n f ss = .throw ∧ ∃ i s v, ss[i]? = some s ∧ v < s.nb ∧
        (tiedUniques vertices pieces (n + i) s)[v]? = some none ∧ 2 ≤ (neighbours close search (s.point v)).length)
  | [], _, _ => .inl ⟨[], rfl⟩
  | s :: ss, n, f => by
    rw [missingAll]
    have hl := (tiedUniques_at vertices pieces n s).1
    obtain ⟨h1, h2⟩ := missing_fails_iff (near := fun v => neighbours close search (s.point v)) (lines := vertices) (List.range s.nb)
      (tiedUniques vertices pieces n s) (tiedInternals pieces n) f List.nodup_range (fun v hv => by rw [hl]; exact List.mem_range.1 hv)
    rcases h1 with ⟨r, hr⟩ | ht
    · rw [hr, ok_bind]
      rcases missingAll_ok_or_throw ss (n + 1) r.2.2 with ⟨rs, hrs⟩ | ⟨hrs, i, t, v, a1, a2, a3, a4⟩
      · exact .inl ⟨_, by rw [hrs]; rfl⟩
      · refine .inr ⟨by rw [hrs]; rfl, i + 1, t, v, by rw [List.getElem?_cons_succ]; exact a1, a2, ?_, a4⟩
        rw [show n + (i + 1) = n + 1 + i by omega]
        exact a3
    · obtain ⟨v, hv, a1, a2⟩ := h2.1 ht
      exact .inr ⟨by rw [ht]; rfl, 0, s, v, rfl, List.mem_range.1 hv, a1, a2⟩

/-- Two different unique vertices of lines are at the place of a vertex. -/
def TwoNear (close : P → P → Bool) (nb : Nat) (lines : List (Line P)) (p : P) : Prop :=
  ∃ u u' q q', u ≠ u' ∧ AtLine lines (lineVertices nb lines) u q ∧ AtLine lines (lineVertices nb lines) u' q' ∧ close q p = true ∧ close q' p = true

/-- **Reading the lines of a file whose line starts are on borders ends**: with the lines, or with an exception because a corner ends no line or because a vertex
of a surface, tied to no line, is near two different vertices of lines. -/
theorem build_ok_or_throw {close : P → P → Bool} {nb : Nat} {surfaces : List (USurface P)} (hk : CornersKnown nb (surfaces.map USurface.toMSurface))
    {starts : List (Nat × Nat × Nat)} {lines : List (Line P)} {pieces : List Piece}
    (h : createLines close (surfaces.map USurface.toMSurface) starts = .ok (lines, pieces)) :
    (∃ b, MlLines.buildLines close nb surfaces starts = .ok b ∧ b.lines = lines) ∨ (MlLines.buildLines close nb surfaces starts = .throw ∧
      ((∃ c < nb, ¬EndsLine lines c) ∨ ∃ (i : Nat) (s : USurface P) (v : Nat), surfaces[i]? = some s ∧ v < s.nb ∧
        (tiedUniques (lineVertices nb lines) pieces i s)[v]? = some none ∧ TwoNear close nb lines (s.point v))) := by
  have hg := createLines_good hk h
  unfold MlLines.buildLines
  rw [h, ok_bind]
  rcases search_points hg with ⟨hc, ht⟩ | ⟨_, search, hse, hlen, hat⟩
  · exact .inr ⟨by simp only [ht, throw_bind], .inl hc⟩
  · simp only [hse, ok_bind]
    rcases missingAll_ok_or_throw (close := close) (search := search) (vertices := lineVertices nb lines) (pieces := pieces) surfaces 0 (nbUniques nb lines) with
      ⟨rs, hrs⟩ | ⟨hrs, i, s, v, a1, a2, a3, a4⟩
    · exact .inl ⟨_, by rw [hrs]; rfl, rfl⟩
    · rw [Nat.zero_add] at a3
      refine .inr ⟨by rw [hrs]; rfl, .inr ⟨i, s, v, a1, a2, a3, ?_⟩⟩
      have hnd : (neighbours close search (s.point v)).Nodup := List.Nodup.filter _ List.nodup_range
      match hn : neighbours close search (s.point v), a4 with
      | u :: u' :: r, _ =>
        have m1 : u ∈ neighbours close search (s.point v) := by rw [hn]; simp
        have m2 : u' ∈ neighbours close search (s.point v) := by rw [hn]; simp
        obtain ⟨q, q1, q2⟩ := mem_neighbours.1 m1
        obtain ⟨q', q1', q2'⟩ := mem_neighbours.1 m2
        rw [hn, List.nodup_cons] at hnd
        exact ⟨u, u', q, q', fun e => hnd.1 (by rw [e]; simp), hat u q q1, hat u' q' q1', q2, q2'⟩

/-- Every line is that of a line start, as the surface has it. -/
theorem line_made {close : P → P → Bool} {surfaces : List (MSurface P)} {starts : List (Nat × Nat × Nat)} {lines : List (Line P)} {pieces : List Piece}
    (h : createLines close surfaces starts = .ok (lines, pieces)) {k : Nat} {l : Line P} (hl : lines[k]? = some l) :
    ∃ x p s d, (x, p) ∈ starts.zip pieces ∧ surfaces[x.1]? = some s ∧ computeLine s x.2 = .ok d ∧ p.line = k ∧ p.indices = d.indices ∧ l.points = d.points := by
  have key : ∀ (xs done : List (Nat × Nat × Nat)) (st st' : List (Line P) × List Piece), done.length = st.2.length →
      (∀ (k : Nat) (l : Line P), st.1[k]? = some l → ∃ x p s d, (x, p) ∈ done.zip st.2 ∧ surfaces[x.1]? = some s ∧ computeLine s x.2 = .ok d ∧ p.line = k ∧
        p.indices = d.indices ∧ l.points = d.points) → Res.foldM' (lineStep close surfaces) st xs = .ok st' →
      ∀ (k : Nat) (l : Line P), st'.1[k]? = some l → ∃ x p s d, (x, p) ∈ (done ++ xs).zip st'.2 ∧ surfaces[x.1]? = some s ∧ computeLine s x.2 = .ok d ∧
        p.line = k ∧ p.indices = d.indices ∧ l.points = d.points := by
    intro xs
    induction xs with
    | nil =>
      intro done st st' _ hi hf
      cases hf
      rw [List.append_nil]
      exact hi
    | cons x xs ih =>
      intro done st st' hlen hi hf
      rw [foldM'_cons] at hf
      obtain ⟨st1, h1, hf⟩ := bind_eq_ok.1 hf
      have := ih (done ++ [x]) st1 st' ?_ ?_ hf
      · simpa using this
      · unfold lineStep at h1
        obtain ⟨s, hsx, h1⟩ := Res.bind_eq_ok.1 h1
        obtain ⟨d, hd, h1⟩ := Res.bind_eq_ok.1 h1
        cases h1
        simp [hlen]
      · unfold lineStep at h1
        obtain ⟨s, hsx, h1⟩ := Res.bind_eq_ok.1 h1
        obtain ⟨d, hd, h1⟩ := Res.bind_eq_ok.1 h1
        cases h1
        intro k l hl
        simp only at hl ⊢
        rw [List.zip_append hlen]
        have old : st.1[k]? = some l → ∃ x' p s d', (x', p) ∈ done.zip st.2 ++ [x].zip [(⟨x.1, (findOrCreate close st.1 d).2.1,
            (findOrCreate close st.1 d).2.2⟩ : Piece)] ∧ surfaces[x'.1]? = some s ∧ computeLine s x'.2 = .ok d' ∧ p.line = k ∧ p.indices = d'.indices ∧
            l.points = d'.points := by
          intro hl
          obtain ⟨x', p, s', d', a1, a2⟩ := hi k l hl
          exact ⟨x', p, s', d', List.mem_append_left _ a1, a2⟩
        have hmem : (x, (⟨x.1, (findOrCreate close st.1 d).2.1, (findOrCreate close st.1 d).2.2⟩ : Piece)) ∈ done.zip st.2 ++
            [x].zip [(⟨x.1, (findOrCreate close st.1 d).2.1, (findOrCreate close st.1 d).2.2⟩ : Piece)] := List.mem_append_right _ (by simp)
        have hcase : (findOrCreate close st.1 d).1 = st.1 ∨ ((findOrCreate close st.1 d).1 = st.1 ++ [⟨d.corner0, d.corner1, d.points⟩] ∧
            (findOrCreate close st.1 d).2 = (st.1.length, d.indices)) := by
          unfold findOrCreate
          split
          · exact .inl rfl
          · split
            · exact .inl rfl
            · exact .inr ⟨rfl, rfl⟩
        rcases hcase with e | ⟨e, e'⟩
        · rw [e] at hl
          exact old hl
        · rw [e] at hl
          by_cases hk : k < st.1.length
          · rw [List.getElem?_append_left hk] at hl
            exact old hl
          · rw [List.getElem?_append_right (by omega)] at hl
            have hk0 : k - st.1.length = 0 := by
              have := (List.getElem?_eq_some_iff.1 hl).1
              simp at this
              omega
            rw [hk0] at hl
            cases hl
            refine ⟨x, _, s, d, hmem, Res.index_eq_ok.1 hsx, hd, ?_, ?_, rfl⟩
            · show (findOrCreate close st.1 d).2.1 = k
              rw [e']
              show st.1.length = k
              omega
            · show (findOrCreate close st.1 d).2.2 = d.indices
              rw [e']
  have := key starts [] ([], []) (lines, pieces) rfl (by intro k l hl; simp at hl) h k l hl
  simpa using this

/-- A vertex on the border of a surface. -/
def OnBorder (s : MSurface P) (v : Nat) : Prop := ∃ e ∈ s.back.ends, e.1 = v ∨ e.2 = v

/-- A vertex that lines do not place: it is no corner, and it is inside the surface or no two lines start on the border. -/
def Loose (starts : List (Nat × Nat × Nat)) (n : Nat) (s : USurface P) (v : Nat) : Prop :=
  s.corner v = none ∧ (¬OnBorder s.toMSurface v ∨ (starts.filter fun x => decide (x.1 = n)).length < 2)

/-- At most one vertex on a border is at the place of a vertex. -/
def OneBorder (close : P → P → Bool) (surfaces : List (USurface P)) (q : P) : Prop :=
  ∀ (j j' : Nat) (t t' : USurface P) (w w' : Nat), surfaces[j]? = some t → surfaces[j']? = some t' → OnBorder t.toMSurface w → OnBorder t'.toMSurface w' →
    close (t.point w) q = true → close (t'.point w') q = true → j = j' ∧ w = w'

theorem ends_line {close : P → P → Bool} {surfaces : List (MSurface P)} {starts : List (Nat × Nat × Nat)} {lines : List (Line P)} {pieces : List Piece}
    (h : createLines close surfaces starts = .ok (lines, pieces)) {x : Nat × Nat × Nat} (hx : x ∈ starts) {s : MSurface P} (hs : surfaces[x.1]? = some s) {c : Nat}
    (hc : s.corner x.2.1 = some c) : EndsLine lines c := by
  obtain ⟨z1, z2⟩ := zip_right (createLines_pieces h)
  rw [← z2] at hx
  obtain ⟨z, hz, rfl⟩ := List.mem_map.1 hx
  obtain ⟨_, s', d, l, h1, h2, h3, h4, h5⟩ := zip_rel (createLines_pieces h) _ hz
  rw [hs] at h1
  cases h1
  have hd : d.indices.head? = some z.1.2.1 := by
    unfold computeLine at h2
    rw [hc] at h2
    obtain ⟨r, _, h2⟩ := Res.bind_eq_ok.1 h2
    unfold endLine at h2
    split at h2
    · cases h2
    · cases h2
      rfl
  refine ⟨l, List.mem_of_getElem? h3, ?_⟩
  rcases h5 with e | e
  · have := h4.first z.1.2.1 (by rw [e]; exact hd)
    rw [hc] at this
    exact .inl (Option.some.inj this).symm
  · have := h4.last z.1.2.1 (by rw [e, List.getLast?_reverse]; exact hd)
    rw [hc] at this
    exact .inr (Option.some.inj this).symm

/-- **Reading the lines succeeds** when every corner is at a line start, the borders are covered by lines, and at the place of a loose vertex there is at most one
vertex of a border. -/
theorem build_ok {close : P → P → Bool} {nb : Nat} {surfaces : List (USurface P)} (hk : CornersKnown nb (surfaces.map USurface.toMSurface))
    {starts : List (Nat × Nat × Nat)} (hnd : starts.Nodup) {lines : List (Line P)} {pieces : List Piece}
    (h : createLines close (surfaces.map USurface.toMSurface) starts = .ok (lines, pieces))
    (hg : ∀ (n : Nat) (s : USurface P), surfaces[n]? = some s → GoodBorder close starts n s)
    (hall : ∀ (n : Nat) (s : USurface P), surfaces[n]? = some s → ∀ e ∈ s.back.ends, ∃ x ∈ starts, x.1 = n ∧ ∃ d, computeLine s.toMSurface x.2 = .ok d ∧ e ∈ pairs d.indices)
    (hc : ∀ c < nb, ∃ x ∈ starts, ∃ s, surfaces[x.1]? = some s ∧ s.corner x.2.1 = some c)
    (hl : ∀ (n : Nat) (s : USurface P) (v : Nat), surfaces[n]? = some s → v < s.nb → Loose starts n s v → OneBorder close surfaces (s.point v)) :
    ∃ b, MlLines.buildLines close nb surfaces starts = .ok b := by
  have hsm : ∀ {n : Nat} {s : USurface P}, surfaces[n]? = some s → (surfaces.map USurface.toMSurface)[n]? = some s.toMSurface := by
    intro n s hs
    rw [List.getElem?_map, hs]
    rfl
  obtain ⟨z1, z2⟩ := zip_right (createLines_pieces h)
  rcases build_ok_or_throw hk h with ⟨b, hb, _⟩ | ⟨_, ⟨c, hcn, hce⟩ | ⟨n, s, v, hs, hv, ht, u, u', q, q', hne, ha, ha', hq, hq'⟩⟩
  · exact ⟨b, hb⟩
  · obtain ⟨x, hx, s, hs, hxc⟩ := hc c hcn
    exact absurd (ends_line h hx (hsm hs) hxc) hce
  exfalso
  have g := hg n s hs
  have hcv : s.corner v = none := by
    unfold tiedUniques at ht
    rcases (foldl_tie (lineVertices nb lines) v (tied (pieces.filter fun p => p.surface = n)) ((List.range s.nb).map s.corner)).2 with h2 | ⟨w', h2, _⟩
    · rw [h2, corner_at s hv] at ht
      exact Option.some.inj ht
    · rw [h2] at ht
      cases ht
  have hcount : (pieces.filter fun p => decide (p.surface = n)).length = (starts.filter fun x => decide (x.1 = n)).length := by
    rw [← List.countP_eq_length_filter, ← List.countP_eq_length_filter]
    conv_lhs => rw [← z1]
    conv_rhs => rw [← z2]
    rw [List.countP_map, List.countP_map]
    refine List.countP_congr fun z hz => ?_
    have := (zip_rel (createLines_pieces h) z hz).1
    simp [this]
  have hloose : Loose starts n s v := by
    refine ⟨hcv, ?_⟩
    by_contra hno
    rw [not_or, not_not, Nat.not_lt] at hno
    obtain ⟨⟨e, he, hev⟩, hmany⟩ := hno
    obtain ⟨x, hx, hxn, d, hd, hed⟩ := hall n s hs e he
    have hvd : v ∈ d.indices := by
      obtain ⟨i, h1, h2⟩ := mem_pairs_at (l := d.indices) (a := e.1) (b := e.2) hed
      rcases hev with rfl | rfl
      · exact List.mem_of_getElem? h1
      · exact List.mem_of_getElem? h2
    rw [← z2] at hx
    obtain ⟨⟨x', p⟩, hz, rfl⟩ := List.mem_map.1 hx
    simp only at hxn hd
    obtain ⟨d', l, vs, F⟩ := piece_facts hk h (hsm hs) g.next g.corners g.starts hz hxn
    have := F.computed
    rw [hd] at this
    cases this
    have hvp : v ∈ p.indices := by
      rcases F.order with e | e <;> rw [e]
      · exact hvd
      · exact List.mem_reverse.2 hvd
    obtain ⟨i, hi⟩ := List.getElem?_of_mem hvp
    have hil : i < vs.length := by rw [F.length]; exact (List.getElem?_eq_some_iff.1 hi).1
    have hp : p ∈ pieces := (List.of_mem_zip hz).2
    have hpn : p.surface = n := by rw [(zip_rel (createLines_pieces h) _ hz).1]; exact hxn
    have hperm := pieces_tied_partial (by rw [hcount]; exact hmany) (pieces_twice hk hnd h (hsm hs) g.next g.simple g.corners g.starts g.twice)
    have hmem : p ∈ tied (pieces.filter fun p => decide (p.surface = n)) := by
      rw [hperm.mem_iff, List.mem_filter]
      exact ⟨hp, by simp [hpn]⟩
    obtain ⟨w, a1, _⟩ := ties_hit (lineVertices nb lines) (v := v) (tied (pieces.filter fun p => decide (p.surface = n))) ((List.range s.nb).map s.corner)
      (by simpa using hv) ⟨p, hmem, vs[i], i, vs, F.vertices, hi, List.getElem?_eq_getElem hil⟩
    unfold tiedUniques at ht
    rw [a1] at ht
    cases ht
  have hone := hl n s v hs hv hloose
  have key : ∀ {u : Nat} {q : P}, AtLine lines (lineVertices nb lines) u q → ∃ (j : Nat) (t : USurface P) (w : Nat) (p : Piece), surfaces[j]? = some t ∧
      OnBorder t.toMSurface w ∧ t.point w = q ∧ p ∈ pieces ∧ p.surface = j ∧ TiedTo (lineVertices nb lines) p w u := by
    rintro u q ⟨k, i, l, vs, b1, b2, b3, b4⟩
    obtain ⟨x, p, s', d, hz, c1, c2, c3, c4, c5⟩ := line_made h b1
    rw [List.getElem?_map] at c1
    obtain ⟨t, hts, rfl⟩ := Option.map_eq_some_iff.1 c1
    have gt := hg _ t hts
    have hdp := (computeLine_data c2).points
    rw [c5, hdp, List.getElem?_map] at b4
    obtain ⟨w, hw, hwq⟩ := Option.map_eq_some_iff.1 b4
    obtain ⟨d', l', vs', F⟩ := piece_facts hk h (hsm hts) gt.next gt.corners gt.starts hz rfl
    have := F.computed
    rw [c2] at this
    cases this
    refine ⟨x.1, t, w, p, hts, ?_, hwq, (List.of_mem_zip hz).2, (zip_rel (createLines_pieces h) _ hz).1, i, vs, by rw [c3]; exact b2, by rw [c4]; exact hw, b3⟩
    have htwo : 2 ≤ d.indices.length := by rw [← c4]; exact F.two
    have hil := (List.getElem?_eq_some_iff.1 hw).1
    cases i with
    | zero => exact ⟨_, F.along.along _ (pairs_at hw (List.getElem?_eq_getElem (by omega))), .inl rfl⟩
    | succ i => exact ⟨_, F.along.along _ (pairs_at (List.getElem?_eq_getElem (by omega)) hw), .inr rfl⟩
  obtain ⟨j, t, w, p, k1, k2, rfl, k4, k5, k6⟩ := key ha
  obtain ⟨j', t', w', p', k1', k2', rfl, k4', k5', k6'⟩ := key ha'
  obtain ⟨e1, e2⟩ := hone j j' t t' w w' k1 k1' k2 k2' hq hq'
  subst e1 e2
  have gt := hg j t k1
  exact hne (pieces_agree hk hnd h (hsm k1) gt.next gt.simple gt.corners gt.starts k4 k4' k5 k5' k6 k6')

end Verif.Props.MlBorders
